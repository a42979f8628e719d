{"id": "C01", "title": "Usable size covers the request", "statement": "Whenever malloc, calloc, realloc, aligned_alloc, posix_memalign, memalign, valloc or pvalloc returns a non-NULL pointer for a request of n bytes, malloc_usable_size of that pointer is at least n and every one of those usable bytes is readable and writable (n > 0).", "quantifier": "every request size in the 64-bit range, every alignment, every build configuration, every prior history of API calls, OS failures and random draws", "why_tests_cant": "size and history space is unbounded; tests sample sizes", "anchors": ["h_malloc.c:h_malloc", "h_malloc.c:get_size_info", "h_malloc.c:get_large_size_class", "h_malloc.c:h_malloc_usable_size", "h_malloc.c:adjust_size_for_canary"]}
{"id": "C02", "title": "Live blocks never overlap", "statement": "At every moment, the address ranges (usable bytes plus canary) of any two distinct live allocations are disjoint.", "quantifier": "every finite history of API calls by every thread mix, every OS/RNG outcome, every adversarial application store", "why_tests_cant": "histories are unbounded; overlap may need a rare sequence of frees, quarantine evictions, slab recycling and table growth", "anchors": ["h_malloc.c:allocate_small", "h_malloc.c:allocate_large", "h_malloc.c:get_free_slot", "h_malloc.c:regions_insert"]}
{"id": "C03", "title": "Alignment guarantees", "statement": "malloc/calloc/realloc return 16-byte aligned pointers; aligned_alloc/memalign/posix_memalign honour any accepted power-of-two alignment; valloc/pvalloc are page aligned.", "quantifier": "every size, every power-of-two alignment up to 2^63, every history, every mmap placement", "why_tests_cant": "alignment x size x placement space is too large to enumerate", "anchors": ["h_malloc.c:allocate_aligned", "h_malloc.c:get_size_info_align", "pages.c:allocate_pages_aligned"]}
{"id": "C04", "title": "Every invalid free is detected", "statement": "free(p) for a non-NULL p that is not the address of a currently live allocation (double free, free while quarantined, interior or unaligned pointer, never-allocated slot, guard slab, gap between regions, foreign memory, uninitialised allocator) always ends in a fatal error and never returns or corrupts state.", "quantifier": "every 64-bit pointer value and every reachable allocator state, including states reached by a misbehaving application", "why_tests_cant": "2^64 pointers times unbounded states", "anchors": ["h_malloc.c:deallocate_small", "h_malloc.c:get_metadata", "h_malloc.c:deallocate_large", "h_malloc.c:regions_find", "h_malloc.c:enforce_init"]}
{"id": "C05", "title": "Valid programs are never aborted", "statement": "If the application frees/reallocates only live pointers and stores only inside its live allocations, no allocator call ends in a fatal error or undefined behaviour once initialisation succeeded (except for the sized/aligned interactions recorded in C11, C12).", "quantifier": "every history of a well-behaved application, every OS out-of-memory pattern, every random draw", "why_tests_cant": "a false positive may need a specific recycling history or failure pattern", "anchors": ["h_malloc.c:deallocate_small", "h_malloc.c:check_canary", "h_malloc.c:write_after_free_check", "h_malloc.c:h_realloc"]}
{"id": "C06", "title": "Fresh memory is zero", "statement": "With zero-on-free and the write-after-free check (default configuration), every byte of the usable area of a small block returned by malloc is zero, whatever the application stored anywhere before; large blocks are always fresh zero pages.", "quantifier": "every size, every history including stores to freed memory", "why_tests_cant": "a stale byte can only appear after particular reuse histories", "anchors": ["h_malloc.c:allocate_small", "h_malloc.c:write_after_free_check", "h_malloc.c:deallocate_small"]}
{"id": "C07", "title": "calloc zeroes and checks overflow", "statement": "calloc(a,b) returns NULL with errno ENOMEM and no state change when a*b overflows 64 bits; otherwise a non-NULL result has at least a*b usable bytes and the first a*b bytes are zero, in every configuration, for applications that do not write to freed memory.", "quantifier": "all pairs of 64-bit operands, every configuration, every history", "why_tests_cant": "2^128 operand pairs and unbounded histories", "anchors": ["h_malloc.c:h_calloc"]}
{"id": "C08", "title": "Write after free is caught before reuse", "statement": "With the write-after-free check, if a freed slot contains a non-zero byte in its usable area when the allocator selects it for reuse from a partial or cached slab, the process is aborted; the slot is never handed out.", "quantifier": "every history, every location and value of the stray store", "why_tests_cant": "needs the allocator to select exactly that slot", "anchors": ["h_malloc.c:write_after_free_check", "h_malloc.c:allocate_small"]}
{"id": "C09", "title": "Canary detects overflow; leading byte zero", "statement": "With canaries, if any of the 8 bytes after the usable area of a live small block differs from the canary when it is freed, its usable size is queried or realloc is about to move it, the process is aborted; the first byte after the usable area is zero when the block is handed out.", "quantifier": "every class, every slot, every corruption pattern, every canary value", "why_tests_cant": "2^56 canary values; every corruption pattern", "anchors": ["h_malloc.c:set_canary", "h_malloc.c:check_canary", "h_malloc.c:set_slab_canary_value"]}
{"id": "C10", "title": "realloc preserves contents", "statement": "A successful realloc(p,n) returns a block whose first min(n, requested size of p) bytes equal those of the old block; all other live blocks keep their contents; a failed realloc leaves the old block live and unchanged.", "quantifier": "every old/new size pair, small/large combinations, shrink in place, mremap move and its failure, every history", "why_tests_cant": "size pairs times OS outcomes", "anchors": ["h_malloc.c:h_realloc", "memory.c:memory_remap_fixed"]}
{"id": "C11", "title": "realloc accepts every live pointer", "statement": "realloc(p,n) never aborts or misbehaves for a live pointer p however it was allocated.", "quantifier": "every live pointer including those from aligned_alloc with alignment above the page size", "why_tests_cant": "needs the combination of over-page alignment, small size and realloc to a different size", "anchors": ["h_malloc.c:h_realloc", "h_malloc.c:allocate_aligned", "h_malloc.c:deallocate_small"]}
{"id": "C12", "title": "Sized deallocation check", "statement": "free_sized(p,n) (and C++ sized delete) for a live p returns normally exactly when n rounds to the size class the block was allocated with, and aborts otherwise; freeing with the size originally requested always succeeds.", "quantifier": "every live pointer, every claimed size", "why_tests_cant": "size x class space; aligned C++ delete interaction is easy to miss", "anchors": ["h_malloc.c:h_free_sized", "h_malloc.c:deallocate_small", "h_malloc.c:deallocate_large", "new.cc:operator delete"]}
{"id": "C13", "title": "Zero-size allocations", "statement": "malloc(0) returns distinct live pointers that free accepts, and no byte of the memory they point to is ever readable or writable.", "quantifier": "every history", "why_tests_cant": "accessibility must hold at all times in all histories", "anchors": ["h_malloc.c:allocate_small", "h_malloc.c:alloc_metadata"]}
{"id": "C14", "title": "Size class rounding is minimal and bounded", "statement": "For every small request the chosen class is the smallest table entry that fits, class index and size agree with the table used by free, and internal waste is below 20% of the class for requests above 128 bytes (and at most 15 bytes up to 128).", "quantifier": "every size from 0 to the largest class, and the continuation to all 64-bit sizes for large classes", "why_tests_cant": "property of every size, and of agreement between formula and table", "anchors": ["h_malloc.c:get_size_info", "h_malloc.c:size_classes", "h_malloc.c:get_size_info_align"]}
{"id": "C15", "title": "Large size rounding", "statement": "Rounding a large request yields 0 exactly when the rounded size does not fit in 64 bits; otherwise it is page-aligned, not smaller than the request, with waste below 25% of the request.", "quantifier": "all 64-bit sizes", "why_tests_cant": "2^64 sizes with wrap-around at the top", "anchors": ["h_malloc.c:get_large_size_class", "util.h:align"]}
{"id": "C16", "title": "Impossible requests fail cleanly", "statement": "A request that cannot be represented with its guards, or for which the OS refuses memory, returns NULL (or ENOMEM) and leaves every live allocation, its contents and all later behaviour unaffected.", "quantifier": "every size, every failing system call at every point of every API function", "why_tests_cant": "every failure point in every state", "anchors": ["pages.c:allocate_pages", "pages.c:allocate_pages_aligned", "h_malloc.c:allocate_large", "h_malloc.c:alloc_metadata"]}
{"id": "C17", "title": "Size class and arena isolation", "statement": "The address of a small block alone determines the arena and size class it was allocated from; address space used for one (arena, class) is never used for another or for large blocks; different class regions are separated by at least one inaccessible page.", "quantifier": "every pointer ever returned, every history, every random region base", "why_tests_cant": "must hold for all random bases and addresses", "anchors": ["h_malloc.c:slab_size_class", "h_malloc.c:init_slow_path"]}
{"id": "C18", "title": "Guard slabs", "statement": "Within a class region, after every GUARD_SLABS_INTERVAL slabs one slab-sized area is never allocated from and never made accessible; the region never extends past its reserved size.", "quantifier": "every history and interval", "why_tests_cant": "long histories with many slabs", "anchors": ["h_malloc.c:alloc_metadata"]}
{"id": "C19", "title": "Guards around large allocations", "statement": "Every live large allocation is preceded and followed by at least one whole page that is mapped inaccessible, so the first byte after the (page-rounded) block and the byte before it always fault; guard length is random with an upper bound given by the divisor.", "quantifier": "every history including in-place shrink, aligned allocation and mremap moves", "why_tests_cant": "placement and history dependent", "anchors": ["pages.c:allocate_pages", "pages.c:allocate_pages_aligned", "h_malloc.c:get_guard_size", "h_malloc.c:h_realloc"]}
{"id": "C20", "title": "Small quarantine delay", "statement": "After free(p) of a small block, p is not handed out again until at least the queue length (of that class) further frees of the same arena and class have occurred.", "quantifier": "every history and every random draw", "why_tests_cant": "needs all interleavings of frees/allocs and random choices", "anchors": ["h_malloc.c:deallocate_small"]}
{"id": "C21", "title": "Large quarantine", "statement": "A large block below the skip threshold that is freed by free or free_sized becomes inaccessible immediately and its address range (with guards) stays reserved until at least queue-length further large frees have been quarantined; it is unmapped exactly once.", "quantifier": "every history and every random draw", "why_tests_cant": "as C20, plus unmapping the wrong range is only visible in rare histories", "anchors": ["h_malloc.c:regions_quarantine_deallocate_pages", "h_malloc.c:deallocate_large"]}
{"id": "C22", "title": "Purged slabs", "statement": "A slab without allocations that is not cached is purged and inaccessible; it becomes accessible again only when an allocation is served from it; every such slab remains available for later reuse (none is lost or listed twice).", "quantifier": "every history", "why_tests_cant": "list corruption only shows after particular histories", "anchors": ["h_malloc.c:deallocate_small", "h_malloc.c:enqueue_free_slab", "h_malloc.c:allocate_small"]}
{"id": "C23", "title": "Empty slab cache bound", "statement": "The memory held in cached slabs of a class without live or quarantined blocks never exceeds the configured limit unless the OS refused to remap a slab.", "quantifier": "every history", "why_tests_cant": "fragmentation that keeps a full slab from being used shows only after particular histories of allocations and frees", "anchors": ["h_malloc.c:deallocate_small", "h_malloc.c:max_empty_slabs_total"]}
{"id": "C24", "title": "Large allocation lookup is exact", "statement": "Looking up an address among large allocations finds it exactly when it is currently live with its exact size and guard, for every sequence of insertions, deletions and table growths and any collision pattern; lookups always terminate.", "quantifier": "every sequence of operations, every set of addresses, every hash function", "why_tests_cant": "collision clusters with wrap-around and deletion back-shift are practically untestable exhaustively", "anchors": ["h_malloc.c:regions_find", "h_malloc.c:regions_insert", "h_malloc.c:regions_delete", "h_malloc.c:regions_grow", "pages.h:hash_page"]}
{"id": "C25", "title": "errno discipline", "statement": "Every NULL return of an allocation function leaves errno = ENOMEM (or EINVAL for bad alignment); free leaves errno unchanged.", "quantifier": "every failure path", "why_tests_cant": "rare failure paths such as table exhaustion", "anchors": ["h_malloc.c:allocate_large", "h_malloc.c:regions_insert", "h_malloc.c:h_free", "h_malloc.c:deallocate_small", "memory.c"]}
{"id": "C26", "title": "malloc_usable_size validates its argument", "statement": "malloc_usable_size(p) returns for NULL (0) and exactly for live pointers, with the full usable size; for any other pointer it aborts; it changes nothing.", "quantifier": "every 64-bit pointer and every reachable state", "why_tests_cant": "2^64 pointers times states", "anchors": ["h_malloc.c:h_malloc_usable_size", "h_malloc.c:memory_corruption_check_small"]}
{"id": "C27", "title": "malloc_object_size is an upper bound", "statement": "For any pointer into the usable area of a live block malloc_object_size returns at least the number of bytes from the pointer to the end of the requested object (exactly the distance to the end of the usable area for small blocks), SIZE_MAX for unknown pointers, without undefined behaviour.", "quantifier": "every pointer value, every state", "why_tests_cant": "zero-size slabs and canary bytes are corner cases that depend on slab index", "anchors": ["h_malloc.c:h_malloc_object_size", "h_malloc.c:h_malloc_object_size_fast"]}
{"id": "C28", "title": "malloc_trim is safe", "statement": "malloc_trim never changes a live block, its contents or accessibility; it releases every cached empty slab unless the OS refuses; it returns 1 exactly if some page lost its access.", "quantifier": "every state and every OS outcome", "why_tests_cant": "the set of reachable heap states is unbounded, and a wrongly purged slab is only noticed if it holds data", "anchors": ["h_malloc.c:h_malloc_trim"]}
{"id": "C29", "title": "Statistics are exact", "statement": "With stats enabled, reported allocated bytes equal the sum of the sizes of live blocks (small: class sizes; large: region sizes) and mapped bytes are never less than allocated bytes.", "quantifier": "every history", "why_tests_cant": "accumulated drift is only visible on particular paths", "anchors": ["h_malloc.c:stats_small_allocate", "h_malloc.c:stats_large_allocate", "h_malloc.c:allocate_aligned", "h_malloc.c:h_mallinfo2"]}
{"id": "C30", "title": "Bounded random numbers are in range and unbiased", "statement": "The bounded random functions return a value below the bound for every generator output; accepted outputs are spread exactly evenly over the range.", "quantifier": "every bound, every generator output", "why_tests_cant": "counting over 2^64 outputs and all bounds", "anchors": ["random.c:get_random_u16_uniform", "random.c:get_random_u64_uniform"]}
{"id": "C31", "title": "No keystream byte is used twice", "statement": "For every sequence of requests to a random state no two output bytes come from the same keystream position; the generator is reseeded from the OS before more than the reseed size is served from one key by requests of at most the size of its cache; output is the ChaCha8 keystream.", "quantifier": "every sequence of requests of every size", "why_tests_cant": "request sequences are unbounded and reuse of keystream needs a specific alignment of lengths with the reseed counter", "anchors": ["random.c:refill", "random.c:get_random_bytes", "random.c:get_random_u16", "random.c:get_random_u64", "chacha.c:chacha_keystream_bytes"]}
{"id": "C32", "title": "Fast division is exact", "statement": "The precomputed-reciprocal division used to map addresses to slabs and slots equals integer division.", "quantifier": "every divisor >= 1 and every 32-bit / 64-bit numerator", "why_tests_cant": "2^128 pairs", "anchors": ["third_party/libdivide.h:libdivide_u32_gen", "third_party/libdivide.h:libdivide_u32_do", "third_party/libdivide.h:libdivide_u64_gen", "third_party/libdivide.h:libdivide_u64_do"]}
{"id": "C33", "title": "Free slot search", "statement": "On a slab with a free slot, slot selection terminates and returns a free slot inside the slab, and every free slot can be selected under some random draw; on a full slab it never returns a slot.", "quantifier": "every bitmap, every slot count 1..256, every random start", "why_tests_cant": "2^256 bitmaps", "anchors": ["h_malloc.c:get_free_slot", "h_malloc.c:get_mask", "util.h:ffz64"]}
{"id": "C34", "title": "Memory tags", "statement": "With memory tagging, a new allocation's tag is never 0, never the previous tag of its slot and never the current or last tag of either neighbouring slot, so adjacent live blocks of a slab always have different tags, memory right next to a live block never has the tag of its pointer (if it can be accessed at all, with a guard slab after each slab), and a dangling pointer to a slot mismatches until the slot has been reallocated a second time.", "quantifier": "every slot history and every random tag choice", "why_tests_cant": "histories of neighbouring slots", "anchors": ["h_malloc.c:tag_and_clear_slab_slot", "util.h:u4_arr_set", "util.h:u4_arr_get", "memtag.h"]}
{"id": "C35", "title": "Slab memory stays tag-checked", "statement": "With memory tagging enabled, slab memory handed to the application is mapped with tag checking.", "quantifier": "every history including slab purge and reuse", "why_tests_cant": "only after a slab is purged and reused", "anchors": ["memory.c:memory_map_fixed", "memory.c:memory_map_mte", "h_malloc.c:deallocate_small"]}
{"id": "C36", "title": "Thread safety: disjoint live blocks under every interleaving", "statement": "For every interleaving of the critical sections and system calls of any number of threads, live blocks of all threads stay disjoint, no block in use by one thread is touched by an operation of another thread, and valid frees succeed.", "quantifier": "every number of threads, every schedule, every OS/RNG outcome", "why_tests_cant": "the number of schedules is unbounded and failing ones may be extremely rare", "anchors": ["mutex.h", "h_malloc.c:allocate_large", "h_malloc.c:deallocate_large", "h_malloc.c:regions_quarantine_deallocate_pages", "h_malloc.c:h_realloc"]}
{"id": "C37", "title": "Deadlock freedom", "statement": "No interleaving of API calls, trim, stats, malloc_disable/enable and fork handlers reaches a state in which some thread waits for an allocator lock and no thread can make progress.", "quantifier": "every number of threads, every schedule", "why_tests_cant": "whether two calls race depends on the schedule; a test observes a few schedules out of unboundedly many", "anchors": ["h_malloc.c:full_lock", "h_malloc.c:full_unlock", "mutex.h"]}
{"id": "C38", "title": "fork safety", "statement": "After fork the child sees a consistent allocator: every lock is free, no operation is half done, every random state is freshly reseeded and parent allocations are still valid.", "quantifier": "every schedule of other threads at the time of fork", "why_tests_cant": "needs fork at every point of every schedule, with every lock in every state", "anchors": ["h_malloc.c:full_lock", "h_malloc.c:post_fork_child", "h_malloc.c:init_slow_path"]}
{"id": "C39", "title": "Initialisation happens once and arenas are in range", "statement": "Under concurrent first use exactly one thread initialises the allocator, every thread sees the initialised state before using it, and each thread uses one fixed arena below the arena count.", "quantifier": "every number of threads, every schedule, counter wrap-around", "why_tests_cant": "deadlock and double initialisation show only in particular schedules", "anchors": ["h_malloc.c:init", "h_malloc.c:init_slow_path"]}
{"id": "C40", "title": "C++ operators", "statement": "operator new never returns null (it returns memory or throws bad_alloc, or lets a foreign handler exception propagate); nothrow new never throws bad_alloc; the new-handler is retried until it succeeds, is absent, or throws.", "quantifier": "every sequence of allocation results and handler behaviours", "why_tests_cant": "handlers may return, throw or change the handler any number of times", "anchors": ["new.cc:handle_out_of_memory", "new.cc:new_impl"]}
{"id": "C41", "title": "Alignment argument validation", "statement": "aligned_alloc/memalign reject exactly non-powers-of-two (and 0) with EINVAL; posix_memalign additionally rejects alignments below sizeof(void*), returns the error code, and leaves *memptr untouched on failure.", "quantifier": "all 64-bit alignments and sizes", "why_tests_cant": "2^128 argument pairs", "anchors": ["h_malloc.c:allocate_aligned", "h_malloc.c:alloc_aligned", "h_malloc.c:h_posix_memalign"]}
{"id": "C42", "title": "Metadata access is sealed outside the allocator", "statement": "With metadata sealing, every API function returns with metadata access disabled for the thread and touches metadata only while it is enabled.", "quantifier": "every API function and every path through it", "why_tests_cant": "must hold on every path of every call, including failure paths", "anchors": ["h_malloc.c:thread_seal_metadata", "h_malloc.c:thread_unseal_metadata"]}
{"id": "C43", "title": "Other blocks are untouched", "statement": "No allocator call changes a byte of, or the accessibility of, a live block other than the one it is freeing or reallocating.", "quantifier": "every call, every state, every byte of every other live block", "why_tests_cant": "every byte of every live block in every reachable state, for every call", "anchors": ["h_malloc.c:deallocate_small", "h_malloc.c:allocate_small", "h_malloc.c:h_realloc", "pages.c:deallocate_pages"]}
{"id": "C44", "title": "Class capacity", "statement": "A small allocation fails only when the OS refuses memory or every slab position of the class region is in use or among the fixed number held back by the quarantine of freed slabs; slab positions never exceed the region.", "quantifier": "every history", "why_tests_cant": "needs exhausting a 32 GiB region", "anchors": ["h_malloc.c:alloc_metadata", "h_malloc.c:get_metadata_max"]}
{"id": "C45", "title": "Seed and error output are complete", "statement": "Seeding fills exactly the requested bytes under any pattern of short reads and EINTR (or aborts); the fatal message is written completely under any pattern of short writes and EINTR.", "quantifier": "every pattern of short reads/writes", "why_tests_cant": "the pattern of interrupted and short system calls is unbounded and hard to provoke", "anchors": ["random.c:get_random_seed", "util.c:write_full", "util.c:fatal_error"]}
{"id": "C46", "title": "Freed blocks cannot be observed through the API", "statement": "A block freed by the application is unusable by every API function: free, free_sized and malloc_usable_size abort on it while it is quarantined or free, realloc never yields a block for it (at most it returns the same pointer and changes nothing), and malloc_object_size aborts or reports an unknown object.", "quantifier": "every freed pointer, every state", "why_tests_cant": "2^64 pointers, each in every reachable state and after every way of being freed", "anchors": ["h_malloc.c:deallocate_small", "h_malloc.c:memory_corruption_check_small", "h_malloc.c:h_malloc_object_size", "h_malloc.c:h_realloc"]}
{"id": "C47", "title": "Memory errors do not reach undefined behaviour in the allocator", "statement": "Whatever the application stored and whatever pointers it passed before and passes now, every call returns or aborts with an error message and never loops; only realloc of a pointer that is not a live block may also end in a memory fault, and only realloc of a small block of over-page alignment and malloc_object_size of a pointer into the area of zero byte blocks may have undefined behaviour.", "quantifier": "every application, every heap corruption within application memory, every argument, every kernel result", "why_tests_cant": "an attacker chooses arguments and history; a crash of an unforeseen kind needs a specific combination", "anchors": ["h_malloc.c:deallocate_small", "h_malloc.c:deallocate_large", "h_malloc.c:h_realloc", "h_malloc.c:h_malloc_object_size"]}
{"id": "C48", "title": "First use", "statement": "From the start of the process: before the first allocating call queries report an empty heap, freeing aborts and the allocator has mapped nothing; the first allocating call initialises the allocator and then behaves, like all later calls, as the other properties say, whatever was called before.", "quantifier": "every history from process start, every kernel result during initialisation", "why_tests_cant": "needs every order of first calls and every kernel failure during initialisation", "anchors": ["h_malloc.c:init", "h_malloc.c:init_slow_path", "h_malloc.c:enforce_init", "h_malloc.c:is_init"]}
{"id": "C49", "title": "Address space is not lost", "statement": "If the operating system refuses no request, every page that is mapped at any time was mapped by others than the allocator, or when the allocator was initialised, or belongs to a live large block (including its guards), or is in the quarantine for freed large blocks, which has a fixed number of entries. Every such byte that can be read or written was mapped at initialisation or is in a page of a live large block. In particular, if the quarantine for large blocks is disabled, then after all large blocks have been freed or moved nothing is mapped that was not mapped at initialisation or by others, whatever sequence of malloc, aligned allocation, realloc in all its variants, free and malloc_trim went before.", "quantifier": "every application, history, argument, address chosen by the kernel and random number; kernel requests succeed", "why_tests_cant": "a leaked range is invisible to the program and may need a particular variant of realloc, eviction from the quarantine or table growth", "anchors": ["h_malloc.c:allocate_large", "h_malloc.c:deallocate_large", "h_malloc.c:h_realloc", "h_malloc.c:regions_quarantine_deallocate_pages", "h_malloc.c:regions_grow", "pages.c:allocate_pages_aligned"]}
{"id": "C50", "title": "Memory mapped by others is never touched", "statement": "Pages that the application, the loader or the kernel map while the process runs are never written, released, reprotected or given out as a block by the allocator, at any moment of any interleaving of calls, whatever the kernel answers. Conversely, whatever others do with their pages or with pages that are not mapped, the live blocks keep their usable size, contents and access rights.", "quantifier": "every application, history, schedule, page, moment at which it is mapped, address chosen by the kernel and failure", "why_tests_cant": "a wrong range harms only if something else happens to be mapped there at that moment, possibly in a window between two system calls", "anchors": ["pages.c:allocate_pages", "pages.c:allocate_pages_aligned", "pages.c:deallocate_pages", "memory.c:memory_unmap", "h_malloc.c:h_realloc", "h_malloc.c:deallocate_large", "h_malloc.c:regions_grow"]}
{"id": "C51", "title": "Calls that overlap in the middle of their work cannot be told from calls that do each step at once", "statement": "While one thread is in the middle of changing the allocator's data under a lock, so that this data is in arbitrary disorder, calls of other threads that do not need that lock, and the application's accesses to its blocks, go on and have exactly the results that they could have if every such change were made at once: the same histories of calls and results are possible, no call fails or crashes because of what it reads meanwhile, and the application finds in its blocks what it stored. (As long as the kernel does not refuse to release the tail of an over-aligned mapping, see C36.)", "quantifier": "every application, history, schedule, moment within each change, order in which the parts of the data are read and written, and values that unfinished data may hold", "why_tests_cant": "a data race shows only if two threads meet within a few instructions; schedules and intermediate states are unboundedly many", "anchors": ["h_malloc.c:allocate_small", "h_malloc.c:deallocate_small", "h_malloc.c:h_malloc_trim", "h_malloc.c:struct size_class", "h_malloc.c:struct region_allocator", "mutex.h:mutex_lock", "mutex.h:mutex_unlock", "h_malloc.c:full_lock"]}
{"id": "C52", "title": "Reports on arenas and size classes are exact", "statement": "With statistics enabled, the reports on a size class of an arena (mallinfo_bin_info, malloc_info) give exactly the number of blocks that were allocated in it and the number that were released since the start (modulo 2^64), the bytes in its live blocks and the bytes in its slabs in use; the reports on an arena are the sums of those, those on large blocks are the bytes in live large blocks, and all arenas together add up to what mallinfo reports. malloc_info fails with EINVAL for options other than 0, and otherwise writes one element for each arena and for each size class that was ever used. Asking for a report changes nothing and never fails.", "quantifier": "every application, history, thread, arena, size class, kernel result and configuration", "why_tests_cant": "counters drift by single missed updates on rare paths (quarantine, realloc, trimming, failed requests), which shows only over long histories", "anchors": ["h_malloc.c:h_mallinfo_arena_info", "h_malloc.c:h_mallinfo_bin_info", "h_malloc.c:h_mallinfo_narenas", "h_malloc.c:h_mallinfo_nbins", "h_malloc.c:h_malloc_info", "h_malloc.c:stats_small_allocate", "h_malloc.c:stats_small_deallocate"]}
{"id": "C53", "title": "Racing frees of one block are caught", "statement": "If several threads free the same block at the same time, one of the frees succeeds and every other one that takes effect before the block is handed out again aborts the program. The same holds for any pointer that is not a live block, whatever allocator calls of other threads are in progress: the free aborts before it changes anything. A free that takes effect when the application has been given the block anew is the same as one that was called at that moment, and does no harm to other blocks.", "quantifier": "every interleaving, history of the other threads, pointer, number of racing threads, kernel result other than the one excluded in C36, and configuration", "why_tests_cant": "the window between the check and the update is a few instructions wide, and which block reuse falls into it depends on the schedule", "anchors": ["h_malloc.c:h_free", "h_malloc.c:h_free_sized", "h_malloc.c:deallocate_small", "h_malloc.c:deallocate_large"]}
{"id": "C54", "title": "Stray stores of one thread do not break the allocator for the others", "statement": "While several threads make allocator calls, the program may at any moment overwrite any memory it can write to: beyond the end of a block, in a block that was freed, in unused parts of the heap. As long as it passes only blocks it owns to the allocator, the blocks it owns stay accessible, properly aligned, at least as large as requested and disjoint, new blocks are never ones it already owns, and no allocator call, of whichever thread, changes the contents of a block it owns. Every call either behaves as it could have done had none of these stores been made, or aborts the program with a message that memory was overwritten; it never crashes, loops or returns something else.", "quantifier": "every program, number of threads, interleaving, address and value of the stray stores, kernel result and configuration", "why_tests_cant": "the stores, their timing and the state of the heap they hit are unboundedly many; a dependency of the bookkeeping on heap contents may show only for one of them", "anchors": ["h_malloc.c:allocate_small", "h_malloc.c:deallocate_small", "h_malloc.c:write_after_free_check", "h_malloc.c:check_canary", "h_malloc.c:h_realloc", "h_malloc.c:deallocate_large"]}
{"id": "C55", "title": "Guards, separation and fresh memory while threads run", "statement": "At every moment while several threads make allocator calls: the pages around the area of each size class, the guard slabs, the pages before and behind each large block the program owns, and blocks of size 0 cannot be accessed; every block the program owns lies inside one slab of the area of one size class, or outside of all areas. This holds even if the program overwrites arbitrary writable memory. If it does not, memory that is newly handed out is zero (with zero-on-free or the write-after-free check; large blocks always).", "quantifier": "every program, number of threads, interleaving, moment within a call, stray store, kernel result other than the one excluded in C36, and configuration", "why_tests_cant": "a guard that is accessible for an instant between two system calls, or a block that is handed out before it is cleared, is only seen by a thread that runs at that instant", "anchors": ["h_malloc.c:alloc_metadata", "h_malloc.c:allocate_small", "h_malloc.c:deallocate_small", "h_malloc.c:allocate_large", "h_malloc.c:deallocate_large", "h_malloc.c:h_realloc", "h_malloc.c:regions_quarantine_deallocate_pages", "pages.c:allocate_pages"]}
{"id": "C56", "title": "Delayed reuse while threads run", "statement": "While calls of several threads are interleaved in any way, a small block given to free, free_sized, or to a realloc that moved it, is not handed out again before the number of calls that free or reallocate a block of the same arena and size class, and that were in progress when the block was given up or have begun since, has reached the length of the quarantine queue of the class (plus one if the random quarantine is used); this also holds while the freeing call is still in progress, and wherever the application's stores go. A freed large block below the size threshold of the quarantine stays reserved after the call that freed it has returned, with a guard page on each side, and is part of no other block, as long as the number of calls that free or reallocate a large block, and that were in progress when it was freed or have begun since, is below the length of the region queue (plus one if the random quarantine is used); if the kernel never refuses a request, its bytes are inaccessible all that time.", "quantifier": "all valid configurations, all interleavings of the calls of any number of threads at lock sections and system calls, all forks, all random draws, all kernel results except the one excluded for C36, all stray stores, all later histories", "why_tests_cant": "whether a slot leaves the quarantine early depends on which of the calls in progress have passed through their lock section, and on the random draws; tests sample few schedules", "anchors": ["h_malloc.c:deallocate_small", "h_malloc.c:regions_quarantine_deallocate_pages", "h_malloc.c:deallocate_large", "h_malloc.c:h_realloc", "h_malloc.c:h_free"]}
{"id": "C57", "title": "Overlapping calls lose nothing", "statement": "However the calls of several threads overlap, whenever no call is in progress: the allocator treats exactly the blocks the program owns as allocated, so that free, free_sized and malloc_usable_size of anything else abort, and the reported bytes and counts of each size class and arena are those of the blocks the program owns there; if no call asked for an alignment above the page size, what mallinfo reports as allocated is exactly the sum of the sizes of the blocks the program owns. If the kernel never refuses a request, every page that is mapped was mapped by the initialisation or by others than the allocator, belongs to a large block the program owns or to its guards, or is in the quarantine for large blocks; with no such quarantine, once the program owns no large block, nothing is mapped beyond what was mapped initially or by others. This excludes processes created by a fork during which another thread was in the middle of a call.", "quantifier": "all valid configurations, all interleavings of the calls of any number of threads at lock sections and system calls, all programs without memory errors, all random draws, all kernel results except the one excluded for C36 (for the part about pages: no refusals), forks when no call is in progress, mappings of others at any moment", "why_tests_cant": "a mapping or block that is dropped when two calls meet at a particular point is lost silently and shows only as growth over long runs; every schedule and history matters", "anchors": ["h_malloc.c:allocate_large", "h_malloc.c:deallocate_large", "h_malloc.c:h_realloc", "h_malloc.c:allocate_small", "h_malloc.c:deallocate_small", "h_malloc.c:alloc_aligned", "pages.c:allocate_pages_aligned", "h_malloc.c:h_mallinfo_arena_info"]}
{"id": "C58", "title": "Asking about a block that others are using", "statement": "Any number of threads may call malloc_usable_size or malloc_object_size about the same block at the same time, while the program goes on reading and writing the block and other threads make calls about other blocks, as long as the block is not freed or reallocated before they return: no such call fails or aborts, each returns the right answer (the usable size; at least the number of usable bytes from the pointer on), errno and everything shared stay as they are, it needs no other thread to make progress, and the other calls behave as if nobody had asked.", "quantifier": "all valid configurations, all interleavings of queries, stores and calls of any number of threads at lock sections and system calls, all programs without memory errors, all random draws, all kernel results except the one excluded for C36", "why_tests_cant": "schedules", "anchors": ["h_malloc.c:h_malloc_usable_size", "h_malloc.c:memory_corruption_check_small", "h_malloc.c:h_malloc_object_size"]}
{"id": "C59", "title": "Memory corruption is caught while threads run", "statement": "With canaries: if a store of any thread, at any moment while the program owns a small block, changes one of the 8 bytes after its usable area, and they are not restored, then free, free_sized and malloc_usable_size of the block do not return, and realloc does not move the block, whatever the other threads do meanwhile. With the write-after-free check: if a byte of writable memory stays non-zero throughout an allocation call, the call does not return a small block whose usable area contains that byte.", "quantifier": "all configurations with the option in question and without memory tagging, all interleavings of calls of any number of threads at lock sections and system calls, all stores to any address by any thread at any moment, all random draws and kernel results except the one excluded for C36", "why_tests_cant": "the stores, their moments and the schedule are unboundedly many; a check that is skipped on one path, or done before another thread had its turn, is missed by tests that corrupt a quiet heap", "anchors": ["h_malloc.c:check_canary", "h_malloc.c:deallocate_small", "h_malloc.c:memory_corruption_check_small", "h_malloc.c:h_malloc_usable_size", "h_malloc.c:write_after_free_check", "h_malloc.c:allocate_small", "h_malloc.c:h_realloc"]}
{"id": "C60", "title": "malloc_disable keeps the other threads out", "statement": "After malloc_disable has returned in a thread and until that thread calls malloc_enable, no other thread reads or changes any of the allocator's data or gets one of its locks, whatever it calls: the heap stays as it is, so that it can be inspected. No two threads have the allocator disabled at once. malloc_enable does not wait for anybody: by itself it runs to its end, after which all locks are free.", "quantifier": "every number of threads, arenas and size classes, every history of calls including fork, every schedule of lock operations, and every continuation of any length without the disabling thread", "why_tests_cant": "a lock that is not taken, or a path that works without its lock, shows only when another thread happens to use just this arena and class in the window", "anchors": ["h_malloc.c: h_malloc_disable", "h_malloc.c: h_malloc_enable", "h_malloc.c: full_lock", "h_malloc.c: full_unlock"]}
{"id": "C61", "title": "Failure is reported to the thread that failed, whatever the others do", "statement": "When a call that asks for a block (malloc, calloc, realloc, posix_memalign, aligned_alloc) gives none, the calling thread is told why, whatever other threads call, however their calls interleave with it, and whatever they write where: EINVAL if the alignment was not valid, ENOMEM otherwise, in errno or as the result of posix_memalign. A request of 2^63 bytes or more, a calloc whose product is that large (or overflows), and an invalid alignment are always refused in this way. free leaves errno as it was.", "quantifier": "all configurations, histories, numbers of threads, interleavings of all calls, stray stores of the application, results of system calls and random numbers", "why_tests_cant": "errno must survive or be set on every path of every function, at every point where another thread may get its turn; tests with failing system calls reach few of the combinations", "anchors": ["h_malloc.c: allocate_large", "h_malloc.c: h_calloc", "h_malloc.c: h_free", "h_malloc.c: alloc_aligned", "pages.c: allocate_pages", "memory.c: memory_map"]}
{"id": "C62", "title": "realloc exposes no stale data", "statement": "Of the block that realloc(p,n) returns, the bytes beyond the usable size of the old block are zero, and if the block was moved to a small block also those beyond n: no data of other, freed blocks shows up in the added part. With write-after-free detection or memory tagging this holds whatever the application stored anywhere; with zero-on-free alone, if it only stores to its live blocks; for large requests in every configuration. A block returned by realloc(NULL,n) is zero throughout. It also holds when other threads make calls at the same time.", "quantifier": "every reachable state, block, size and placement of the new block, all choices of the environment, and all interleavings of calls of any number of threads", "why_tests_cant": "which freed memory the enlarged block lands in depends on the whole history, on random slot choices and on the schedule; a test sees one placement and only the bytes it looks at", "anchors": ["h_malloc.c:h_realloc", "h_malloc.c:allocate_small", "h_malloc.c:deallocate_small", "h_malloc.c:allocate_large", "memory.c:memory_remap_fixed"]}
{"id": "C63", "title": "Every call finishes, whatever other threads do", "statement": "A call in progress performs at most a fixed number of further steps (critical sections, system calls, copies) before it returns: a constant, or proportional to the number of size classes and arenas for malloc_trim and mallinfo. No activity of other threads, no content of memory and no answer of the kernel can make a call start over or run longer, so a thread that is not kept from running returns from its call in every infinite execution. A thread that runs alone returns from its call even while other threads are stopped in the middle of theirs outside of a critical section.", "quantifier": "every reachable state, thread, call in progress, interleaving with calls of other threads and stores anywhere, and infinite execution", "why_tests_cant": "A livelock or a retry loop needs particular interleavings for as long as the test runs; a test that finishes shows nothing about the schedules that were not tried, and one that does not finish cannot be told from a slow one.", "anchors": ["h_malloc.c: allocate_small, deallocate_small, allocate_large, deallocate_large, h_realloc, h_malloc_trim, h_mallinfo"]}
{"id": "C64", "title": "Which free slot of a slab malloc hands out is decided by the random number generator", "statement": "With slot randomization configured: whenever malloc of a small size returns a block p, then for every slot q of the same slab (slots are spaced by the class size) that neither holds a live block nor is held in quarantine, there is a share of at least floor(65536/slots) and at most floor(65536/slots)+1 of the values of the 16-bit random number, disjoint from the shares of the other slots, with which the same call in the same state under otherwise equal circumstances returns q instead of p. So no free slot of the slab can be excluded by what happened before.", "quantifier": "all configurations with slot randomization, all histories of calls (with and without memory errors of the application), all small sizes, all threads and arenas, all outcomes of system calls, all vacant slots of the slab; calls do not overlap in time", "why_tests_cant": "A test sees the placements that a few random numbers produced in a few states of the slab; that no free slot is ever excluded, and that each has its share of the random numbers, is a statement about all bitmaps, all histories and all random numbers.", "anchors": ["h_malloc.c: get_free_slot, allocate_small, get_metadata, slot_pointer", "random.c: get_random_u16_uniform"]}
{"id": "C65", "title": "The functions that are only stubs, and the constructor, do no harm", "statement": "mallopt (other than the purge request on Android), malloc_set_state and malloc_get_state change neither memory nor allocator state; they return 0, -2 and NULL, and only malloc_get_state changes errno (to ENOSYS). malloc_iterate ends the process. On Android mallopt(M_PURGE) returns 1, does what malloc_trim does, makes no page accessible, and leaves every live block's usable size and contents as they were. The constructor that runs when the library is loaded leaves the allocator initialised and the set of live blocks as it was, whether or not something has been allocated before.", "quantifier": "all parameters, all states (for the purge request: all reachable states; for the constructor: all states reachable from the start of the process), all outcomes of system calls", "why_tests_cant": "The purge request touches every size class of every arena, so whether it leaves the live blocks alone depends on the whole history; the constructor may run after other constructors have allocated.", "anchors": ["h_malloc.c: h_mallopt, h_malloc_iterate, h_malloc_get_state, h_malloc_set_state, trigger_early_init"]}
{"id": "C66", "title": "Memory tagging can be switched off at any time", "statement": "In a build with memory tagging, malloc_disable_memory_tagging may be called by any thread at any time, also during the first use of the allocator by another thread and more than once. Once a call of it has returned, no allocation or deallocation in any thread finds tagging enabled any more; while tagging is found enabled, the memory of small blocks is mapped with tag checking, or was when the allocator was initialised; the protected data of the allocator is never written while it is read-only, and it is read-only again whenever no thread is in the middle of this function or of the initialisation; threads that wait can go on; the process is not ended unless a system call fails.", "quantifier": "all schedules of any number of threads, all moments at which the function is called, all outcomes of system calls, forks at any time", "why_tests_cant": "Whether a store meets a read-only page, or a thread still finds tagging enabled, depends on the exact order of the steps of the initialisation, of this function and of other threads; a test sees few of these orders, and on a machine without memory tagging none.", "anchors": ["h_malloc.c: h_malloc_disable_memory_tagging, init_slow_path, is_memtag_enabled, init_lock", "memory.c: memory_protect_rw, memory_protect_ro"]}
{"id": "C67", "title": "No tag faults for valid programs", "statement": "With memory tagging, every usable byte of every live block, small or large, carries the tag of the pointer that was returned for the block, so a program that accesses only its own live blocks through the pointers it was given never takes a tag fault; and when realloc moves a block, its own copy reads memory with the tag of the pointer it was passed and writes memory with the tag of the pointer it is about to return.", "quantifier": "all histories of calls, all random tags, all outcomes of system calls, all blocks and bytes", "why_tests_cant": "A wrong tag shows only for the block, slot and random tag concerned, only on hardware with tag checking, and only if the program touches that granule; a test meets few of the histories that lead to a slot being tagged, released, mapped again and reused.", "anchors": ["h_malloc.c: h_realloc, tag_and_clear_slab_slot, allocate_small, deallocate_small, allocate_large", "memory.c: memory_map_mte, memory_map_fixed", "memtag.h"]}
{"id": "C68", "title": "Memory tags with threads", "statement": "With memory tagging and any number of threads whose calls overlap: every usable byte of a block that the application has carries the tag of the pointer returned for it, so valid accesses never fault whatever other threads allocate and free meanwhile, and so do the blocks that a call in progress holds, such as those between which realloc copies; the tag given to a slot is 1 to 15 and differs from the slot's previous tag and from the last tags of its two neighbours in the slab; an access with the pointer of a block less than its size outside the block and within the slab mismatches; and once a call that frees a block has returned, accesses by any thread with the old pointer mismatch until the slot has been allocated for the second time.", "quantifier": "all interleavings of the calls of any number of threads with any events in between, all random tags, all outcomes of system calls, all blocks and bytes", "why_tests_cant": "The tag of a slot depends on the tags that other threads have just given to its neighbours; a race that tags outside the lock or reads a stale neighbour shows only in a few schedules and only for some random tags, on hardware with tag checking.", "anchors": ["h_malloc.c: tag_and_clear_slab_slot, allocate_small, deallocate_small, h_realloc", "memory.c: memory_map_mte, memory_map_fixed", "memtag.h", "h_malloc.c: arm_mte_tags"]}
{"id": "C69", "title": "Random delay of reuse", "statement": "When a block is freed and the quarantine has a random stage, which of the freed blocks waiting there becomes available next is decided by the random number generator: each waiting block of the size class has its own share of the values of the random number, of the same size for all up to one value, the freed block takes the place of the one drawn, and no other waiting block leaves. The same holds for the quarantine of large blocks.", "quantifier": "all executions, with or without memory errors, all blocks freed, all waiting blocks, all values of the random number, all configurations", "why_tests_cant": "That a place is drawn fairly, among all places and for every fill of the quarantine, cannot be seen from some runs; a test with the default length would not notice that the random index is always 0 for lengths whose number of places is a multiple of 65536.", "anchors": ["h_malloc.c: deallocate_small, regions_quarantine_deallocate_pages", "random.c: get_random_u16_uniform, get_random_u64_uniform"]}
{"id": "C70", "title": "Random layout", "statement": "The random number generator decides where blocks are and what surrounds them. When the allocator is initialised, the area of each arena and size class is placed at a random distance, in whole pages, from the start of its part of the address space, and every combination of distances is possible. The number of inaccessible pages before and after a large block is decided by one random number, ranges from 1 to a bound that depends on the size of the block only, and is the same on both sides. The canary behind the blocks of a fresh slab is a 64-bit random number with one byte set to zero.", "quantifier": "all configurations, all initialisations that succeed, all combinations of distances, all executions, all sizes, all values of the random numbers", "why_tests_cant": "A test sees a few layouts; that every layout can occur, and that nothing but the random number decides the size of the guards for every size of block, is a statement about all random numbers.", "anchors": ["h_malloc.c: init_slow_path, get_guard_size, allocate_large, set_slab_canary_value", "random.c: get_random_u64_uniform, get_random_u64"]}
{"id": "C71", "title": "Reports of memory use while threads run", "statement": "If statistics are compiled in and mallinfo is called while other threads allocate and free, what it reports as allocated is the sum (modulo 2^64) of one number for each size class of each arena and one for the large blocks. Each of these numbers is right at some moment between the beginning and the end of the call: it is the number of bytes in a set of blocks that contains all blocks of this kind which the program had at that moment, and no others unless another call that allocates or frees was in progress then. What it reports as mapped is, in the same way, the sum of the sizes of the slabs in use and of the large blocks at these moments, and the other fields follow from these two. The sums themselves need not be right for any single moment.", "quantifier": "all configurations with statistics, all executions of any number of threads in any interleaving in which no thread forks while another is in a call, all calls of mallinfo", "why_tests_cant": "Which allocations and releases of other threads a call of mallinfo counts depends on the interleaving; a test sees a few schedules and has no way to know what was allocated at the moments at which the counters were read.", "anchors": ["h_malloc.c: h_mallinfo2"]}
{"id": "C72", "title": "Independence from the data in memory", "statement": "What calls return, the errno they set and the memory they map, protect and release do not depend on the bytes that are in memory. Take two executions with the same calls of the same threads in the same interleaving, the same random numbers and the same answers of the kernel, in which the program stores different bytes, at different places (its blocks, freed blocks, anywhere) and at different moments. As long as neither ends with a report that memory was overwritten, every call returns the same in both and the same pages are mapped with the same permissions; and if one ends in any other way, so does the other.", "quantifier": "all configurations, all pairs of sequences of calls, actions, returns and forks of any number of threads in any interleaving that differ in stores and in the contents of foreign pages only, from any state between calls", "why_tests_cant": "It compares all pairs of executions that differ in the data of the program; a test runs one program with a few contents of memory.", "anchors": ["h_malloc.c: write_after_free_check", "h_malloc.c: check_canary", "h_malloc.c: allocate_small", "h_malloc.c: deallocate_small", "h_malloc.c: h_realloc"]}
{"id": "C73", "title": "Isolation of size classes and arenas", "statement": "Threads that work in some size classes only are not influenced by what the other threads do elsewhere. Let some threads allocate (also aligned and zeroed blocks), free, resize and inspect only blocks of a set of size classes (of their arenas), and let the other threads allocate, free, resize and inspect only other blocks: blocks of other size classes, of other arenas, and large blocks; nobody calls malloc_trim, which works on all size classes, and the first threads do not call mallinfo, which reports on all of them. Then what the calls of the first threads return, where their blocks are, the errno they see and the bytes and page permissions of the memory of their size classes depend only on their own calls, random numbers, answers of the kernel and stores to that memory, not on anything the other threads do; and a call of the first threads ends the process either in all such executions or in none. The other way round, if the other threads do not call mallinfo either, then what their calls return, their errno and the bytes and page permissions of all memory outside of these size classes do not depend on anything the first threads do.", "quantifier": "all configurations, all sets of size classes, all sets of threads, all pairs of executions in any interleaving, from any state without calls in progress, that agree in the moves of one group of threads and differ arbitrarily in the moves of the other group", "why_tests_cant": "It compares all pairs of executions in which other threads behave differently in any interleaving; a test sees a few schedules.", "anchors": ["h_malloc.c: allocate_small", "h_malloc.c: deallocate_small", "h_malloc.c: slab_size_class", "h_malloc.c: thread_arena", "h_malloc.c: size_class_metadata"]}
{"id": "C74", "title": "The bookkeeping stays inside the memory set aside for it", "statement": "Whatever the program does (any calls with any arguments, also invalid ones, any stores to memory it can write), as long as the allocator does not abort: the table of large blocks never extends beyond the pages of the array reserved for it, and has no more entries than the array if the array has room for the initial 128 entries; no size class ever uses more entries of its array of slab descriptions than the array has, or than there are slabs in its part of the address space. In a correct program nothing is recorded outside of the parts of these arrays that are in use, nor outside of the quarantine arrays. (The stronger claim that the table never has more entries than its array is declared with is false for small configurations: with CONFIG_CLASS_REGION_SIZE of 1 MiB the array has 10 entries and the table begins with 128; they stay within the padding of its page.)", "quantifier": "all accepted configurations; all programs with any number of threads, all interleavings at the actions of the calls, all answers of the system and random draws", "why_tests_cant": "An overrun needs a table that has grown to its limit, in some configuration and after a long history; a test fills it in one configuration at best.", "anchors": ["h_malloc.c: MAX_REGION_TABLE_SIZE", "h_malloc.c: INITIAL_REGION_TABLE_SIZE", "h_malloc.c: regions_grow", "h_malloc.c: regions_insert", "h_malloc.c: alloc_metadata", "h_malloc.c: get_metadata_max", "h_malloc.c: MAX_METADATA_MAX", "h_malloc.c: regions_a", "h_malloc.c: slab_info", "h_malloc.c: deallocate_small"]}
{"id": "C75", "title": "Inaccessible memory surrounds the state of the allocator, which no block overlaps", "statement": "Initialisation places the state of the allocator between two ranges of inaccessible pages, of the same size of at least one page and at most twice the address space of a size class. From then on, whatever the threads of a correct program and other users of memory do, these ranges stay inaccessible, so that an access which runs over an end of the state faults, and no byte that the program may use lies in the state or in these ranges.", "quantifier": "all accepted configurations; all results of the system and random draws during initialisation; all correct programs with any number of threads, all interleavings at the actions of the calls, all mappings made by others", "why_tests_cant": "That no call ever touches these pages, and that no block is placed on them, is a claim about all later calls with all random draws and answers of the kernel; a test sees one layout.", "anchors": ["h_malloc.c: init_slow_path", "h_malloc.c: struct allocator_state", "pages.c: allocate_pages", "pages.c: deallocate_pages"]}
