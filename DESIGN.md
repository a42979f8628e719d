# Formal model of hardened_malloc in Lean 4

Source modelled: `/repo` (GrapheneOS/hardened_malloc, C/C++), read as text.
Model: `/verif/lean/Verif/`. Properties: `/verif/properties.jsonl`. Claim status: `/verif/MANIFEST.json`.
Mutation log: `/verif/seeded/LOG.jsonl`.

## Trusted base

* Lean 4.33 kernel. Mathlib is used for tactics and lemmas only; everything is kernel-checked.
* Axioms: every theorem named in MANIFEST.json depends on a subset of `propext`, `Classical.choice`, `Quot.sound`.
  No axiom is declared here, and there is no `sorry`, `native_decide` or `bv_decide`. `decide +kernel` is used for complete finite
  tables (the size classes) and for the concrete executions in the `example`s and in the theorems that exhibit a defect.
* The reading of C as Lean: every definition cites the lines it models and names its simplifications.
* The environment model, below.

## The model, module by module

| Lean module | code | form |
|---|---|---|
| Config, Util | config/default.mk, static_asserts, util.h, pages.h | all valid configurations (`Cfg.Valid`), 64-bit arithmetic with explicit wrap-around |
| SizeClass | h_malloc.c:145-245, 1323-1342, 1447-1452 | pure functions |
| Bitmap | h_malloc.c:343-451, util.h:39-43 | `BitVec 64` words |
| Libdivide | third_party/libdivide.h as used | arithmetic of both widths |
| RandomUniform, Random, ChaCha, SysIo | random.c, chacha.c, util.c:15-46 | state machines over lists of kernel outcomes |
| Vm | memory.c | page protections and bytes; every call may fail |
| Small | h_malloc.c:98-131, 247-341, 423-911, 1722-1758, 1877-1947 | one size class: slabs, lists, quarantines, canaries, statistics |
| Table | h_malloc.c:913-917, 1017-1119 | open addressing with any hash function |
| Machine | pages.c, h_malloc.c:945-1015, 1121-1146, 1340-1996 | API functions as programs: sequences of atomic actions |
| Statistics | h_malloc.c:2000-2139 | reports on arenas and size classes, `malloc_info`; not part of `Call`, run in any state of Seq |
| Init, Before, Boot | h_malloc.c:1185-1313 | initialisation; with memory of others mapped before it; process from its start |
| History | (specification) | calls, results, histories, live blocks: does not refer to the allocator |
| Seq | whole library, calls of any number of threads one after the other | `Reach`: all histories of any application and environment |
| Conc | the same with calls interleaved at lock sections and system calls | `CReach`: all schedules |
| Wild | Conc with stores of the application to any address at any moment | `WReach`: all schedules and stray stores |
| Fine | the same with lock sections that overlap in time | `FReach`: begin and end of each section, arbitrary data in between |
| Locks | mutex.h, h_malloc.c:1148-1313 and the lock operations of every API function, h_malloc_disable/enable, fork | `LReach`: all schedules of single lock operations |
| Mte, ConcTags | memtag.h, arm_mte.h, h_malloc.c:566-596, tag handling of slabs | overlay on Seq, overlay on Conc |
| Shared | Conc with `malloc_usable_size` and `malloc_object_size` on blocks that other threads use | `QReach` |
| Stubs | h_malloc.c:1315-1321, 1867-1875, 2141-2145, 2157-2166 | programs, on Boot and Seq |
| Memtag | h_malloc.c:70-94, 1195-1293 (order of accesses to `ro`), 2168-2190 | interleaving of threads, own state |
| New | new.cc | programs over calls and new-handlers |

The remaining modules hold proofs; `Verif/Props/*.lean` hold the theorems named in the manifest, each with an `example` of a concrete case
that meets its hypotheses.

Outcomes of a call: `ok`, `fatal msg` (the allocator aborts), `segv`, `ub why` (undefined behaviour in C), `hang` (a loop without end).
No oracle is bounded: random draws, addresses chosen by the kernel and system call outcomes are arbitrary inputs of every action.

## Environment assumptions

* `mmap` returns an unused page-aligned range below 2^63, or fails. Fixed mappings, `mprotect`, `munmap`, `mremap` and `madvise` act
  on the page-rounded range or fail without effect. An `mprotect` that fails half-way and an `mremap` that fails after it
  removed its target are not modelled. A failure is ENOMEM or another error; the latter aborts the process, as in the code.
* The remapping of an outgrown region table succeeds (`Env`): the code ignores its failure, see finding q.
* In the concurrent machine, while a call asks for an alignment above the page size, the release of the tail of its mapping does not
  fail for lack of memory (`CEnv`): see finding t.
* `calm` executions are those in which the kernel never refuses; they are used where the English claim needs it (C22, C23).
* Others than the allocator (the application, the loader, the kernel) may at any moment between actions map any page that is not
  mapped, and change or release the pages they mapped (`Reach.other`, `CReach.other`, `TReach.other`, `BReach.other`); they do not map
  over or release memory of the allocator. `BReach.other` also applies before initialisation: Before proves that a process in which
  others mapped pages first is in a state that is also reached by initialising first (`reach_over`). A page released before
  initialisation leaves zero bytes behind in the model (bytes of an unmapped page cannot be read).
* Memory of the allocator's own metadata is not reachable by stores of the application. Reads by the application are not events.
* In Machine/Conc each lock section is one atomic action. Fine lets sections with different locks overlap, with arbitrary contents in the
  data of unfinished sections, and C51 proves that this makes no difference; what remains assumed is that an unfinished section writes
  only the data of its lock (`Sect.upsets`), and that a section excludes others with the same lock, which is C37 (Locks has one step per
  lock operation and abstracts from the data). Actions without a lock (single system calls; clearing and copying of blocks that only
  the calling thread holds) are atomic also in Fine.
* Conc: a block that was passed to a call is not used by the application until the call returns. For `malloc_usable_size` and
  `malloc_object_size` this is more than C asks; Shared drops it (C58).
* Memory is sequentially consistent.
* Every action of the allocator is told whether tagging is enabled (`Choice.memtag`), so that `h_malloc_disable_memory_tagging` may
  take effect at any moment; what the code skips or clears with tagging (canaries, write-after-free check) is in Small. `TReach` adds the
  tags themselves: each call changes them in one step, and tagging stays enabled; in `CTReach`, for threads, each action of Conc does.
* Fork in the middle of `init` before the handlers are registered is outside `LReach` (finding l).

## Not modelled

The C compiler and machine instructions; signal handlers; the XML text of `h_malloc_info` beyond its elements and numbers; labels of mappings
(their only modelled effect is errno); page sizes other than 4096; time. The branch of `realloc` that grows a block in place
(h_malloc.c:1575-1598, `memory_remap`) is dead code: `vma_merging_reliable` is a constant `false`.

## Findings in the code

Each was found while proving and has, where a theorem is named, a machine-checked witness.

| | finding |
|---|---|
| a | `realloc` of a block with small size and an alignment above the page size reads the size class table out of bounds (`c11_overaligned_realloc_ub`) |
| b | sized delete of an aligned block with its own size may abort (`c12_aligned_sized_abort`) |
| c | statistics underflow for blocks with an alignment above the page size (`c29_drift`) |
| d | `malloc_object_size` in the zero byte class computes with slab size 0: bitmap index out of bounds (`c27_zero_class_ub`); pointers into the canary wrap; it does not untag its argument |
| e | `get_random_u16_uniform`: the rejection threshold is always 0, the result is slightly biased (`c30_u16_biased`) |
| f | the number of places of the random slab quarantine is cut to 16 bits: with length 8 and blocks of 16 bytes (65536 places) the place is always the first (`c69_not_random`) |
| g | `FREE_SLABS_QUARANTINE_RANDOM_LENGTH` = 0 passes the assertions but indexes an array of length zero |
| h | NULL with errno unchanged when the region table is full (`c25_errno_unset`); `free` may change errno (`c25_free_changes_errno`); `free_sized` of a large block does not save errno |
| i | a slab that was released is mapped again without PROT_MTE and reused unchecked (`c35_unchecked`) |
| j | `realloc` to the same size class does not check its argument (`c46_realloc`) |
| k | `h_mallinfo_bin_info`: seal and unseal of metadata are swapped, it crashes with sealed metadata: `c52_bin_crashes` |
| l | fork between the release of `init_lock` and `pthread_atfork` leaves locks held in the child (`c38_window`); `init_lock` is not reinitialised in the child |
| m | `write_full` repeats forever if `write` returns 0 (`c45_write_zero`) |
| n | the large size class of a small size with over-page alignment need not be a multiple of the page size |
| o | `get_random_bytes` above 128 bytes bypasses the reseed counter (`c31_large_uncounted`) |
| p | a `CLASS_REGION_SIZE` that is not a multiple of the page size passes the assertions and makes initialisation abort |
| q | `regions_grow` ignores a failing `memory_map_fixed` of the old table (`c24_stale_after_ignored_failure`) |
| r | if `munmap` fails the memory of a freed large block stays accessible (purged, never reused) |
| s | slabs in the quarantine of free slabs are not available when a class region is exhausted |
| t | `allocate_pages_aligned`: if releasing the tail fails the already released lead is unmapped again, which may hit a mapping of another thread (`c36_lead_unmapped_twice`) or of the application (`c50_foreign_unmapped`) |
| u | without large size classes `aligned_alloc(8192, 0)` fails with ENOMEM |
| v | `free_sized(malloc(0), SIZE_MAX)` is accepted (`c12_huge_size_accepted`) |
| w | aligned `operator new` with an invalid alignment calls a returning new-handler forever |
| x | `malloc_info` with sealed metadata: `fprintf` may allocate, the nested call seals metadata, the next lock faults: `c52_malloc_info_sealed` |
| y | tags of adjacent blocks in adjacent slabs are not kept apart if `GUARD_SLABS_INTERVAL` > 1 |
| z | in a build with memory tagging that is disabled at run time, a canary overwritten with zeros is not detected (`c09_zeros_missed`) |
| aa | a fork while another thread is in `h_malloc_disable_memory_tagging` leaves `ro` writable and `init_lock` locked in the child (`c66_fork_window`) |

## Status

All properties have at least one theorem. Those whose English claim is false of the code, or proved in part, have status `partial`; the theorems that
prove the remaining part carry the suffix `_partial`, say what is missing, and stand beside the theorem that exhibits the failure.
Status and theorem names of every property are in MANIFEST.json.

## Plan per property (written before the proofs)

| id | what is modelled | how proved |
|----|------------------|-----------|
| C01 | API layer, size arithmetic, VM protections | invariant over histories + arithmetic on size tables |
| C02 | API layer with ghost-free state; live set computed from the event history | global invariant, refinement to an abstract heap |
| C03 | size tables, allocate_pages_aligned | arithmetic, then API theorem |
| C04 | deallocate_small / deallocate_large / get_metadata | invariant: bitmap, quarantine bitmap and table describe exactly the live set |
| C05 | whole API with well-behaved client | invariant incl. contents (canaries, zeroed free slots) |
| C06 | small allocation with byte contents | allocation check plus VM zero pages |
| C07 | h_calloc | overflow arithmetic + C06 + invariant |
| C08, C09 | write_after_free_check, canaries | direct from step function, for all memory contents |
| C10 | h_realloc all branches | per-branch content theorem with VM semantics |
| C11 | h_realloc | refuted by a concrete reachable history; partial theorem with exact exclusion |
| C12 | h_free_sized | iff theorem; "originally requested size" refuted for aligned blocks by concrete history |
| C13 | zero class slabs | invariant: protection of zero class region is none |
| C14, C15 | get_size_info, get_large_size_class | arithmetic for all sizes |
| C16 | failure paths | per-call theorem: NULL result implies abstract state unchanged |
| C17 | address arithmetic of regions | arithmetic for all bases; API invariant |
| C18, C19 | guard slabs/pages | VM invariant |
| C20, C21 | quarantine arrays/queues | history theorem over unbounded sequences |
| C22, C23 | slab lists | list invariant |
| C24 | hash table | refinement to finite map for arbitrary hash |
| C25 | errno | effect tracking on API functions; negative witnesses |
| C26, C27 | queries | iff theorems; refutation for zero class |
| C28 | trim | frame theorem |
| C29 | stats | invariant; refutation for over-aligned blocks |
| C30 | Lemire loops | counting argument; refutation for u16 |
| C31 | random state machine over keystream positions | invariant; ChaCha equality to a separate spec |
| C32 | libdivide | arithmetic for all divisors/numerators |
| C33 | get_free_slot | bitmap lemmas |
| C34, C35 | tag arrays, PROT_MTE | invariant over slot histories; refutation for PROT_MTE |
| C36-C39 | interleaving model | invariants over all schedules |
| C40 | new.cc loops | coinductive-free induction over handler runs |
| C41 | argument checks | arithmetic |
| C42 | seal discipline | effect-trace of API functions |
| C43 | frame property | from the global invariant |
| C44 | alloc_metadata | arithmetic + invariant |
| C45 | I/O loops | induction over reply scripts |
| C46 | queries on freed blocks | corollary of C04/C26; realloc same-class exception recorded |
| C47 | all outcomes of all API calls, arbitrary application | from the specification of each call for all arguments |
| C48 | process before initialisation, in which others map memory; first allocating call | simulation by the initialised machine; initialisation commutes with mappings of others (Before.lean); sequential histories are executions with threads (Props/Start.lean) |
| C49 | mappings of every API call | invariant with the set of pages held by the running call |
| C50 | pages mapped and released by others at any moment | pages of others as owned by a thread that makes no calls; frame property of every action; refuted for one refused system call |
| C51 | lock sections with a beginning and an end, arbitrary contents of unfinished data | every section depends on and changes only the data of its lock (part of each specification); refinement to atomic sections and back |
| C52 | reports on arenas and size classes as programs over the state of Seq | counters of a class are exact functions of the history (induction: what is live and what was released bounds them from both sides); the report functions only look; crash theorems for sealed metadata |
| C53 | threads of Conc outside of a call, with the private beginning of a free (`Begins`) | the first lock section of a free aborts in every state where the pointer is no block (invariant of Conc, with the specification of the section); a call without a section behind it begins anew |
| C54 | Conc with stores to any address (`WReach`) | every action of every call treats states that differ in heap contents alike, unless it reports overwritten memory (`Prog.Blind`, by the structure of the programs, for families of states); simulation by an execution of Conc without stores; a byte of a live block is kept because 256 executions of Conc with different values there all keep theirs |
| C55 | Conc with stores to any address (`WReach`); Conc for fresh memory | the layout facts follow from the invariant alone (`GInv.separated`, `GInv.guard_slab`, `GInv.large_guards`, ...), which holds at every moment of the execution without the stray stores, which has the same protections; that new blocks are zero is part of what every call promises when it returns (`Done.fresh`) |
| C56 | Conc; with stores to any address (`WReach`) where the statement does not refer to states | the ghost state counts deallocations per class and quarantined regions; what a slot or page still has to wait for never drops by more than the counters grow (`Delay`); only lock sections with certain labels increase a counter (`Counted`), and a call has at most one of them, if it was given such a block (`Prog.Within`, Budget.lean); so the counters are bounded by the calls in progress and begun (`Path.count`) |
| C57 | Conc, from a named initial state (`CSteps`) | every action of every call moves a *bag* (the region being resized, pages mapped but not registered, blocks of the thread) so that everything stays accounted for whatever the other threads have (`LC`, `Bag.Moves`, by the structure of the programs, ConcLeak.lean); invariant over interleavings (`Acc`, ConcLeakInv.lean); when no call is in progress the bags are empty and the state satisfies the invariant of the sequential machine (`Linked`), from which invalid frees and statistics follow; the bytes that the statistics leave out stay 0 because only calls that ask for an alignment above the page size have a section that adds to them (`Tracked`, Deaf.lean) |
| C58 | Shared: Conc plus queries about blocks that stay with the application | a query reads in a single section: its sequential specification, applied at the moment of that section, gives the answer; the shared state is unchanged, so the rest is an execution of Conc (`QReach.inv`) |
| C59 | Wild, followed from one state to the next (`WStep`, `WSteps`) | every program of the three calls contains a section that compares the canary (`Prog.Checks`); while the block is the application's or the call's, its place and canary stay (`CInv.keep_app`, `CInv.keep_thr` on the shadow execution), so a passed check would show the bytes as they were in the first state. realloc: the same with programs that may return NULL or the old block before the check, and whose earlier actions spare the block (`Prog.Until`). Write after free: what an allocation returns, as a function of the states in which its actions are performed (`Prog.Only`): a slot whose bytes were checked, a slab that was inaccessible, or a recorded large block |
| C60 | Locks: `malloc_disable` is `full_lock` after `init`, and the thread keeps the locks when it returns | the invariant of C37 says who owns each lock; steps of others cannot take or touch what is owned; the record who has disabled the allocator is shown to agree with the history (`LReach.dis_iff`); `malloc_enable` consists of unlock operations, which never wait |
| C61 | Wild: threads with calls in progress, `tl t` holds the errno of thread `t`, stores anywhere | a walker over programs (`Prog.Leads`) that forgets the shared state between actions and keeps errno: what a call returns together with the errno it leaves is determined by its own actions, each taken in an arbitrary state; lifted to executions by induction over the steps between invocation and return |
| C62 | single calls with arbitrary stores (`Reach`), and threads with calls in progress (`CReach`) | the specification of `realloc` (`Realloced`, SpecRealloc.lean) says that a moved block is zero beyond what was copied, because the new block was zero before, and that a block left in place does not grow. Proved for single calls with arbitrary stores and, through the rely/guarantee specification, for calls about to return while other threads run (Props/Stale.lean). |
| C63 | A call as a tree of actions; the number of actions left in a call (Steps.lean) | Structural bound for every function, kept by the steps of all threads; infinite executions: a thread that acts infinitely often would exceed the bound. Alone: C36 gives each next action |
| C64 | `get_free_slot`, `get_random_u16_uniform`, the four branches of `allocate_small`; the random number is part of the environment's choices | the slot is drawn after everything else has been decided: compare the run of `malloc` with that for another draw (`allocateSmall_redraw`), branch by branch; share of the draws from C30, slot from C33 |
| C65 | the stubs as they are (Stubs.lean); the purge request as `hTrim`; the constructor as two calls in the model of the start of the process | evaluation for the stubs; C28 and C43 for the purge request; C48 and C02 for the constructor |
| C66 | `h_malloc_disable_memory_tagging`, `init_slow_path` and the reads of the flag, one step per lock operation, system call and access to `ro` (Memtag.lean) | induction over executions with an invariant on the program points of all threads; the fork at the wrong moment as a witness |
| C67 | the tags of memory of the model for C34 and C35, also between the allocation and the release within `realloc` | invariant `TInv`: a slot has the tag last given if live and 0 otherwise, and memory outside of slots has tag 0 |
| C68 | the tags as an addition to the machine of Conc.lean (`ConcTags.lean`): slots that an action allocates are tagged, the memory of those it frees gets tag 0, pages it releases lose their tags | the invariant `TInv` of C34 for the list of slot events; the slots in use are those of the invariant `GInv` of the machine; a freed block stays in the hands of the call until its slot is freed |
| C69 | `deallocate_small` with both stages of the quarantine, `regions_quarantine_deallocate_pages`, `get_random_u16_uniform` | the place drawn is overwritten and nothing else in the first stage changes (`deallocateSmall_qrand`, `call_free_large`); a waiting block is at one place only (invariant `QArr`; pages of regions have one owner); share of the draws from C30 |
| C70 | `init_slow_path`, `allocate_large` with `get_guard_size` and `allocate_pages`, `slot_allocate` with `set_slab_canary_value` | initialisation treats the drawn distances as data only (`Prog.Aloof`, `initSlowPath_moves`), so they can be replaced one by one; the map and the record of the block are followed through the system calls of every function that allocates (`GuardLeft`); the canary of a slab is the number drawn (`allocateSmall_canary`, `Took`), and the slot ends with it while tagging is off (`WroteCanary`); what `realloc` does after its allocation keeps the record and the canary (`MetaKept`) |
| C71 | `h_mallinfo2` as a sequence of short critical sections, in the model with threads | the rest of a call that only reads is followed through the execution (`CReach.follow`): its result is determined by states it met (`Prog.Fed`); at each such moment the calls of `mallinfo` in progress can be completed without changing the state (`CReach.without`), and then the accounting of C57 says which blocks are not free |
| C72 | executions as a function of the list of moves (`CSys.moves`), all of whose choices are inputs | every action of every call is blind to memory contents (`Prog.Blind`, Blind.lean); two lists of moves that agree after stores are dropped are run side by side, keeping states that differ in contents only (`Shadow`) |
| C73 | executions labelled with their moves (`Exec`), two of them compared after the moves of other threads are dropped (`Move.concerns`) | the programs of the calls of other threads take no section of an isolated class (except to read statistics) and those of the isolated threads take only such sections, or copy and clear memory of such classes (`Prog.Avoids`, `Prog.StaysIn`, Isolate.lean); a section uses and changes only its own cells (`Local`), so each move of another thread keeps the isolated part of the state, and each move of an isolated thread does the same in both executions; the other direction (IsolationOut.lean) compares the cells outside of the isolated classes in the same way (`Move.concernsOut`) |
| C74 | the moves of any application (`CSys.moves`, as for C72); the sizes of the arrays are computed from the configuration in the statement, with literal page and entry sizes | every action of every program keeps the limits (`St.Fit`, Verif/Bounds.lean; `Keeps`, as for the canaries), so every state between actions has them; the part for correct programs comes from the invariant of the concurrent model. Negative result `c74_short_array`: in small configurations the table begins with more entries than its array is declared with |
| C75 | initialisation (`initSlowPath`: the mapping of the state with its guards, the two changes of protection, the mapping for small blocks, the release of the memory for the random numbers) and then the concurrent model | conditions on the pages through the program of initialisation (`Shield`, `Prog.ens`); afterwards each page of the state and its guards is treated as a page of someone else, which is consistent with the invariant of the concurrent model and which no action changes (as for C50) |

## Axioms of each theorem

Output of `#print axioms` for the theorems named in MANIFEST.json (namespace `HM`).

* No axioms: `c14_table_increasing`.
* `propext`: `L.c38_reaches`, `M.c66_fork_window`, `anyBoot_follows`, `c24_stale_after_ignored_failure`, `c36_any_answer`, `c40_retry`, `c45_write_zero`, `c65_inert`.
* `propext`, `Quot.sound`: `CReach.exec`, `L.c38_window`, `M.c66_for_good`, `M.c66_mapped`, `M.c66_no_deadlock_partial`, `M.c66_no_fault`, `M.c66_once`, `M.c66_readonly_partial`, `WReach.moves`, `c07_overflow`, `c26_null`, `c30_u64_first_accepted`, `c35_checked_partial`, `c36_hand`, `c36_lent`, `c36_returned`, `c38_calls`, `c40_attempts`, `c40_new`, `c40_nothrow`, `c42_guarded`, `c45_aborts`, `c45_seed_returns`, `c52_bin_crashes`, `c52_malloc_info_sealed`, `c53_late_start`, `c57_fork_loses`, `c70_areas`, `c74_bounds`, `goodBoot_follows`.
* `propext`, `Classical.choice`, `Quot.sound`: `CReach.asking`, `L.c37_exclusive`, `L.c37_finishes`, `L.c37_progress`, `L.c37_release`, `L.c38_at_fork`, `L.c38_child_partial`, `L.c38_no_lost`, `L.c38_own_random`, `L.c39_arena`, `L.c39_before_use`, `L.c39_once`, `L.c60_enable`, `L.c60_nobody_else`, `L.c60_one`, `L.c60_quiet`, `c01_new_block`, `c01_requested_bytes`, `c01_usable_exists`, `c01_usable_size`, `c02_disjoint`, `c02_new_block`, `c02_realloc_block`, `c02_requested_disjoint`, `c03_alignment`, `c04_double_free`, `c04_free_detected`, `c04_free_from_start`, `c04_free_sized_detected`, `c04_free_sized_from_start`, `c05_no_abort`, `c06_fresh_zero`, `c07_zero`, `c08_abort`, `c08_never_handed_out`, `c09_detected`, `c09_intact`, `c09_leading_zero`, `c09_realloc_detected`, `c09_zeros_missed`, `c10_contents`, `c10_failed`, `c11_overaligned_realloc_ub`, `c11_realloc_accepts_partial`, `c12_aligned_sized_abort`, `c12_huge_size_accepted`, `c12_malloc_usable`, `c12_original_size_partial`, `c12_sized_free_partial`, `c13_distinct`, `c13_free_accepts`, `c13_inaccessible`, `c14_aligned_class`, `c14_class_minimal`, `c14_malloc`, `c14_waste`, `c15_idempotent`, `c15_large_rounding`, `c15_malloc`, `c16_failure_keeps`, `c16_realloc_too_large`, `c16_too_large`, `c17_areas_apart`, `c17_block_in_area`, `c17_malloc_area`, `c17_separated`, `c17_small_or_large`, `c18_block_in_slab`, `c18_guard_slab`, `c19_guard_length`, `c19_guards`, `c20_delay`, `c21_reserved`, `c22_opened`, `c22_purged`, `c23_cache_bound`, `c24_delete_total`, `c24_find_exact_partial`, `c24_insert_total`, `c25_errno_partial`, `c25_errno_unset`, `c25_free_changes_errno`, `c25_free_keeps_partial`, `c26_accepts`, `c26_rejects`, `c26_value`, `c27_fast`, `c27_unknown_partial`, `c27_upper_bound`, `c27_zero_class_ub`, `c28_trim`, `c29_allocated_partial`, `c29_drift`, `c29_mapped_partial`, `c30_u16_biased`, `c30_u16_in_range`, `c30_u16_near_uniform_partial`, `c30_u16_single_draw`, `c30_u64_uniform`, `c31_chacha`, `c31_derived`, `c31_large_uncounted`, `c31_length`, `c31_no_reuse`, `c31_reseed`, `c32_u32`, `c32_u64`, `c33_every_slot`, `c33_full_none`, `c33_sound`, `c33_total`, `c34_adjacent`, `c34_dangling`, `c34_live`, `c34_new_tag`, `c34_overflow`, `c34_pointer`, `c35_unchecked`, `c36_aligned`, `c36_calloc`, `c36_disjoint_partial`, `c36_fresh`, `c36_lead_unmapped_twice`, `c36_no_abort_partial`, `c36_realloc`, `c36_untouched_partial`, `c36_usable_partial`, `c36_usable_size`, `c38_blocks`, `c40_block`, `c40_delete`, `c41_memalign_rejects`, `c41_rejects`, `c42_sealed`, `c43_history`, `c43_others_untouched`, `c44_capacity`, `c45_message`, `c45_message_ends`, `c45_seed`, `c46_object_size_partial`, `c46_realloc`, `c47_no_fault`, `c47_outcomes`, `c48_from_start`, `c48_outcomes`, `c48_threads`, `c49_accessible`, `c49_accounted`, `c49_all_returned`, `c50_action_partial`, `c50_blocks_partial`, `c50_call`, `c50_disjoint`, `c50_foreign_unmapped`, `c50_history`, `c50_others_harmless`, `c51_atomic`, `c51_calloc`, `c51_can_acquire`, `c51_contents`, `c51_disjoint`, `c51_histories`, `c51_no_abort_plain`, `c51_no_abort_section`, `c51_plain`, `c51_section`, `c51_settled_unique`, `c52_adds_up`, `c52_arena`, `c52_bin_partial`, `c52_large_partial`, `c52_malloc_info_partial`, `c53_detected`, `c53_double_free`, `c54_aligned`, `c54_as_without_stores`, `c54_disjoint_partial`, `c54_fresh`, `c54_outcomes_partial`, `c54_untouched_partial`, `c54_usable_partial`, `c55_block_in_area_partial`, `c55_block_in_slab_partial`, `c55_fresh_zero_partial`, `c55_guard_slab_partial`, `c55_large_guards_partial`, `c55_separated_partial`, `c55_zero_size_partial`, `c56_large_reserved_partial`, `c56_large_reserved_wild_partial`, `c56_small_delay_partial`, `c57_accessible`, `c57_accounted`, `c57_all_returned`, `c57_allocated_partial`, `c57_arena_partial`, `c57_class_statistics_partial`, `c57_invalid_detected_partial`, `c57_large_blocks_partial`, `c57_mapped_partial`, `c58_finishes`, `c58_no_effect_partial`, `c58_object_size_partial`, `c58_sealed`, `c58_undisturbed`, `c58_usable_size_partial`, `c59_overflow_partial`, `c59_overflow_realloc_partial`, `c59_write_after_free_partial`, `c61_errno_partial`, `c61_free_keeps_partial`, `c61_refuses`, `c62_realloc_null`, `c62_realloc_rest`, `c62_threads_partial`, `c63_alone_partial`, `c63_bounded`, `c63_returns`, `c64_no_quarantine`, `c64_placement`, `c64_placement_any`, `c65_early_init`, `c65_purge`, `c67_copy`, `c67_no_fault`, `c68_dangling_partial`, `c68_free_memory_partial`, `c68_freed_partial`, `c68_in_use_partial`, `c68_new_tag_partial`, `c68_no_fault_partial`, `c68_overflow_partial`, `c69_delay_any_partial`, `c69_delay_partial`, `c69_large`, `c69_not_random`, `c70_canary_partial`, `c70_canary_tags_partial`, `c70_guards_partial`, `c70_realloc_canary_partial`, `c70_realloc_guards_partial`, `c71_mallinfo_partial`, `c72_data`, `c72_outcome`, `c73_isolation`, `c73_isolation_out`, `c73_outcome`, `c73_outcome_out`, `c74_short_array`, `c74_unused`, `c75_guards`, `c75_guards_partial`, `tagAndClearMem_eq`.
