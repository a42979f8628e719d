{
 "claims": [
  {
   "property": "C01",
   "status": "proved",
   "theorems": [
    "HM.c01_usable_size",
    "HM.c01_requested_bytes",
    "HM.c01_new_block",
    "HM.c01_usable_exists"
   ],
   "note": "every reachable state of the sequential machine, any application (also one that corrupts its heap), any OS and random outcome"
  },
  {
   "property": "C02",
   "status": "proved",
   "theorems": [
    "HM.c02_disjoint",
    "HM.c02_requested_disjoint",
    "HM.c02_new_block",
    "HM.c02_realloc_block"
   ],
   "note": "blocks with their canaries; any application"
  },
  {
   "property": "C03",
   "status": "proved",
   "theorems": [
    "HM.c03_alignment"
   ],
   "note": ""
  },
  {
   "property": "C04",
   "status": "proved",
   "theorems": [
    "HM.c04_free_detected",
    "HM.c04_free_sized_detected",
    "HM.c04_double_free",
    "HM.c04_free_from_start",
    "HM.c04_free_sized_from_start"
   ],
   "note": "any reachable state, any application, any pointer value; the last two include the process before initialisation"
  },
  {
   "property": "C05",
   "status": "proved",
   "theorems": [
    "HM.c05_no_abort"
   ],
   "note": "with the exceptions recorded under C11, C12 and C27 stated in goodClient; system calls may fail with ENOMEM"
  },
  {
   "property": "C06",
   "status": "proved",
   "theorems": [
    "HM.c06_fresh_zero"
   ],
   "note": "with the write-after-free check for any application; with zero-on-free alone for applications that store only into live blocks; with memory tagging in use for any application; large blocks always"
  },
  {
   "property": "C07",
   "status": "proved",
   "theorems": [
    "HM.c07_overflow",
    "HM.c07_zero"
   ],
   "note": ""
  },
  {
   "property": "C08",
   "status": "proved",
   "theorems": [
    "HM.c08_never_handed_out",
    "HM.c08_abort"
   ],
   "note": "while memory tagging is not in use (with it, the code clears the slot instead, see C06)"
  },
  {
   "property": "C09",
   "status": "proved",
   "theorems": [
    "HM.c09_leading_zero",
    "HM.c09_intact",
    "HM.c09_detected",
    "HM.c09_realloc_detected",
    "HM.c09_zeros_missed"
   ],
   "note": "while memory tagging is not in use. A build with memory tagging takes a canary of zeros for one that was never set, so c09_detected asks for a non-zero byte there, and c09_zeros_missed shows that an overwrite with zeros is missed in such a build when tagging is disabled"
  },
  {
   "property": "C10",
   "status": "proved",
   "theorems": [
    "HM.c10_contents",
    "HM.c10_failed",
    "HM.c43_others_untouched"
   ],
   "note": "that the call does not abort is C11"
  },
  {
   "property": "C11",
   "status": "partial",
   "theorems": [
    "HM.c11_realloc_accepts_partial",
    "HM.c11_overaligned_realloc_ub"
   ],
   "note": "false of the code for blocks with an alignment above the page size and a small size: the second theorem exhibits the out-of-bounds access; proved for all other live blocks"
  },
  {
   "property": "C12",
   "status": "partial",
   "theorems": [
    "HM.c12_malloc_usable",
    "HM.c12_sized_free_partial",
    "HM.c12_original_size_partial",
    "HM.c12_aligned_sized_abort",
    "HM.c12_huge_size_accepted"
   ],
   "note": "blocks from malloc, calloc and realloc, claimed sizes up to 2^63. False of the code for blocks from the aligned functions and for sizes whose rounding overflows: the last two theorems exhibit it"
  },
  {
   "property": "C13",
   "status": "proved",
   "theorems": [
    "HM.c13_inaccessible",
    "HM.c13_distinct",
    "HM.c13_free_accepts"
   ],
   "note": ""
  },
  {
   "property": "C14",
   "status": "proved",
   "theorems": [
    "HM.c14_class_minimal",
    "HM.c14_table_increasing",
    "HM.c14_waste",
    "HM.c14_aligned_class",
    "HM.c14_malloc"
   ],
   "note": "all small sizes, both class tables, all alignments up to the page size"
  },
  {
   "property": "C15",
   "status": "proved",
   "theorems": [
    "HM.c15_large_rounding",
    "HM.c15_idempotent",
    "HM.c15_malloc"
   ],
   "note": "all 64-bit sizes above 16384 (allocate_large is only reached above the largest slab class)"
  },
  {
   "property": "C16",
   "status": "proved",
   "theorems": [
    "HM.c16_failure_keeps",
    "HM.c16_too_large",
    "HM.c16_realloc_too_large",
    "HM.c05_no_abort"
   ],
   "note": "that later behaviour is unaffected: the state after the failed call is again a reachable state with the same live blocks, to which every theorem applies"
  },
  {
   "property": "C17",
   "status": "proved",
   "theorems": [
    "HM.c17_areas_apart",
    "HM.c17_separated",
    "HM.c17_block_in_area",
    "HM.c17_malloc_area",
    "HM.c17_small_or_large"
   ],
   "note": "areas are fixed at initialisation for any random gap"
  },
  {
   "property": "C18",
   "status": "proved",
   "theorems": [
    "HM.c18_guard_slab",
    "HM.c18_block_in_slab"
   ],
   "note": ""
  },
  {
   "property": "C19",
   "status": "proved",
   "theorems": [
    "HM.c19_guards",
    "HM.c19_guard_length"
   ],
   "note": ""
  },
  {
   "property": "C20",
   "status": "proved",
   "theorems": [
    "HM.c20_delay"
   ],
   "note": "frees are counted per arena and class, by free, free_sized or realloc that moves the block"
  },
  {
   "property": "C21",
   "status": "proved",
   "theorems": [
    "HM.c21_reserved"
   ],
   "note": "for free and free_sized; realloc releases memory by mremap or by shrinking without keeping the whole range reserved. That no other mapping is ever unmapped is part of C02 and C43 (live blocks stay accessible)"
  },
  {
   "property": "C22",
   "status": "proved",
   "theorems": [
    "HM.c22_purged",
    "HM.c22_opened",
    "HM.c44_capacity"
   ],
   "note": "under kernels that never refuse; c44_capacity bounds the slabs withheld from reuse"
  },
  {
   "property": "C23",
   "status": "proved",
   "theorems": [
    "HM.c23_cache_bound",
    "HM.c22_purged"
   ],
   "note": "slabs that hold quarantined blocks are counted separately"
  },
  {
   "property": "C24",
   "status": "partial",
   "theorems": [
    "HM.c24_find_exact_partial",
    "HM.c24_insert_total",
    "HM.c24_delete_total",
    "HM.c24_stale_after_ignored_failure"
   ],
   "note": "any hash, any history; assumes that the remap of the outgrown array succeeds: its failure is ignored by the code, and the last theorem exhibits the stale entries that follow"
  },
  {
   "property": "C25",
   "status": "partial",
   "theorems": [
    "HM.c25_errno_partial",
    "HM.c25_free_keeps_partial",
    "HM.c25_errno_unset",
    "HM.c25_free_changes_errno"
   ],
   "note": "false of the code in two situations, which the last two theorems exhibit: NULL with errno unchanged when the table of regions has reached its limit, and free with a failing naming system call"
  },
  {
   "property": "C26",
   "status": "proved",
   "theorems": [
    "HM.c26_null",
    "HM.c26_rejects",
    "HM.c26_value",
    "HM.c26_accepts"
   ],
   "note": ""
  },
  {
   "property": "C27",
   "status": "partial",
   "theorems": [
    "HM.c27_upper_bound",
    "HM.c27_unknown_partial",
    "HM.c27_fast",
    "HM.c27_zero_class_ub"
   ],
   "note": "undefined behaviour is possible for pointers into the area of zero byte blocks, which the last theorem exhibits"
  },
  {
   "property": "C28",
   "status": "proved",
   "theorems": [
    "HM.c28_trim",
    "HM.c43_others_untouched"
   ],
   "note": ""
  },
  {
   "property": "C29",
   "status": "partial",
   "theorems": [
    "HM.c29_allocated_partial",
    "HM.c29_mapped_partial",
    "HM.c29_drift"
   ],
   "note": "exact for histories without alignments above a page; false otherwise: blocks with such an alignment are not counted when allocated but subtracted when freed, which the last theorem exhibits"
  },
  {
   "property": "C30",
   "status": "partial",
   "theorems": [
    "HM.c30_u64_uniform",
    "HM.c30_u64_first_accepted",
    "HM.c30_u16_in_range",
    "HM.c30_u16_single_draw",
    "HM.c30_u16_near_uniform_partial",
    "HM.c30_u16_biased"
   ],
   "note": "64-bit: exactly uniform. 16-bit: in range, near uniform; exact uniformity is false of the code (c30_u16_biased)"
  },
  {
   "property": "C31",
   "status": "proved",
   "theorems": [
    "HM.c31_chacha",
    "HM.c31_no_reuse",
    "HM.c31_length",
    "HM.c31_reseed",
    "HM.c31_derived",
    "HM.c31_large_uncounted"
   ],
   "note": "the reseeding bound holds for requests of at most 128 bytes, and the allocator makes none larger than 40; larger requests are not counted (last theorem)"
  },
  {
   "property": "C32",
   "status": "proved",
   "theorems": [
    "HM.c32_u32",
    "HM.c32_u64"
   ],
   "note": ""
  },
  {
   "property": "C33",
   "status": "proved",
   "theorems": [
    "HM.c33_sound",
    "HM.c33_total",
    "HM.c33_full_none",
    "HM.c33_every_slot"
   ],
   "note": ""
  },
  {
   "property": "C34",
   "status": "proved",
   "theorems": [
    "HM.c34_new_tag",
    "HM.c34_live",
    "HM.c34_overflow",
    "HM.c34_adjacent",
    "HM.c34_dangling",
    "HM.c34_pointer",
    "HM.tagAndClearMem_eq"
   ],
   "note": "neighbours are those in the same slab; c34_adjacent covers the ends of slabs if GUARD_SLABS_INTERVAL is 1 (with other values, the last block of a slab and the first block of the next are not kept apart). The system must leave enough tags (it reserves 0 only). Each call changes tags in one step; tagging stays enabled"
  },
  {
   "property": "C35",
   "status": "partial",
   "theorems": [
    "HM.c35_checked_partial",
    "HM.c35_unchecked"
   ],
   "note": "false as stated: a slab that has been released to the system is mapped again without tag checking and later reused (c35_unchecked). Proved: all other slab memory is checked"
  },
  {
   "property": "C36",
   "status": "partial",
   "theorems": [
    "HM.c36_usable_partial",
    "HM.c36_disjoint_partial",
    "HM.c36_untouched_partial",
    "HM.c36_no_abort_partial",
    "HM.c36_fresh",
    "HM.c36_returned",
    "HM.c36_aligned",
    "HM.c36_calloc",
    "HM.c36_realloc",
    "HM.c36_usable_size",
    "HM.c36_hand",
    "HM.c36_lent",
    "HM.c36_any_answer",
    "HM.c36_lead_unmapped_twice"
   ],
   "note": "any number of threads, any interleaving of lock sections and system calls, any kernel outcome but one, and during calls that do not ask for an alignment above the page size any kernel outcome (c36_any_answer): if, during a call that asks for more, the kernel refuses to release the end of the mapping, the code releases the beginning of the mapping a second time, and with it a block that another thread has mapped there in the meantime (last theorem)"
  },
  {
   "property": "C37",
   "status": "proved",
   "theorems": [
    "HM.L.c37_release",
    "HM.L.c37_progress",
    "HM.L.c37_finishes",
    "HM.L.c37_exclusive"
   ],
   "note": "every number of threads and arenas, every schedule of single lock operations, in processes created by exec or by a fork that ran the handlers (for one that did not see C38). A thread that has called malloc_disable must call malloc_enable before others can go on; a thread that uses the allocator in between waits for itself and is excluded."
  },
  {
   "property": "C38",
   "status": "partial",
   "theorems": [
    "HM.L.c38_child_partial",
    "HM.L.c38_at_fork",
    "HM.L.c38_own_random",
    "HM.L.c38_no_lost",
    "HM.L.c38_reaches",
    "HM.L.c38_window",
    "HM.c38_blocks",
    "HM.c38_calls"
   ],
   "note": "false as stated: the handlers are registered after other threads can use the allocator, and a fork in between can leave the child with a lock nobody holds (c38_window). Proved for every fork that runs the handlers."
  },
  {
   "property": "C39",
   "status": "proved",
   "theorems": [
    "HM.L.c39_once",
    "HM.L.c39_before_use",
    "HM.L.c39_arena"
   ],
   "note": "memory is sequentially consistent in the model"
  },
  {
   "property": "C40",
   "status": "proved",
   "theorems": [
    "HM.c40_new",
    "HM.c40_nothrow",
    "HM.c40_attempts",
    "HM.c40_retry",
    "HM.c40_block",
    "HM.c40_delete"
   ],
   "note": ""
  },
  {
   "property": "C41",
   "status": "proved",
   "theorems": [
    "HM.c41_rejects",
    "HM.c41_memalign_rejects",
    "HM.c25_errno_partial"
   ],
   "note": "*memptr is only part of the result when the call succeeds"
  },
  {
   "property": "C42",
   "status": "proved",
   "theorems": [
    "HM.c42_guarded",
    "HM.c42_sealed"
   ],
   "note": "the protection key is a per-thread flag; the model has no way to write metadata other than the allocator's own critical sections, which fault while the flag is clear"
  },
  {
   "property": "C43",
   "status": "proved",
   "theorems": [
    "HM.c43_others_untouched",
    "HM.c43_history"
   ],
   "note": ""
  },
  {
   "property": "C44",
   "status": "proved",
   "theorems": [
    "HM.c44_capacity"
   ],
   "note": "up to the slabs and slots held back by the quarantines"
  },
  {
   "property": "C45",
   "status": "proved",
   "theorems": [
    "HM.c45_seed",
    "HM.c45_seed_returns",
    "HM.c45_message",
    "HM.c45_message_ends",
    "HM.c45_write_zero",
    "HM.c45_aborts"
   ],
   "note": "that the message loop ends needs a write that makes progress: a write that returns 0 is repeated forever (last theorem)"
  },
  {
   "property": "C46",
   "status": "partial",
   "theorems": [
    "HM.c04_free_detected",
    "HM.c04_free_sized_detected",
    "HM.c26_rejects",
    "HM.c46_realloc",
    "HM.c46_object_size_partial",
    "HM.c27_unknown_partial"
   ],
   "note": "malloc_object_size on freed zero byte blocks is missing: the call may have undefined behaviour (see C27)"
  },
  {
   "property": "C47",
   "status": "proved",
   "theorems": [
    "HM.c47_outcomes",
    "HM.c47_no_fault",
    "HM.c48_outcomes"
   ],
   "note": "sequential machine, any application, any errors of the kernel"
  },
  {
   "property": "C48",
   "status": "proved",
   "theorems": [
    "HM.c48_from_start",
    "HM.anyBoot_follows",
    "HM.goodBoot_follows",
    "HM.c48_outcomes",
    "HM.c04_free_from_start",
    "HM.c48_threads"
   ],
   "note": "all theorems about Reach apply to the states that c48_from_start provides; others may map memory before and after initialisation; c48_threads: so do all theorems about CReach if threads start after calls made one after the other"
  },
  {
   "property": "C49",
   "status": "proved",
   "theorems": [
    "HM.c49_accounted",
    "HM.c49_accessible",
    "HM.c49_all_returned"
   ],
   "note": "sequential machine, any application, no errors of the kernel"
  },
  {
   "property": "C50",
   "status": "partial",
   "theorems": [
    "HM.c50_call",
    "HM.c50_history",
    "HM.c50_disjoint",
    "HM.c50_others_harmless",
    "HM.c50_action_partial",
    "HM.c50_blocks_partial",
    "HM.c50_foreign_unmapped"
   ],
   "note": "proved without exception if calls follow one another; with interleaved calls except if the kernel refuses to release the tail of an over-aligned mapping, where the claim is false: c50_foreign_unmapped"
  },
  {
   "property": "C51",
   "status": "proved",
   "theorems": [
    "HM.c51_atomic",
    "HM.c51_histories",
    "HM.c51_section",
    "HM.c51_plain",
    "HM.c51_no_abort_section",
    "HM.c51_no_abort_plain",
    "HM.c51_can_acquire",
    "HM.c51_contents",
    "HM.c51_disjoint",
    "HM.c51_calloc",
    "HM.c51_settled_unique"
   ],
   "note": "the model limits what an unfinished section may have written to the data of its lock (Sect.upsets); that its result depends on and changes only this data is proved for every section; mutual exclusion is C37"
  },
  {
   "property": "C52",
   "status": "partial",
   "theorems": [
    "HM.c52_bin_partial",
    "HM.c52_bin_crashes",
    "HM.c52_arena",
    "HM.c52_large_partial",
    "HM.c52_adds_up",
    "HM.c52_malloc_info_partial",
    "HM.c52_malloc_info_sealed"
   ],
   "note": "false as stated: with sealed metadata mallinfo_bin_info always crashes (c52_bin_crashes), and malloc_info crashes if writing to the stream calls the allocator (c52_malloc_info_sealed); the number for large blocks drifts after alignments of more than a page (c29_drift). Everything else is proved; reports are made between calls of the sequential machine"
  },
  {
   "property": "C53",
   "status": "proved",
   "theorems": [
    "HM.c53_detected",
    "HM.c53_double_free",
    "HM.c53_late_start"
   ],
   "note": "the thread at fault is a thread that has done only what concerns nobody else (Begins) when it takes its first lock; not claimed for a block that another call which is not a free has in its hands at that moment (realloc of it, or an allocation that has not returned), where the free may go through"
  },
  {
   "property": "C54",
   "status": "partial",
   "theorems": [
    "HM.c54_as_without_stores",
    "HM.c54_usable_partial",
    "HM.c54_disjoint_partial",
    "HM.c54_aligned",
    "HM.c54_fresh",
    "HM.c54_outcomes_partial",
    "HM.c54_untouched_partial"
   ],
   "note": "all interleavings of lock sections and system calls, with stores of any byte to any writable page at any moment; partial for the same reason as C36 (one kernel result excluded). Stores hit the pages that are readable and writable; the metadata of the allocator is kept in Lean structures and cannot be hit, as in the code it lies in mappings of its own, between guard regions"
  },
  {
   "property": "C55",
   "status": "partial",
   "theorems": [
    "HM.c55_separated_partial",
    "HM.c55_block_in_area_partial",
    "HM.c55_guard_slab_partial",
    "HM.c55_block_in_slab_partial",
    "HM.c55_large_guards_partial",
    "HM.c55_zero_size_partial",
    "HM.c55_fresh_zero_partial"
   ],
   "note": "all interleavings of lock sections and system calls; partial for the same reason as C36 (one kernel result excluded); memory tagging enabled at run time is covered by C06 only"
  },
  {
   "property": "C56",
   "status": "partial",
   "theorems": [
    "HM.c56_small_delay_partial",
    "HM.c56_large_reserved_partial",
    "HM.c56_large_reserved_wild_partial"
   ],
   "note": "all interleavings of lock sections and system calls; partial for the same reason as C36 (one kernel result excluded). A realloc in progress counts whether or not it will move its block"
  },
  {
   "property": "C57",
   "status": "partial",
   "theorems": [
    "HM.c57_accounted",
    "HM.c57_accessible",
    "HM.c57_all_returned",
    "HM.c57_invalid_detected_partial",
    "HM.c57_large_blocks_partial",
    "HM.c57_class_statistics_partial",
    "HM.c57_arena_partial",
    "HM.c57_allocated_partial",
    "HM.c57_mapped_partial",
    "HM.c57_fork_loses"
   ],
   "note": "the part about pages is proved in full; the part about blocks is partial for the same reason as C36 (one kernel result excluded). c57_fork_loses shows that the exclusion of forks during calls is necessary"
  },
  {
   "property": "C58",
   "status": "partial",
   "theorems": [
    "HM.c58_no_effect_partial",
    "HM.c58_usable_size_partial",
    "HM.c58_object_size_partial",
    "HM.c58_sealed",
    "HM.c58_finishes",
    "HM.c58_undisturbed",
    "HM.CReach.asking"
   ],
   "note": "partial for the same reason as C36 (one kernel result excluded for the other calls). c58_undisturbed carries the theorems on C36, C55, C56 and C57 over to executions with such queries"
  },
  {
   "property": "C59",
   "status": "partial",
   "theorems": [
    "HM.c59_overflow_partial",
    "HM.c59_overflow_realloc_partial",
    "HM.c59_write_after_free_partial"
   ],
   "note": "overflow: the call does not return, it stays in progress or the process ends; realloc may fail or leave the block where it is, but does not move it. Write after free: all allocation functions. Partial for the same reason as C54 (one kernel result excluded); processes without memory tagging"
  },
  {
   "property": "C60",
   "status": "proved",
   "theorems": [
    "HM.L.c60_nobody_else",
    "HM.L.c60_one",
    "HM.L.c60_quiet",
    "HM.L.c60_enable"
   ],
   "note": "in the model of locks, whose steps are single lock operations; a section's work on the data is one step"
  },
  {
   "property": "C61",
   "status": "partial",
   "theorems": [
    "HM.c61_errno_partial",
    "HM.c61_refuses",
    "HM.c61_free_keeps_partial",
    "HM.c25_errno_unset",
    "HM.c25_free_changes_errno"
   ],
   "note": "missing are the two situations in which it is false of the code, exhibited by the last two theorems: errno can stay unchanged when more than three eighths of the largest number of large blocks exist, and free of a small block can change errno when a naming system call fails"
  },
  {
   "property": "C62",
   "status": "partial",
   "theorems": [
    "HM.c62_realloc_rest",
    "HM.c62_realloc_null",
    "HM.c62_threads_partial"
   ],
   "note": "complete for calls made one after the other, with arbitrary stores of the application; the theorem about threads assumes that the application only stores to blocks it has, and does not cover memory tagging as the reason for zero contents. That the bytes before these are those of the old block is C10 and C36."
  },
  {
   "property": "C63",
   "status": "partial",
   "theorems": [
    "HM.c63_bounded",
    "HM.c63_returns",
    "HM.c63_alone_partial"
   ],
   "note": "The number of actions (critical sections, system calls outside of them, copies) is bounded in every reachable state of the model with arbitrary stores, and calls return in every fair infinite execution. c63_alone_partial, that a thread running alone finishes, is for applications without memory errors and a kernel that refuses system calls only for lack of memory (otherwise the process is aborted, see C36). That each action terminates is by construction of the model, loops with an unbounded search being a separate outcome excluded by C36 and C54; that locks are granted is C37."
  },
  {
   "property": "C64",
   "status": "proved",
   "theorems": [
    "HM.c64_placement",
    "HM.c64_placement_any",
    "HM.c64_no_quarantine"
   ],
   "note": "c64_placement: programs without memory errors, the call with the other random number does return the other slot. c64_placement_any: arbitrary programs, the call returns the other slot if it returns (it may abort because the slot was written to after it was freed). c64_no_quarantine: if the quarantine for freed slots is configured off, no slot is held back, so that every slot without a live block counts. The shares (drawsFor) are disjoint by definition: a random number v selects slot v * slots / 65536."
  },
  {
   "property": "C65",
   "status": "proved",
   "theorems": [
    "HM.c65_inert",
    "HM.c65_purge",
    "HM.c65_early_init"
   ],
   "note": "c65_early_init speaks of executions in which the constructor returns; the allocator aborts if it cannot be initialised, see C48."
  },
  {
   "property": "C66",
   "status": "partial",
   "theorems": [
    "HM.M.c66_for_good",
    "HM.M.c66_once",
    "HM.M.c66_mapped",
    "HM.M.c66_no_fault",
    "HM.M.c66_readonly_partial",
    "HM.M.c66_no_deadlock_partial",
    "HM.M.c66_fork_window"
   ],
   "note": "false of the code if a thread forks while another one is in the middle of the function: in the child the protected data stays writable and the function never returns (c66_fork_window); the theorems with suffix _partial exclude such forks, the others do not. Memory is sequentially consistent. That slabs are mapped again without tag checking after they were released is C35; that calls behave as the other properties say whenever the flag changes is part of the model of those."
  },
  {
   "property": "C67",
   "status": "proved",
   "theorems": [
    "HM.c67_no_fault",
    "HM.c67_copy",
    "HM.c34_pointer"
   ],
   "note": "tagging stays enabled (see C66 for switching it off: checks must then be off too); each call changes tags in one step, except that the copy of realloc is looked at between the allocation and the release. The stores of the tagging instructions themselves are not checked by the hardware."
  },
  {
   "property": "C68",
   "status": "partial",
   "theorems": [
    "HM.c68_no_fault_partial",
    "HM.c68_in_use_partial",
    "HM.c68_new_tag_partial",
    "HM.c68_overflow_partial",
    "HM.c68_freed_partial",
    "HM.c68_dangling_partial",
    "HM.c68_free_memory_partial"
   ],
   "note": "tags are an addition to the machine with interleaved calls: an action that allocates or frees a slot (one section under the lock of the class) changes its tags, and CReach.tags shows that every execution of that machine has tags. Partial for the same reason as C36 (one kernel result excluded). Tagging stays enabled."
  },
  {
   "property": "C69",
   "status": "partial",
   "theorems": [
    "HM.c69_delay_any_partial",
    "HM.c69_delay_partial",
    "HM.c69_large",
    "HM.c69_not_random"
   ],
   "note": "proved for size classes with fewer than 65536 places. The code passes the number of places to a function that takes 16 bits: if it is a multiple of 65536 (length 8 and class 16 with extended size classes), the place is always the first one, and the block freed before leaves (c69_not_random)."
  },
  {
   "property": "C70",
   "status": "partial",
   "theorems": [
    "HM.c70_areas",
    "HM.c70_guards_partial",
    "HM.c70_canary_partial",
    "HM.c70_canary_tags_partial",
    "HM.c70_realloc_guards_partial",
    "HM.c70_realloc_canary_partial"
   ],
   "note": "guards and canary are proved for all functions that allocate, with calls one after the other, for realloc when it moves the block; that nothing but block and guards is mapped is not proved for realloc; in builds with memory tagging a canary of zero is replaced (c70_canary_tags_partial) and none is written while tagging is on; the canary after realloc is proved for builds without memory tagging only. How the random numbers are made from the key stream is C30."
  },
  {
   "property": "C71",
   "status": "partial",
   "theorems": [
    "HM.c71_mallinfo_partial"
   ],
   "note": "the number for the large blocks is covered only if no call asked for an alignment of more than a page so far (see C29); without memory tagging, like the other theorems about threads; the extra blocks of a set are not attributed to particular calls in progress."
  },
  {
   "property": "C72",
   "status": "proved",
   "theorems": [
    "HM.c72_data",
    "HM.c72_outcome",
    "HM.WReach.moves"
   ],
   "note": "every kernel outcome and any application; addresses are those without memory tags (for tags see C34 and C68); HM.WReach.moves says that the sequences of moves of the statement cover all executions."
  },
  {
   "property": "C73",
   "status": "proved",
   "theorems": [
    "HM.c73_isolation",
    "HM.c73_outcome",
    "HM.c73_isolation_out",
    "HM.c73_outcome_out",
    "HM.CReach.exec"
   ],
   "note": "for the model with threads, in which memory tags are off; HM.CReach.exec says that the labelled executions of the statement cover all executions. c73_isolation_out and c73_outcome_out are the other direction. As in the statement, nobody calls malloc_trim, the threads of the size classes do not call mallinfo, and nobody does in the other direction."
  },
  {
   "property": "C74",
   "status": "proved",
   "theorems": [
    "HM.c74_bounds",
    "HM.c74_unused",
    "HM.c74_short_array",
    "HM.WReach.moves"
   ],
   "note": "c74_bounds is about any application, c74_unused about correct ones; c74_short_array is the configuration in which the table has more entries than the declared array. HM.WReach.moves: the executions of the other theorems are executions of c74_bounds."
  },
  {
   "property": "C75",
   "status": "partial",
   "theorems": [
    "HM.c75_guards",
    "HM.c75_guards_partial"
   ],
   "note": "c75_guards: calls one after the other, any application, every answer of the kernel. c75_guards_partial: interleaved calls of correct programs; partial for the same reason as C50 (one kernel result excluded: during a call with an alignment above the page size, the kernel refuses to release the end of the mapping). The changes of protection inside of the state, as the table and the descriptions of slabs grow, are not modelled; C74 says that these stay inside of their arrays."
  }
 ]
}