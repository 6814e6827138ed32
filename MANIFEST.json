{
 "claims": [
  {
   "property": "C01",
   "status": "proved",
   "theorems": [
    "Papaya.C01_linearizable",
    "Papaya.C01_history_wf"
   ],
   "note": "about the interleaving (sequentially consistent) model of all operations, any number of threads and steps"
  },
  {
   "property": "C02",
   "status": "proved",
   "theorems": [
    "Papaya.C02_get",
    "Papaya.C02_get_stable"
   ],
   "note": "about the interleaving (sequentially consistent) model of all operations, any number of threads and steps"
  },
  {
   "property": "C03",
   "status": "proved",
   "theorems": [
    "Papaya.C03_insert"
   ],
   "note": "about the interleaving (sequentially consistent) model of all operations, any number of threads and steps"
  },
  {
   "property": "C04",
   "status": "proved",
   "theorems": [
    "Papaya.C04_tryInsert"
   ],
   "note": "about the interleaving (sequentially consistent) model of all operations, any number of threads and steps"
  },
  {
   "property": "C05",
   "status": "proved",
   "theorems": [
    "Papaya.C05_remove"
   ],
   "note": "about the interleaving (sequentially consistent) model of all operations, any number of threads and steps"
  },
  {
   "property": "C06",
   "status": "proved",
   "theorems": [
    "Papaya.C06_compute"
   ],
   "note": "about the interleaving (sequentially consistent) model of all operations, any number of threads and steps"
  },
  {
   "property": "C08",
   "status": "proved",
   "theorems": [
    "Papaya.C08_derived"
   ],
   "note": "about the interleaving (sequentially consistent) model of all operations, any number of threads and steps"
  },
  {
   "property": "C09",
   "status": "proved",
   "theorems": [
    "Papaya.C09_panics",
    "Papaya.C09_no_internal_panic"
   ],
   "note": "about the interleaving (sequentially consistent) model of all operations, any number of threads and steps"
  },
  {
   "property": "C14",
   "status": "proved",
   "theorems": [
    "Papaya.C14_contents_stable"
   ],
   "note": "about the interleaving (sequentially consistent) model of all operations, any number of threads and steps"
  },
  {
   "property": "C15",
   "status": "proved",
   "theorems": [
    "Papaya.C15_root_not_aborted",
    "Papaya.C15_blocking_contents"
   ],
   "note": "about the interleaving (sequentially consistent) model of all operations, any number of threads and steps"
  },
  {
   "property": "C16",
   "status": "proved",
   "theorems": [
    "Papaya.C16_probe_in_bounds",
    "Papaya.C16_probe_closed_form",
    "Papaya.C16_probe_distinct",
    "Papaya.C16_probe_covers",
    "Papaya.C16_probe_no_overflow"
   ],
   "note": ""
  },
  {
   "property": "C17",
   "status": "proved",
   "theorems": [
    "Papaya.C17_limit",
    "Papaya.C17_entries_for_panics_iff",
    "Papaya.C17_entries_for"
   ],
   "note": ""
  },
  {
   "property": "C18",
   "status": "proved",
   "theorems": [
    "Papaya.C18_h2_not_marker",
    "Papaya.C18_meta_mismatch"
   ],
   "note": ""
  },
  {
   "property": "C19",
   "status": "proved",
   "theorems": [
    "Papaya.Tagged.C19_roundtrip",
    "Papaya.Tagged.C19_fetch_or",
    "Papaya.Tagged.C19_not_null",
    "Papaya.Tagged.C19_enc_inj",
    "Papaya.Tagged.C19_enc_ops",
    "Papaya.Tagged.C19_enc_tests"
   ],
   "note": ""
  },
  {
   "property": "C20",
   "status": "proved",
   "theorems": [
    "Papaya.Layout.C20_in_bounds",
    "Papaya.Layout.C20_disjoint",
    "Papaya.Layout.C20_aligned",
    "Papaya.Layout.C20_dealloc_same_layout",
    "Papaya.Layout.C20_wraps_at_2_61"
   ],
   "note": "for every length whose true size fits in 64 bits; C20_wraps_at_2_61 shows that the code does not check this"
  },
  {
   "property": "C21",
   "status": "proved",
   "theorems": [
    "Papaya.C21_memory_safe",
    "Papaya.C21_refs_valid",
    "Papaya.C21_bound_alive"
   ],
   "note": "about the interleaving (sequentially consistent) model of all operations, any number of threads and steps"
  },
  {
   "property": "C22",
   "status": "proved",
   "theorems": [
    "Papaya.C22_freeTable_once",
    "Papaya.C22_freeEntry_once",
    "Papaya.C22_freed_handed",
    "Papaya.C22_no_leak"
   ],
   "note": "about the interleaving (sequentially consistent) model of all operations, any number of threads and steps"
  },
  {
   "property": "C24",
   "status": "proved",
   "theorems": [
    "Papaya.C01_linearizable"
   ],
   "note": "Step allows any thread to stop forever between any two atomic steps, and closures to panic"
  },
  {
   "property": "C25",
   "status": "proved",
   "theorems": [
    "Papaya.ParkerM.C25_no_lost_wakeup",
    "Papaya.ParkerM.C25_returns_after_false",
    "Papaya.ParkerM.C25_pending_nonneg"
   ],
   "note": ""
  },
  {
   "property": "C26",
   "status": "partial",
   "theorems": [
    "Papaya.C26_false_system",
    "Papaya.C26_blocked_forever",
    "Papaya.ParkerM.C26_false"
   ],
   "note": "the property is false of the code: C26_false_system is a reachable state of the whole system in which a writer sleeps for an aborted resize, C26_blocked_forever shows that it never returns from the wait, whatever happens later; ParkerM.C26_false is the witness in the small model of the parker alone"
  },
  {
   "property": "C27",
   "status": "partial",
   "theorems": [
    "Papaya.C27_no_shrink_panic_partial",
    "Papaya.C27_false",
    "Papaya.C27_next_capacity_pow2_partial",
    "Papaya.C27_false_pure"
   ],
   "note": "false of the code for capacities that are not powers of two (C27_false: with_capacity(5), the 9th insert panics); C27_no_shrink_panic_partial: holds in every execution for the others"
  },
  {
   "property": "C45",
   "status": "partial",
   "theorems": [
    "Papaya.C45_false",
    "Papaya.C45_cause_partial",
    "Papaya.C44_panic_no_effect"
   ],
   "note": "false of the code: a failed reserve poisons the allocation mutex (C45_false is a witness of the negation). What is left: the failed call has changed nothing in the contents (C44_panic_no_effect), and a call panics for a poisoned lock only if another call panicked (or is about to) because a table could not be allocated, or was abandoned (C45_cause_partial)"
  },
  {
   "property": "C28",
   "status": "proved",
   "theorems": [
    "Papaya.C28_policy",
    "Papaya.C28_bounds",
    "Papaya.C28_tables"
   ],
   "note": ""
  },
  {
   "property": "C31",
   "status": "proved",
   "theorems": [
    "Papaya.StackM.C31_drain"
   ],
   "note": ""
  },
  {
   "property": "C32",
   "status": "proved",
   "theorems": [
    "Papaya.C32_root_once"
   ],
   "note": "about the interleaving (sequentially consistent) model of all operations, any number of threads and steps"
  },
  {
   "property": "C33",
   "status": "proved",
   "theorems": [
    "Papaya.C33_successor_once"
   ],
   "note": "about the interleaving (sequentially consistent) model of all operations, any number of threads and steps"
  },
  {
   "property": "C36",
   "status": "proved",
   "theorems": [
    "Papaya.C36_binds_unique",
    "Papaya.C36_table_key_once"
   ],
   "note": "about the interleaving (sequentially consistent) model of all operations, any number of threads and steps"
  },
  {
   "property": "C37",
   "status": "proved",
   "theorems": [
    "Papaya.C37_no_resurrection"
   ],
   "note": "about the interleaving (sequentially consistent) model of all operations, any number of threads and steps"
  },
  {
   "property": "C41",
   "status": "partial",
   "theorems": [
    "Papaya.Bounds.C41_map_partial",
    "Papaya.Bounds.C41_set_send_partial",
    "Papaya.Bounds.C41_false_set_sync"
   ],
   "note": "holds for HashMap, false for HashSet: Sync"
  },
  {
   "property": "C42",
   "status": "proved",
   "theorems": [
    "Papaya.C42_program_order",
    "Papaya.C42_read_your_writes",
    "Papaya.C42_insert_get"
   ],
   "note": "about the interleaving (sequentially consistent) model of all operations, any number of threads and steps"
  },
  {
   "property": "C43",
   "status": "partial",
   "theorems": [
    "Papaya.Tagged.C43_tag_bits_free_partial",
    "Papaya.Tagged.C43_false_zero_sized",
    "Papaya.Tagged.C43_false_small_alignment"
   ],
   "note": "false of the code for small alignments and zero-sized entries"
  },
  {
   "property": "C10",
   "status": "proved",
   "theorems": [
    "Papaya.C10_clear",
    "Papaya.C10_clear_empties"
   ],
   "note": "about the interleaving (sequentially consistent) model of all operations, any number of threads and steps"
  },
  {
   "property": "C11",
   "status": "proved",
   "theorems": [
    "Papaya.C11_retain",
    "Papaya.C11_retain_alone",
    "Papaya.C11_retain_filter"
   ],
   "note": "about the interleaving (sequentially consistent) model of all operations, any number of threads and steps"
  },
  {
   "property": "C12",
   "status": "proved",
   "theorems": [
    "Papaya.C12_iter",
    "Papaya.C12_iter_exact",
    "Papaya.C12_iter_take",
    "Papaya.C12_iter_take_exact"
   ],
   "note": "about the interleaving (sequentially consistent) model of all operations, any number of threads and steps; the iterator is consumed by one call, to the end or up to any number of entries"
  },
  {
   "property": "C13",
   "status": "proved",
   "theorems": [
    "Papaya.C13_len",
    "Papaya.C13_isEmpty",
    "Papaya.C13_counter_exact"
   ],
   "note": "about the interleaving (sequentially consistent) model of all operations, any number of threads and steps"
  },
  {
   "property": "C30",
   "status": "proved",
   "theorems": [
    "Papaya.C30_reserve"
   ],
   "note": "about the interleaving (sequentially consistent) model of all operations, any number of threads and steps"
  },
  {
   "property": "C07",
   "status": "proved",
   "theorems": [
    "Papaya.C07_compute_once",
    "Papaya.C07_initialiser_once",
    "Papaya.C09_panics",
    "Papaya.C09_no_internal_panic"
   ],
   "note": "about the interleaving (sequentially consistent) model of all operations, any number of threads and steps; the calls made to the closure are recorded in the result of the model operation"
  },
  {
   "property": "C44",
   "status": "proved",
   "theorems": [
    "Papaya.C44_panic_no_effect",
    "Papaya.C01_linearizable",
    "Papaya.C13_len",
    "Papaya.C22_no_leak"
   ],
   "note": "about the interleaving (sequentially consistent) model of all operations, any number of threads and steps; len and leak-freedom: the notion of quiescence (NoWriter, Ended) counts panicked calls as ended"
  },
  {
   "property": "C34",
   "status": "proved",
   "theorems": [
    "Papaya.C34_get_bounded",
    "Papaya.C34_get_never_blocked",
    "Papaya.C34_get_alone"
   ],
   "note": "For every schedule: get/contains_key take at most 2 + sum of (4*limit+7) own steps over the tables that exist between the root at their start and their end, never wait, never panic; and return when run alone from any reachable state."
  },
  {
   "property": "C23",
   "status": "proved",
   "theorems": [
    "Papaya.C23_drop_entries",
    "Papaya.C23_drop_tables",
    "Papaya.C23_blocking_resized",
    "Papaya.C23_copies_complete",
    "Papaya.C23_tables_retired",
    "Papaya.C23_unlocked"
   ],
   "note": "about the interleaving (sequentially consistent) model of all operations, any number of threads and steps; hypothesis AtRest: no operation running or abandoned and none panicked because a table could not be allocated (closure panics are allowed). Finding: tables abandoned by a blocking resize are never freed (aborted_leak)"
  },
  {
   "property": "C38",
   "status": "proved",
   "theorems": [
    "Papaya.C38_extend",
    "Papaya.C38_fromIter",
    "Papaya.C38_fromIter_capacity",
    "Papaya.C38_clone",
    "Papaya.C38_roundtrip"
   ],
   "note": "the code of the trait implementations as a client of the operations; no concurrent writers; clones of keys are equal to the original"
  },
  {
   "property": "C39",
   "status": "proved",
   "theorems": [
    "Papaya.C39_eq",
    "Papaya.C39_eq_lawful",
    "Papaya.C39_equivalence"
   ],
   "note": "quiescent maps"
  },
  {
   "property": "C40",
   "status": "proved",
   "theorems": [
    "Papaya.C40_sequential",
    "Papaya.C40_linearizable",
    "Papaya.C40_eq",
    "Papaya.C40_extend",
    "Papaya.C40_fromIter",
    "Papaya.C40_clone"
   ],
   "note": "about the interleaving (sequentially consistent) model of all operations, any number of threads and steps"
  },
  {
   "property": "C46",
   "status": "proved",
   "theorems": [
    "Papaya.C46_sequential",
    "Papaya.C46_panic"
   ],
   "note": "about the interleaving (sequentially consistent) model of all operations, any number of threads and steps"
  },
  {
   "property": "C35",
   "status": "proved",
   "theorems": [
    "Papaya.C35_rejected_iff",
    "Papaya.C35_verified",
    "Papaya.C35_isolated",
    "Papaya.C35_memory_safe"
   ],
   "note": "a system of any number of maps; a collector belongs to one map (it is moved into it)"
  },
  {
   "property": "C29",
   "status": "partial",
   "theorems": [
    "Papaya.C29_insert_never_returns",
    "Papaya.C29_witness",
    "Papaya.C29_new_key_ends",
    "Papaya.C49_room_ends",
    "Papaya.C49_few_ends"
   ],
   "note": "Both modes: proved for incremental resizing, refuted for blocking resizing. Incremental: C29_new_key_ends bounds the steps of an insertion (or any single-key operation) of a key that is absent, for every hash function, even if weak compare-exchanges fail spuriously. Blocking: the property is false of the code: from any crowded state (31 keys with a constant hash in a 64-slot table is one, reached by C29_witness) an insertion of a new key never returns, however long it runs, although no other call is running; it ends if one of the probed slots is free (C49_room_ends, C49_few_ends)."
  },
  {
   "property": "C47",
   "status": "proved",
   "theorems": [
    "Papaya.C47_ends",
    "Papaya.C29_new_key_ends",
    "Papaya.C47_len_ends",
    "Papaya.EndsAlone.reaches"
   ],
   "note": "C47_ends assumes that weak compare-exchanges do not fail spuriously for ever (they do not fail spuriously at all); for absent keys (C29_new_key_ends), len and is_empty no assumption is made. EndsAlone.reaches: it does return or panic. State: no operation is running, none was abandoned or panicked in an allocation."
  },
  {
   "property": "C48",
   "status": "partial",
   "theorems": [
    "Papaya.C48_never_returns",
    "Papaya.C48_not_endsAlone",
    "Papaya.C48_witness",
    "Papaya.C48_settled_ends",
    "Papaya.C48_reserve_ends"
   ],
   "note": "The property is false of the code in incremental mode: from any overfull state (40 keys with a constant hash in 128-slot tables is one, reached by C48_witness) iter, clear, retain and a reservation that needs a larger table never return, however long they run, although no other call is running. Proved if no resize is pending (always so in blocking mode at rest): iter, clear and retain (C48_settled_ends), and reserve if no larger table is needed (C48_reserve_ends)."
  },
  {
   "property": "C49",
   "status": "proved",
   "theorems": [
    "Papaya.C49_ends",
    "Papaya.C49_room_ends",
    "Papaya.C49_present_ends",
    "Papaya.C49_few_ends",
    "Papaya.C49_get_ends",
    "Papaya.C48_settled_ends",
    "Papaya.C48_reserve_ends"
   ],
   "note": "Weak compare-exchanges are assumed not to fail spuriously, except in C49_get_ends, C48_settled_ends and C48_reserve_ends. For incremental mode see also C47."
  },
  {
   "property": "C50",
   "status": "proved",
   "theorems": [
    "Papaya.C50_private",
    "Papaya.C50_linearizable",
    "Papaya.C50_memory_safe",
    "Papaya.C50_refs_valid"
   ],
   "note": "about the interleaving (sequentially consistent) model of all operations, any number of threads and steps"
  },
  {
   "property": "C51",
   "status": "proved",
   "theorems": [
    "Papaya.C51_no_aba",
    "Papaya.C51_compare",
    "Papaya.C51_linearizable",
    "Papaya.C51_memory_safe",
    "Papaya.C51_fresh"
   ],
   "note": "about the interleaving (sequentially consistent) model of all operations, any number of threads and steps. The allocation of an entry is merged with its publication."
  },
  {
   "property": "C52",
   "status": "proved",
   "theorems": [
    "Papaya.C52_initialised",
    "Papaya.C52_sufficient",
    "Papaya.C52_results",
    "Papaya.C52_no_ub",
    "Papaya.C52_unique",
    "Papaya.C52_slot_key",
    "Papaya.C52_sc",
    "Papaya.C52_necessary"
   ],
   "note": "about the model with weakly ordered memory (Model/Weak.lean), in which memory is never freed; nothing is assumed about locations without pointers. C52_sc: it contains the executions of the interleaving model. C52_necessary: eleven concrete executions."
  },
  {
   "property": "C53",
   "status": "proved",
   "theorems": [
    "Papaya.C53_lock_holder_moves"
   ],
   "note": "hypotheses: no operation abandoned, no table allocation failed (an example shows the first one is needed)"
  },
  {
   "property": "C54",
   "status": "proved",
   "theorems": [
    "Papaya.C54_waits_for_progress",
    "Papaya.C54_waits_for_worker",
    "Papaya.C54_no_deadlock"
   ],
   "note": "hypotheses as for C53; a wait ends in this model when its condition holds; with sleeping threads and their wake-ups: C55, C56, the exception C26"
  },
  {
   "property": "C55",
   "status": "proved",
   "theorems": [
    "Papaya.C55_no_lost_wakeup",
    "Papaya.C55_unparker_unparks",
    "Papaya.C55_woken_returns"
   ],
   "note": "hypotheses: no operation abandoned, no table allocation failed; model with the parkers of the tables (Model/Park.lean), in which spurious wakeups are allowed but never needed"
  },
  {
   "property": "C56",
   "status": "proved",
   "theorems": [
    "Papaya.C56_waits_for_progress",
    "Papaya.C56_no_deadlock",
    "Papaya.C56_no_deadlock_incremental"
   ],
   "note": "hypotheses: no operation abandoned, no table allocation failed; model with the parkers of the tables (Model/Park.lean), in which spurious wakeups are allowed but never needed. The exception, an aborted blocking resize, is C26."
  },
  {
   "property": "C57",
   "status": "proved",
   "theorems": [
    "Papaya.C57_parker_alive",
    "Papaya.C57_pending",
    "Papaya.C57_empty_at_rest",
    "Papaya.C57_empty_when_idle",
    "Papaya.C57_registered_waits"
   ],
   "note": "about the interleaving (sequentially consistent) model of all operations, any number of threads and steps"
  },
  {
   "property": "C58",
   "status": "proved",
   "theorems": [
    "Papaya.C58_bounded",
    "Papaya.C58_never_waits",
    "Papaya.C58_waits_for_allocation",
    "Papaya.C58_lock_free"
   ],
   "note": "a resize is in progress from the allocation of the next table until the root is replaced; during resizes: C53-C57. about the interleaving (sequentially consistent) model of all operations, any number of threads and steps"
  },
  {
   "property": "C59",
   "status": "proved",
   "theorems": [
    "Papaya.C59_never_stuck",
    "Papaya.C59_counterpart",
    "Papaya.C59_linearizable",
    "Papaya.C59_memory_safe",
    "Papaya.C59_refs_valid",
    "Papaya.C59_nobody_waits_for_a_closure",
    "Papaya.C59_no_deadlock"
   ],
   "note": "Model/Reenter.lean: an operation that calls its closure is suspended until the closure answers, anything; the no-deadlock theorems assume, like C54, that no operation was killed in the middle and no table allocation has failed. C59_never_stuck shows that the model has no artificial deadlocks; concrete executions with a closure that removes the key it is computing in Props/ReenterDemo.lean"
  },
  {
   "property": "C60",
   "status": "proved",
   "theorems": [
    "Papaya.C60_overtaken",
    "Papaya.C60_published",
    "Papaya.C60_tables_forever",
    "Papaya.C60_all_end",
    "Papaya.C60_zero_chunk",
    "Papaya.C60_overfull"
   ],
   "note": "all four parts, for every infinite execution of the model; Incremental(0) is excluded by hypothesis because the property is false there"
  },
  {
   "property": "C61",
   "status": "partial",
   "theorems": [
    "Papaya.C61_bounded",
    "Papaya.C61_no_wrap_partial",
    "Papaya.C61_no_wrap_reach_partial",
    "Papaya.C61_blocking",
    "Papaya.C61_false",
    "Papaya.C61_false_result"
   ],
   "note": "false of the code: Incremental(2^63) and three threads wrap the claim counter, an entry is copied twice, a removed key is found again and freed memory is read (C61_false, C61_false_result: executions of the model with 64-bit counters). Proved: with at most n operations at a time and tables of at most m slots, m + n*chunk <= 2^64, the counters never wrap and the system with 64-bit counters reaches exactly the states of the system the other theorems are about; always in blocking mode for realistic n"
  },
  {
   "property": "C62",
   "status": "proved",
   "theorems": [
    "Papaya.C62_bounded_help"
   ],
   "note": "for every execution; moving a slot = its COPYING mark (first action of copy_at_slot); the example shows the bound is reached"
  },
  {
   "property": "C63",
   "status": "proved",
   "theorems": [
    "Papaya.C63_memory_bounded"
   ],
   "note": "one writing call at a time (with concurrent writers the sum of the shards that a resize reads is not a snapshot, so no bound of this kind holds); capacities of all tables ever allocated"
  },
  {
   "property": "C64",
   "status": "proved",
   "theorems": [
    "Papaya.C64_compute_returns",
    "Papaya.C64_compute_panics",
    "Papaya.C64_compute_safe",
    "Papaya.C64_insert",
    "Papaya.C64_compute_of_system",
    "Papaya.C64_returns_of_system",
    "Papaya.C64_panics_of_system",
    "Papaya.C64_tryInsert_of_system",
    "Papaya.C64_insert_of_system",
    "Papaya.compute_leak"
   ],
   "note": "ownership model of compute and insert (Model/Own.lean) tied to the concurrent system by a simulation; payload of Operation::Abort and panics of user Hash/Eq are not covered"
  },
  {
   "property": "C65",
   "status": "proved",
   "theorems": [
    "Papaya.C65_len",
    "Papaya.C65_isEmpty"
   ],
   "note": "about the interleaving (sequentially consistent) model of all operations, any number of threads and steps; the bound is attained (len_stalled)"
  },
  {
   "property": "C66",
   "status": "proved",
   "theorems": [
    "Papaya.C66_no_wrap",
    "Papaya.C66_no_wrap'",
    "Papaya.C66_sum",
    "Papaya.C66_word_sum"
   ],
   "note": "fewer than 2^63 steps; the values summed by len are taken at arbitrary times of the execution"
  },
  {
   "property": "C67",
   "status": "proved",
   "theorems": [
    "Papaya.C67_extend",
    "Papaya.C67_serialize",
    "Papaya.C67_clone",
    "Papaya.C67_eq",
    "Papaya.C67_eq_early"
   ],
   "note": "iterators may be consumed lazily (the model then also allows an entry to be used before it is yielded); about the interleaving (sequentially consistent) model of all operations, any number of threads and steps"
  },
  {
   "property": "C68",
   "status": "proved",
   "theorems": [
    "Papaya.C68_standstill",
    "Papaya.C68_first_table"
   ],
   "note": "finding 9; the calls that do help are bounded by C62"
  },
  {
   "property": "C69",
   "status": "partial",
   "theorems": [
    "Papaya.C69_never_finished",
    "Papaya.C69_no_growth",
    "Papaya.C69_waits_forever",
    "Papaya.C69_reserve_hangs",
    "Papaya.C69_false",
    "Papaya.C69_inc_copier",
    "Papaya.C69_inc_false",
    "Papaya.C34_get_never_blocked",
    "Papaya.C48_settled_ends"
   ],
   "note": "false of the code in both modes (finding 17): proved that a copy whose claimed slots (blocking) or whose frozen slot (incremental) were lost is never finished, that operations waiting for it and reservations (incremental: also iter, clear and retain) never return, with reachable witnesses; what remains true of the property, for the operations of other threads after any number of abandoned ones: get and contains_key always return (C34), and with no resize pending iter, clear and retain do (C48_settled_ends)"
  },
  {
   "property": "C70",
   "status": "proved",
   "theorems": [
    "Papaya.C70_own_key",
    "Papaya.C70_goes_on",
    "Papaya.C70_other_keys"
   ],
   "note": "all reachable states in incremental mode, also after operations were abandoned; waiting means that the next step is not enabled"
  },
  {
   "property": "C71",
   "status": "proved",
   "theorems": [
    "Papaya.C71_ends",
    "Papaya.C71_new_key_ends",
    "Papaya.C71_lookup_ends",
    "Papaya.C71_returns",
    "Papaya.C71_copy_necessary",
    "Papaya.C71_allocation_necessary"
   ],
   "note": "single-key operations in incremental mode, from every reachable state, under the two stated exceptions; lookups in both modes without exceptions; weak compare-exchanges do not fail spuriously, except in C71_new_key_ends and C71_lookup_ends"
  }
 ]
}