{
 "claims": [
  {
   "property": "C01",
   "status": "proved",
   "theorems": [
    "LRU.C01_size_within_capacity",
    "LRU.C01_size_call",
    "LRU.C01_unset_is_empty"
   ],
   "note": "For all caches of all programs, copies included."
  },
  {
   "property": "C02",
   "status": "proved",
   "theorems": [
    "LRU.C02_no_duplicates_same_entries",
    "LRU.C02_all_caches"
   ],
   "note": "For all caches of all programs, copies included, with list-node allocation not failing."
  },
  {
   "property": "C03",
   "status": "proved",
   "theorems": [
    "LRU.C03_latest_write",
    "LRU.C62_refines_textbook_lru"
   ],
   "note": "Holds for every cache that is not a copy, in every program (which may copy other caches), with list-node allocation not failing (NoListFault); clocks, callbacks, other allocations, hash order are arbitrary. Assumes that list-node allocations do not fail (NoListFault) and that assigning a value does not throw (NoAssignFault; C07_needs_assignments_to_succeed shows that recency breaks otherwise). Over all histories, plain and timed caches; the log starts with the contents of the start state."
  },
  {
   "property": "C04",
   "status": "proved",
   "theorems": [
    "LRU.C04_evicts_least_recently_used",
    "LRU.C04_insert_evicts_least_recent"
   ],
   "note": "Holds for every cache that is not a copy, in every program (which may copy other caches), with list-node allocation not failing (NoListFault); clocks, callbacks, other allocations, hash order are arbitrary. Assumes that list-node allocations do not fail (NoListFault) and that assigning a value does not throw (NoAssignFault; C07_needs_assignments_to_succeed shows that recency breaks otherwise). C04_evicts_least_recently_used identifies the evicted entry by the history; C04_insert_evicts_least_recent needs no assumption on assignments."
  },
  {
   "property": "C05",
   "status": "proved",
   "theorems": [
    "LRU.C05_insert_with_space_keeps_everything",
    "LRU.insert_returns"
   ],
   "note": "Holds for every cache that is not a copy, in every program (which may copy other caches), with list-node allocation not failing (NoListFault); clocks, callbacks, other allocations, hash order are arbitrary. "
  },
  {
   "property": "C06",
   "status": "proved",
   "theorems": [
    "LRU.C06_insert_present_key_updates",
    "LRU.insert_returns"
   ],
   "note": "Holds for every cache that is not a copy, in every program (which may copy other caches), with list-node allocation not failing (NoListFault); clocks, callbacks, other allocations, hash order are arbitrary. "
  },
  {
   "property": "C07",
   "status": "partial",
   "theorems": [
    "LRU.C07_hit_moves_entry_to_most_recent",
    "LRU.C07_miss_changes_nothing",
    "LRU.C07_throw_changes_nothing",
    "LRU.C07_throwing_lookup_can_reorder",
    "LRU.C07_needs_assignments_to_succeed"
   ],
   "note": "Holds for every cache that is not a copy, in every program (which may copy other caches), with list-node allocation not failing (NoListFault); clocks, callbacks, other allocations, hash order are arbitrary. Proved for hits, for misses that return, and for failing lookups other than KeyExpired. False of the code for a lookup on a timed cache whose entry expires between its two clock readings: it throws KeyExpired but has moved the entry (C07_throwing_lookup_can_reorder). The recency part needs value assignments not to throw (NoAssignFault; C07_needs_assignments_to_succeed shows it fails otherwise)."
  },
  {
   "property": "C08",
   "status": "proved",
   "theorems": [
    "LRU.C08_iteration_is_recency_order"
   ],
   "note": "Holds for every cache that is not a copy, in every program (which may copy other caches), with list-node allocation not failing (NoListFault); clocks, callbacks, other allocations, hash order are arbitrary. Assumes that list-node allocations do not fail (NoListFault) and that assigning a value does not throw (NoAssignFault; C07_needs_assignments_to_succeed shows that recency breaks otherwise). Also for timed caches."
  },
  {
   "property": "C09",
   "status": "proved",
   "theorems": [
    "LRU.C09_erase_key",
    "LRU.C09_erase_unordered_iterator",
    "LRU.C09_erase_ordered_iterator"
   ],
   "note": "Holds for every cache that is not a copy, in every program (which may copy other caches), with list-node allocation not failing (NoListFault); clocks, callbacks, other allocations, hash order are arbitrary. "
  },
  {
   "property": "C10",
   "status": "proved",
   "theorems": [
    "LRU.C10_clear_makes_fresh",
    "LRU.C10_shrink_zero_makes_fresh"
   ],
   "note": "Holds for every cache that is not a copy, in every program (which may copy other caches), with list-node allocation not failing (NoListFault); clocks, callbacks, other allocations, hash order are arbitrary. "
  },
  {
   "property": "C11",
   "status": "proved",
   "theorems": [
    "LRU.C11_shrink_keeps_most_recent"
   ],
   "note": "Holds for every cache that is not a copy, in every program (which may copy other caches), with list-node allocation not failing (NoListFault); clocks, callbacks, other allocations, hash order are arbitrary. "
  },
  {
   "property": "C12",
   "status": "proved",
   "theorems": [
    "LRU.C12_capacity_keeps_most_recent"
   ],
   "note": "Holds for every cache that is not a copy, in every program (which may copy other caches), with list-node allocation not failing (NoListFault); clocks, callbacks, other allocations, hash order are arbitrary. "
  },
  {
   "property": "C13",
   "status": "proved",
   "theorems": [
    "LRU.C13_capacity_zero_stores_nothing",
    "LRU.C13_capacity_zero_is_empty"
   ],
   "note": "Holds for every cache that is not a copy, in every program (which may copy other caches), with list-node allocation not failing (NoListFault); clocks, callbacks, other allocations, hash order are arbitrary. "
  },
  {
   "property": "C14",
   "status": "partial",
   "theorems": [
    "LRU.C14_front_back_partial",
    "LRU.C14_empty_cache_terminates"
   ],
   "note": "False of the code on empty caches: front() and back() are noexcept and throw, which terminates the program (C14_empty_cache_terminates). Proved for non-empty caches."
  },
  {
   "property": "C15",
   "status": "proved",
   "theorems": [
    "LRU.C15_size_arithmetic"
   ],
   "note": "Holds for every cache that is not a copy, in every program (which may copy other caches), with list-node allocation not failing (NoListFault); clocks, callbacks, other allocations, hash order are arbitrary. "
  },
  {
   "property": "C16",
   "status": "proved",
   "theorems": [
    "LRU.C16_access_outcome",
    "LRU.C16_contains_predicts_lookup"
   ],
   "note": "Holds for every cache that is not a copy, in every program (which may copy other caches), with list-node allocation not failing (NoListFault); clocks, callbacks, other allocations, hash order are arbitrary. "
  },
  {
   "property": "C17",
   "status": "partial",
   "theorems": [
    "LRU.C17_call_partial",
    "LRU.C17_run_partial",
    "LRU.C17_run_back_partial",
    "LRU.C17_refuted",
    "LRU.C17_timed_shortcut_observable"
   ],
   "note": "Holds for every cache that is not a copy, in every program (which may copy other caches), with list-node allocation not failing (NoListFault); clocks, callbacks, other allocations, hash order are arbitrary. For every call and for whole histories, with and without the shortcut, provided that assigning a value never throws. Without that it is false of the code (C17_refuted): a throwing assignment in insert leaves the last accessed entry and the most recently used entry different. For timed caches, which the property does not cover, the shortcut is observable (C17_timed_shortcut_observable)."
  },
  {
   "property": "C18",
   "status": "proved",
   "theorems": [
    "LRU.C18_counts",
    "LRU.C18_misses",
    "LRU.C18_monitored",
    "LRU.C18_other_calls"
   ],
   "note": "Holds for every cache that is not a copy, in every program (which may copy other caches), with list-node allocation not failing (NoListFault); clocks, callbacks, other allocations, hash order are arbitrary. C18_counts holds with throwing callbacks as well."
  },
  {
   "property": "C19",
   "status": "proved",
   "theorems": [
    "LRU.C19_key_counts",
    "LRU.C19_statistics_calls"
   ],
   "note": "Stated for traces of programs with any number of caches reporting to the object (plain caches, callbacks that do not throw)."
  },
  {
   "property": "C20",
   "status": "proved",
   "theorems": [
    "LRU.C20_totals",
    "LRU.C20_rates",
    "LRU.C20_in_programs"
   ],
   "note": "Rates are exact quotients, not floating-point numbers. Without any access they are 0/0. reset_all() is not modelled: it does not compile when instantiated."
  },
  {
   "property": "C21",
   "status": "proved",
   "theorems": [
    "LRU.C21_callbacks",
    "LRU.C21_throwing_callback",
    "LRU.C21_nothing_else",
    "LRU.C21_nothing_else_in_programs"
   ],
   "note": "Holds for every cache that is not a copy, in every program (which may copy other caches), with list-node allocation not failing (NoListFault); clocks, callbacks, other allocations, hash order are arbitrary. "
  },
  {
   "property": "C22",
   "status": "proved",
   "theorems": [
    "LRU.C22_throwing_callback_is_harmless",
    "LRU.C22_propagates_on_hit",
    "LRU.C22_propagates_on_miss",
    "LRU.C22_comes_from_callback"
   ],
   "note": "Holds for every cache that is not a copy, in every program (which may copy other caches), with list-node allocation not failing (NoListFault); clocks, callbacks, other allocations, hash order are arbitrary. "
  },
  {
   "property": "C23",
   "status": "partial",
   "theorems": [
    "LRU.C23_insertion_exceptions_partial",
    "LRU.C23_any_call_partial",
    "LRU.C23_failed_list_node_corrupts",
    "LRU.C23_failed_list_node_undefined",
    "LRU.C23_first_refused_list_node",
    "LRU.C23_insertion_exceptions",
    "LRU.C23_failed_assignment_spoils",
    "LRU.C23_erase_after_refused_list_node",
    "LRU.C23_access_after_refused_list_node",
    "LRU.C23_retry_after_refused_list_node",
    "LRU.C23_insert_after_refused_list_node",
    "LRU.C23_clear_after_refused_list_node"
   ],
   "note": "False of the code when the allocation of a list node fails: the key stays in the map without an entry in the recency list (size() is wrong, a later find is undefined). Proved for all other exceptions: constructors, assignments, map nodes, callbacks. An assignment that throws may leave any value in the entry (Oracle.torn), which is found afterwards (C23_failed_assignment_spoils). For the failing list node, too, the outcome is determined for all states: exactly one map node without a list node is left behind (C23_first_refused_list_node), erasing, accessing or re-inserting its key is then undefined, clear() repairs the cache."
  },
  {
   "property": "C24",
   "status": "partial",
   "theorems": [
    "LRU.C24_accesses_partial",
    "LRU.C24_hits_partial",
    "LRU.C24_unrelated_steps",
    "LRU.C24_expired_access_not_counted"
   ],
   "note": "Proved for plain caches, copies included. False of the code for timed caches, where an access to an expired last accessed key is not counted (C24_expired_access_not_counted); that unrelated steps change nothing is proved for timed caches too."
  },
  {
   "property": "C25",
   "status": "partial",
   "theorems": [
    "LRU.C25_swap_exchanges",
    "LRU.C25_swap_twice_restores",
    "LRU.C25_self_swap",
    "LRU.C25_swapped_caches_are_valid",
    "LRU.C25_references_survive",
    "LRU.C25_ordered_iterators_before",
    "LRU.C25_ordered_iterators_read_the_other_cache",
    "LRU.C25_ordered_iterators_do_not_survive"
   ],
   "note": "Everything but ordered iterators is proved. An ordered iterator keeps a pointer to the cache it came from, so after swap() it is checked against the wrong cache (C25_ordered_iterators_do_not_survive)."
  },
  {
   "property": "C26",
   "status": "partial",
   "theorems": [
    "LRU.C26_move_construction_partial",
    "LRU.C26_moved_from_calls",
    "LRU.C26_moved_from_can_be_revived",
    "LRU.C26_target_is_valid",
    "LRU.C26_move_assignment_exchanges",
    "LRU.C26_moved_from_is_not_valid",
    "LRU.C26_move_assignment_does_not_empty"
   ],
   "note": "False of the code in two ways. After move construction the source has an indeterminate capacity, so capacity(), is_full(), insert() and others are undefined behaviour (the exact set is proved, and that setting the capacity repairs it). Move assignment swaps, so its source is not empty. What the target holds is proved in full."
  },
  {
   "property": "C27",
   "status": "proved",
   "theorems": [
    "LRU.C27_copy_construction",
    "LRU.C27_copy_construction_completes",
    "LRU.C27_copy_assignment"
   ],
   "note": "For all sources of all programs, copies of copies included, with list-node allocation not failing."
  },
  {
   "property": "C28",
   "status": "partial",
   "theorems": [
    "LRU.C28_calls_are_local_partial",
    "LRU.C28_original_partial",
    "LRU.C28_cleared_copy_partial",
    "LRU.C28_erase_on_copy_is_undefined",
    "LRU.C28_find_on_copy_never_returns",
    "LRU.C28_calls_on_copies_are_undefined",
    "LRU.C28_lookup_returns_reference_into_original",
    "LRU.C28_copy_does_not_outlive_original"
   ],
   "note": "False of the code: a copy keeps list iterators and the last-accessed pointer of the original, so erase, find, lookup, update and shrink on it are undefined behaviour (for all copies: erase of any stored key, find in plain caches), and a lookup can return a reference into the original. Proved: calls leave other caches alone, the original stays usable, and a copy is usable again once cleared or range-assigned."
  },
  {
   "property": "C29",
   "status": "proved",
   "theorems": [
    "LRU.C29_equality",
    "LRU.C29_reflexive",
    "LRU.C29_symmetric",
    "LRU.C29_transitive"
   ],
   "note": "For all caches of all programs, copies included. != is defined in the code as the negation of ==."
  },
  {
   "property": "C30",
   "status": "proved",
   "theorems": [
    "LRU.C30_range_insertion",
    "LRU.C30_moving_range_insertion",
    "LRU.C30_result"
   ],
   "note": "Holds for every cache that is not a copy, in every program (which may copy other caches), with list-node allocation not failing (NoListFault); clocks, callbacks, other allocations, hash order are arbitrary. Also when an insertion in between throws: the effect is then that of the insertions up to it."
  },
  {
   "property": "C31",
   "status": "proved",
   "theorems": [
    "LRU.C31_constructors",
    "LRU.C31_construction_returns"
   ],
   "note": "For all programs, copies included, with list-node allocation not failing."
  },
  {
   "property": "C32",
   "status": "proved",
   "theorems": [
    "LRU.C32_range_assignment",
    "LRU.C32_assignment_returns"
   ],
   "note": "For all programs, copies included, with list-node allocation not failing."
  },
  {
   "property": "C33",
   "status": "proved",
   "theorems": [
    "LRU.C33_calls_complete",
    "LRU.C33_preconditions_are_exact",
    "LRU.C33_programs_complete"
   ],
   "note": "Holds for every cache that is not a copy, in every program (which may copy other caches), with list-node allocation not failing (NoListFault); clocks, callbacks, other allocations, hash order are arbitrary. "
  },
  {
   "property": "C34",
   "status": "proved",
   "theorems": [
    "LRU.C34_iterators_stay_valid",
    "LRU.C34_one_call",
    "LRU.C34_valid_iterators_can_be_read"
   ],
   "note": "Holds for every cache that is not a copy, in every program (which may copy other caches), with list-node allocation not failing (NoListFault); clocks, callbacks, other allocations, hash order are arbitrary. Stated for whole histories of calls, returning or throwing."
  },
  {
   "property": "C35",
   "status": "proved",
   "theorems": [
    "LRU.C35_positions_denote_entries",
    "LRU.C35_positions_are_all",
    "LRU.C35_increment_and_decrement",
    "LRU.C35_walk",
    "LRU.C35_inverse",
    "LRU.C35_unordered_walk"
   ],
   "note": "Holds for every cache that is not a copy, in every program (which may copy other caches), with list-node allocation not failing (NoListFault); clocks, callbacks, other allocations, hash order are arbitrary. "
  },
  {
   "property": "C36",
   "status": "proved",
   "theorems": [
    "LRU.C36_queries_have_no_side_effects"
   ],
   "note": "Holds for every cache that is not a copy, in every program (which may copy other caches), with list-node allocation not failing (NoListFault); clocks, callbacks, other allocations, hash order are arbitrary. "
  },
  {
   "property": "C37",
   "status": "proved",
   "theorems": [
    "LRU.C37_conversion",
    "LRU.C37_conversion_of_end",
    "LRU.C37_comparison"
   ],
   "note": "Holds for every cache that is not a copy, in every program (which may copy other caches), with list-node allocation not failing (NoListFault); clocks, callbacks, other allocations, hash order are arbitrary. "
  },
  {
   "property": "C38",
   "status": "partial",
   "theorems": [
    "LRU.C38_past_the_end_throws_partial",
    "LRU.C38_unordered_end_is_undefined",
    "LRU.C38_refuted"
   ],
   "note": "False of the code for unordered iterators, which are dereferenced before they are checked: key() and value() of unordered_end() are undefined behaviour in every state. Proved for ordered iterators and for erase."
  },
  {
   "property": "C39",
   "status": "proved",
   "theorems": [
    "LRU.C39_hit_is_fresh",
    "LRU.C39_time_stamps",
    "LRU.C39_time_stamp_is_past"
   ],
   "note": "Holds for every cache that is not a copy, in every program (which may copy other caches), with list-node allocation not failing (NoListFault); clocks, callbacks, other allocations, hash order are arbitrary. "
  },
  {
   "property": "C40",
   "status": "proved",
   "theorems": [
    "LRU.C40_fresh_is_served"
   ],
   "note": "Holds for every cache that is not a copy, in every program (which may copy other caches), with list-node allocation not failing (NoListFault); clocks, callbacks, other allocations, hash order are arbitrary. "
  },
  {
   "property": "C41",
   "status": "partial",
   "theorems": [
    "LRU.C41_new_key_starts_time_to_live_partial",
    "LRU.C41_stored_key_keeps_time",
    "LRU.C41_reinsertion_does_not_restart"
   ],
   "note": "Holds for every cache that is not a copy, in every program (which may copy other caches), with list-node allocation not failing (NoListFault); clocks, callbacks, other allocations, hash order are arbitrary. False of the code for keys that are already stored: updating a key keeps its old insertion time. Proved for new keys."
  },
  {
   "property": "C42",
   "status": "partial",
   "theorems": [
    "LRU.C42_all_expired_tests_most_recent",
    "LRU.C42_all_expired_partial",
    "LRU.C42_all_expired_wrong_after_lookup"
   ],
   "note": "Holds for every cache that is not a copy, in every program (which may copy other caches), with list-node allocation not failing (NoListFault); clocks, callbacks, other allocations, hash order are arbitrary. False of the code: all_expired() only tests the most recently used entry. Proved when the entries are ordered by insertion time (C82 says which histories keep them so)."
  },
  {
   "property": "C43",
   "status": "partial",
   "theorems": [
    "LRU.C43_clear_expired_removes_only_expired",
    "LRU.C43_clear_expired_partial",
    "LRU.C43_clear_expired_misses_expired"
   ],
   "note": "Holds for every cache that is not a copy, in every program (which may copy other caches), with list-node allocation not failing (NoListFault); clocks, callbacks, other allocations, hash order are arbitrary. False of the code: clear_expired() stops at the first fresh entry. Proved when the entries are ordered by insertion time (C82 says which histories keep them so); that only expired entries are removed is proved for all caches."
  },
  {
   "property": "C44",
   "status": "partial",
   "theorems": [
    "LRU.C44_expired_is_a_miss_partial",
    "LRU.C44_expired_last_accessed_not_registered"
   ],
   "note": "Holds for every cache that is not a copy, in every program (which may copy other caches), with list-node allocation not failing (NoListFault); clocks, callbacks, other allocations, hash order are arbitrary. False of the code for the last accessed key: contains() and lookup() register nothing and lookup() throws KeyExpired. The complete behaviour is proved."
  },
  {
   "property": "C45",
   "status": "partial",
   "theorems": [
    "LRU.C45_not_expired_within_requested_time",
    "LRU.C45_expired_stays_expired",
    "LRU.C45_expires_partial",
    "LRU.C45_time_to_live_is_truncated"
   ],
   "note": "Holds for every cache that is not a copy, in every program (which may copy other caches), with list-node allocation not failing (NoListFault); clocks, callbacks, other allocations, hash order are arbitrary. The first two parts are proved. The third is false for integer Durations coarser than the clock, because time to live and elapsed time are truncated; proved up to one unit of Duration, and exactly for a Duration as fine as the clock."
  },
  {
   "property": "C46",
   "status": "partial",
   "theorems": [
    "LRU.C46_no_hit_if_lookup_throws_partial",
    "LRU.C46_hit_registered_then_thrown",
    "LRU.C40_fresh_is_served"
   ],
   "note": "Holds for every cache that is not a copy, in every program (which may copy other caches), with list-node allocation not failing (NoListFault); clocks, callbacks, other allocations, hash order are arbitrary. False of the code: lookup() reads the clock twice and can register a hit and then throw KeyExpired. Proved that this is the only way."
  },
  {
   "property": "C47",
   "status": "partial",
   "theorems": [
    "LRU.C47_expired_entries_can_be_erased_partial",
    "LRU.C47_ordered_erase_of_expired_throws",
    "LRU.C47_ordered_erase_refuted"
   ],
   "note": "Holds for every cache that is not a copy, in every program (which may copy other caches), with list-node allocation not failing (NoListFault); clocks, callbacks, other allocations, hash order are arbitrary. False of the code for ordered iterators, where erase throws KeyExpired; proved for keys and unordered iterators."
  },
  {
   "property": "C48",
   "status": "proved",
   "theorems": [
    "LRU.C48_only_removing_calls_remove",
    "LRU.C48_access_to_expired_changes_nothing"
   ],
   "note": "Holds for every cache that is not a copy, in every program (which may copy other caches), with list-node allocation not failing (NoListFault); clocks, callbacks, other allocations, hash order are arbitrary. "
  },
  {
   "property": "C49",
   "status": "proved",
   "theorems": [
    "LRU.C49_transparent",
    "LRU.C49_defined",
    "LRU.C49_returns",
    "LRU.C49_outcome",
    "LRU.C49_same_outcome",
    "LRU.C49_spoiled_value_returned"
   ],
   "note": "For all programs that wrap functions and call the wrappers, recursive calls included (MReach); arguments and results are values, one thread. If the cache threw before, an assignment that throws must keep a value that equals the one to be assigned (KeepsEqual); without that C49_spoiled_value_returned is a counterexample. Functions wrapped in closures of the same type must agree, or see C51. C49_outcome and C49_same_outcome, for functions that throw and catch, are for environments in which nothing else fails."
  },
  {
   "property": "C50",
   "status": "proved",
   "theorems": [
    "LRU.C50_holds_recent",
    "LRU.C50_evaluates_iff",
    "LRU.C50_first_call_evaluates",
    "LRU.C50_call_is_use",
    "LRU.C50_new_arguments"
   ],
   "note": "For all programs that wrap functions and call the wrappers, recursive calls included (MReach); arguments and results are values, one thread. The arguments that count are those of all calls that returned, through any closure of the same type."
  },
  {
   "property": "C51",
   "status": "partial",
   "theorems": [
    "LRU.C51_different_types_partial",
    "LRU.C51_refuted"
   ],
   "note": "For all programs that wrap functions and call the wrappers, recursive calls included (MReach); arguments and results are values, one thread. False of the code: the cache is a static variable of the lambda's call operator, so all functions of one type wrapped with the same template arguments share it. Proved for closures of different types (and in C49 for functions that agree)."
  },
  {
   "property": "C52",
   "status": "partial",
   "theorems": [
    "LRU.C52_live_arguments_partial",
    "LRU.C52_number_partial",
    "LRU.C52_duration_partial",
    "LRU.C52_fixed_partial",
    "LRU.C52_temporary_dangles",
    "LRU.C52_timed_wrap_dangles",
    "LRU.C52_refuted"
   ],
   "note": "For all programs that wrap functions and call the wrappers, recursive calls included (MReach); arguments and results are values, one thread. False of the code: the closure keeps references to the arguments. wrap(f, 128) and timed_wrap(f, d) always leave a dangling reference that the first call reads; lvalues are read at the first call, and only those given to the wrapper of the type called first count."
  },
  {
   "property": "C53",
   "status": "proved",
   "theorems": [
    "LRU.C53_inclusion",
    "LRU.C53_no_more_misses",
    "LRU.C53_holds_most_recent",
    "LRU.C53_misses",
    "LRU.C53_accesses_complete"
   ],
   "note": "Holds for every cache that is not a copy, in every program (which may copy other caches), with list-node allocation not failing (NoListFault); clocks, callbacks, other allocations, hash order are arbitrary. Caches empty at the start, plain, in an environment in which nothing fails."
  },
  {
   "property": "C54",
   "status": "proved",
   "theorems": [
    "LRU.C54_equal_hashes",
    "LRU.C54_respects_equality",
    "LRU.C54_first_element",
    "LRU.C54_depends_on_order",
    "LRU.C54_order_always_matters"
   ],
   "note": ""
  },
  {
   "property": "C55",
   "status": "proved",
   "theorems": [
    "LRU.C55_insert_emplace_agree",
    "LRU.C55_insert_emplace_same",
    "LRU.C55_insert_emplace_undefined"
   ],
   "note": "Holds for every cache that is not a copy, in every program (which may copy other caches), with list-node allocation not failing (NoListFault); clocks, callbacks, other allocations, hash order are arbitrary. The states may differ in the order of the hash table (which the environment chooses, see C57) and in the count of fallible actions; everything else, insertion times and internal pointers included, is equal. C23 states what holds after an exception."
  },
  {
   "property": "C56",
   "status": "proved",
   "theorems": [
    "LRU.C56_first_representative",
    "LRU.C56_representative_kept",
    "LRU.C56_update_through_equivalent_key"
   ],
   "note": "Holds for every cache that is not a copy, in every program (which may copy other caches), with list-node allocation not failing (NoListFault); clocks, callbacks, other allocations, hash order are arbitrary. "
  },
  {
   "property": "C57",
   "status": "partial",
   "theorems": [
    "LRU.C57_program_partial",
    "LRU.C57_step_partial",
    "LRU.C57_cache",
    "LRU.C57_ub",
    "LRU.C57_refuted"
   ],
   "note": "For all programs, copies and failing allocations included, and all pairs of environments that differ only in how hash tables are ordered at each insertion and copy. False of the code for one construct that is not a step of the modelled programs: assigning or constructing from a cache that is not const goes through the overload for ranges (C63, C64) and inserts the elements in hash-table order (C57_refuted)."
  },
  {
   "property": "C58",
   "status": "proved",
   "theorems": [
    "LRU.C58_looked_up_position_is_last"
   ],
   "note": "Holds for every cache that is not a copy, in every program (which may copy other caches), with list-node allocation not failing (NoListFault); clocks, callbacks, other allocations, hash order are arbitrary. Needs value assignments not to throw (NoAssignFault)."
  },
  {
   "property": "C59",
   "status": "proved",
   "theorems": [
    "LRU.C59_write_changes_one_value",
    "LRU.C59_write_is_visible"
   ],
   "note": "Holds for every cache that is not a copy, in every program (which may copy other caches), with list-node allocation not failing (NoListFault); clocks, callbacks, other allocations, hash order are arbitrary. "
  },
  {
   "property": "C60",
   "status": "proved",
   "theorems": [
    "LRU.C60_stats",
    "LRU.C60_monitor",
    "LRU.C60_frozen",
    "LRU.C60_stays",
    "LRU.C60_copy",
    "LRU.C60_swap_move"
   ],
   "note": "For all states of the model, copies included."
  },
  {
   "property": "C61",
   "status": "partial",
   "theorems": [
    "LRU.C61_range_left_alone_partial",
    "LRU.C61_lvalue_assignment_moves",
    "LRU.C61_range_left_alone_refuted"
   ],
   "note": "False of the code for ranges that are not const: operator=(Range&&) is a forwarding reference, binds to lvalues and moves every pair from them. Proved for const ranges and for insert()."
  },
  {
   "property": "C62",
   "status": "proved",
   "theorems": [
    "LRU.C62_refines_textbook_lru"
   ],
   "note": "Holds for every cache that is not a copy, in every program (which may copy other caches), with list-node allocation not failing (NoListFault); clocks, callbacks, other allocations, hash order are arbitrary. Assumes that list-node allocations do not fail (NoListFault) and that assigning a value does not throw (NoAssignFault; C07_needs_assignments_to_succeed shows that recency breaks otherwise). "
  },
  {
   "property": "C63",
   "status": "partial",
   "theorems": [
    "LRU.C63_assignment_copies_partial",
    "LRU.C63_lvalue_assignment",
    "LRU.C63_self_assignment_empties",
    "LRU.C63_assignment_copies_refuted",
    "LRU.C63_source_unchanged_refuted"
   ],
   "note": "False of the code for sources that are not const: caches are ranges, and operator=(Range&&) is a better match than the copy assignment operator. The elements are then re-inserted in hash-table order and moved from the source; self-assignment empties the cache. What happens is proved for all programs; const sources are copied (C27). Overload resolution itself is modelled from the C++ rules (Model/Overloads)."
  },
  {
   "property": "C64",
   "status": "partial",
   "theorems": [
    "LRU.C64_construction_copies_partial",
    "LRU.C64_lvalue_construction",
    "LRU.C64_construction_copies_refuted"
   ],
   "note": "False of the code for sources that are not const: the range constructor Cache(Range&) is a better match than the copy constructor, so that order, capacity and statistics are not copied. What happens is proved for all programs; const sources are copied (C27)."
  },
  {
   "property": "C65",
   "status": "partial",
   "theorems": [
    "LRU.C65_well_formed",
    "LRU.C65_calls_complete",
    "LRU.C65_outcome_unique",
    "LRU.C65_inspecting_callbacks",
    "LRU.C65_find_hit",
    "LRU.C65_find_miss",
    "LRU.C65_lookup",
    "LRU.C65_contains",
    "LRU.C65_load_on_miss",
    "LRU.C65_miss_callbacks_do_no_harm",
    "LRU.C65_recursive_callback_never_returns",
    "LRU.C65_refuted",
    "LRU.C65_erasing_callback_undefined",
    "LRU.C65_registering_callback_undefined",
    "LRU.C65_lookup_not_most_recent",
    "LRU.C65_miss_account",
    "LRU.C65_hit_account",
    "LRU.C65_first_event",
    "LRU.C65_exceptions",
    "LRU.C65_lookup_not_found",
    "LRU.C65_own_container_undefined"
   ],
   "note": "For all programs in which the callbacks use the cache (RReachable), with list-node allocation not failing. False of the code: find uses its iterator after the callbacks have run, so a hit callback that erases the key, or whose insertion evicts it, leads to undefined behaviour; so does registering a callback from a callback; a callback that accesses its own key never returns; and lookup through the shortcut does not leave the key most recent. Proved: if the call ends, the cache is well-formed and the answer is right for the moment of the call (contains, find() == end() and the value read by lookup; on timed caches the hits); miss callbacks that insert, erase, clear or resize do no harm; callbacks that only inspect change nothing. For callbacks that make any calls but accesses, C65_miss_account and C65_hit_account give in full what every callback is told and does and what becomes of the cache; for arbitrary callbacks only the first event (C65_first_event) and the exceptions (C65_exceptions, C65_lookup_not_found) are given."
  },
  {
   "property": "C66",
   "status": "partial",
   "theorems": [
    "LRU.C66_stored_entry_is_the_denoted_one",
    "LRU.C66_denotes_one",
    "LRU.C66_find_denotes",
    "LRU.C66_insert_denotes",
    "LRU.C66_walking",
    "LRU.C66_reads_like_a_new_iterator",
    "LRU.C66_reading",
    "LRU.C66_equality",
    "LRU.C66_copies_denote_the_same",
    "LRU.C66_iterators_stay_put",
    "LRU.C66_reading_later",
    "LRU.C66_evicted_iterators_denote_the_new_entry",
    "LRU.C66_stale_entry",
    "LRU.C66_refuted",
    "LRU.C66_writes_like_a_reference",
    "LRU.C66_swap",
    "LRU.C66_fresh",
    "LRU.C66_postfix",
    "LRU.C66_unordered_walking",
    "LRU.C66_deref",
    "LRU.C66_past_the_end",
    "LRU.C66_undefined"
   ],
   "note": "For all programs with iterator objects (IReachable), plain and timed caches, both implementations of Optional, with list-node allocation not failing. False of the code only when the entry leaves the cache: an insertion into a full cache reuses the list node of the evicted entry, so that ordered iterators to it silently denote the new entry (C66_evicted_iterators_denote_the_new_entry, C66_refuted), key() gives the new key, and value() is undefined if the old entry had been stored (C66_stale_entry). The documentation calls such iterators invalidated, so programs should not use them. Everything else is proved."
  },
  {
   "property": "C67",
   "status": "partial",
   "theorems": [
    "LRU.C67_calls_do_not_depend_on_growth",
    "LRU.C67_returned_iterators_are_current",
    "LRU.C67_ordered_iterators_unaffected",
    "LRU.C67_unordered_iterators_partial",
    "LRU.C67_unordered_iterators_can_be_read",
    "LRU.C67_insertion_invalidates_iff",
    "LRU.C67_insertion_makes_room",
    "LRU.C67_old_iterators_are_undefined",
    "LRU.C67_other_calls_keep_the_table",
    "LRU.C67_bounded_number_of_invalidations",
    "LRU.C67_stable_after_first_eviction",
    "LRU.C67_refuted_unordered_iterators_survive_insertion"
   ],
   "note": "For all reachable caches and every choice of table sizes (Growth), with list-node allocation not failing. Proved for the cache itself (no call uses an iterator across a growth of the table), for ordered iterators and references. False of unordered iterators: an insertion for which the table has no room invalidates them all (C67_refuted_unordered_iterators_survive_insertion); proved instead: exactly when this happens, that it happens at most capacity + 1 times between two calls that empty the cache, and never again after the first eviction unless the capacity is raised. Copy, move and swap of caches are not part of this model."
  },
  {
   "property": "C68",
   "status": "proved",
   "theorems": [
    "LRU.C68_same_answers",
    "LRU.C68_indistinguishable_iff"
   ],
   "note": "For all reachable plain caches with a capacity (not moved from), in environments in which nothing fails. The textbook map with its answers is defined in Spec/Machine, independently of the model of the cache. C62 gives the contents for timed caches and failing environments."
  },
  {
   "property": "C69",
   "status": "proved",
   "theorems": [
    "LRU.C69_same_calls",
    "LRU.C69_access_cost",
    "LRU.C69_insert_cost",
    "LRU.C69_constant_cost",
    "LRU.C69_repeat_is_free",
    "LRU.C69_after_insert_is_free",
    "LRU.C69_drop_cost",
    "LRU.C69_amortized",
    "LRU.C69_find_price",
    "LRU.C69_access_price",
    "LRU.C69_insert_price"
   ],
   "note": "Model/Cost is the model with a meter; C69_same_calls proves that the metered calls are the calls of the model. Counted are searches in the hash table, nodes created, destroyed or moved, and notifications. How long a search takes, growing the table and user-defined operations are not counted, so 'expected' in the documentation (average over hash values) is outside. The prices of find, contains, lookup, insert and emplace that return are also proved exactly (C69_find_price, C69_access_price, C69_insert_price), so that the bounds do not hold because the meter forgets to charge. The bounds on single calls hold in every state; the other theorems need an environment that does not refuse list nodes."
  },
  {
   "property": "C70",
   "status": "partial",
   "theorems": [
    "LRU.C70_same_calls",
    "LRU.C70_comparison_terminates",
    "LRU.C70_failures_show",
    "LRU.C70_first_search_throws",
    "LRU.C70_first_comparison_terminates",
    "LRU.C70_second_use_throws",
    "LRU.C70_ordered_iterators",
    "LRU.C70_interrupted_others_partial",
    "LRU.C70_interrupted_insertion",
    "LRU.C70_interrupted_erase",
    "LRU.C70_interrupted_trimming",
    "LRU.C70_interrupted_range",
    "LRU.C70_interrupted_assignment",
    "LRU.C70_interrupted_call_partial",
    "LRU.C70_half_inserted",
    "LRU.C70_half_inserted_undefined",
    "LRU.C70_half_erased",
    "LRU.C70_half_erased_undefined",
    "LRU.C70_clear_repairs",
    "LRU.C70_insert_not_safe",
    "LRU.C70_erase_not_safe",
    "LRU.C70_exceptions_terminate"
   ],
   "note": "Model/HashFault is the model with searches and comparisons that may throw; C70_same_calls proves that without exceptions it is the model. False of the code in two places: inserting into a full cache and erasing the last accessed key leave the two data structures inconsistent when the search in the middle throws (C70_insert_not_safe, C70_erase_not_safe), and exceptions from noexcept functions terminate the program (C70_exceptions_terminate; C70_failures_show: in no other case, and no exception is swallowed; C70_first_search_throws, C70_first_comparison_terminates, C70_second_use_throws and C70_ordered_iterators say what the calls do first). What is true is proved for all states: all other calls are exception safe, and C70_interrupted_call_partial determines what is left behind in every case."
  },
  {
   "property": "C71",
   "status": "proved",
   "theorems": [
    "LRU.C71_same_answers",
    "LRU.C71_call",
    "LRU.C71_like_plain",
    "LRU.C71_no_explanation"
   ],
   "note": "For all reachable timed caches with a capacity (not moved from), in environments in which nothing fails. The textbook map with its answers is defined in Spec/TimedMachine, independently of the model of the cache. KeyNotFound and KeyExpired count as the same answer (C44 says which is thrown). C71_no_explanation shows with a concrete program that the condition on the clock is needed."
  },
  {
   "property": "C72",
   "status": "partial",
   "theorems": [
    "LRU.C72_computes_fibonacci",
    "LRU.C72_every_number_is_computed_once_partial",
    "LRU.C72_capacity_two_takes_exponential_time",
    "LRU.C72_capacity_two_is_not_sufficient"
   ],
   "note": "For all reachable plain caches in environments in which nothing fails; integers do not overflow. The value is proved for every capacity and every order of evaluation. The number of misses is n - 1 for capacities of at least 3, and for capacity 2 if the right operand is evaluated first. False otherwise: with capacity 2 and the left operand first there are at least 2^(n/4) misses."
  },
  {
   "property": "C73",
   "status": "partial",
   "theorems": [
    "LRU.C73_fibonacci_value",
    "LRU.C73_get_value",
    "LRU.C73_fibonacci_returns_partial",
    "LRU.C73_get_returns_partial",
    "LRU.C73_in_time",
    "LRU.C73_timed_example_can_throw",
    "LRU.C73_get_can_throw"
   ],
   "note": "If the programs return, the value is right: for all reachable caches, whatever throws, except that list nodes are not refused and values are assigned without exceptions. False of the code that they always return: on a timed cache the entry can expire between contains and the lookup, which then throws KeyExpired. This is proved to be the only way in which they can fail when nothing else does."
  },
  {
   "property": "C74",
   "status": "proved",
   "theorems": [
    "LRU.C74_competitive",
    "LRU.C74_twice_the_room",
    "LRU.C74_worst_case",
    "LRU.C74_factor_is_attained"
   ],
   "note": "For all reachable plain caches in environments in which nothing fails; misses are counted by the statistics object of the cache. The competitor is any sequence of sets of keys that contain what is requested, loading any keys at any time; what it holds at the start counts as loaded, what the cache holds at the start does not matter."
  },
  {
   "property": "C75",
   "status": "partial",
   "theorems": [
    "LRU.C75_same_calls",
    "LRU.C75_insert",
    "LRU.C75_emplace",
    "LRU.C75_emplace_does_not_copy_partial",
    "LRU.C75_range",
    "LRU.C75_move_range",
    "LRU.C75_assign_range",
    "LRU.C75_assign_move_range",
    "LRU.C75_lvalues_are_safe",
    "LRU.C75_keys_are_not_copied",
    "LRU.C75_insert_throws",
    "LRU.C75_emplace_throws",
    "LRU.C75_emplace_copies",
    "LRU.C75_not_move_aware",
    "LRU.C75_failed_emplace_loses_the_element"
   ],
   "note": "Model/Moves is the model with a ledger of constructions, copies and moves; C75_same_calls proves that the calls are those of the model. False of the code in one case: the value emplaced for a key that is already stored is copied, not moved (C75_emplace_copies, C75_not_move_aware). The exact number of copies and moves is proved for every insertion that returns, and for single elements also what is possible when the call throws; for all calls that throw that lvalues are not moved from and keys given as rvalues not copied; elements given as rvalues can be lost (C75_failed_emplace_loses_the_element). List nodes are not refused."
  },
  {
   "property": "C76",
   "status": "proved",
   "theorems": [
    "LRU.C76_same_answers",
    "LRU.C76_same_answers_later",
    "LRU.C76_contents_decide",
    "LRU.C76_no_surprises"
   ],
   "note": "For all programs of such steps, in environments in which nothing fails. The textbook is defined in Spec/Many on top of Spec/Machine. Copying is not among the steps, because copies share internal iterators with their source (C28); timed caches one at a time in C71."
  },
  {
   "property": "C77",
   "status": "partial",
   "theorems": [
    "LRU.C77_references_like_copies",
    "LRU.C77_value_of_the_evicted_entry",
    "LRU.C77_erasing_by_stored_key",
    "LRU.C77_dangling_key",
    "LRU.C77_emplacing_a_moved_value",
    "LRU.C77_emplacing_onto_itself",
    "LRU.C77_moved_value_lost_by_throw"
   ],
   "note": "Model/Alias has the calls with references instead of values as arguments, read at each place where the code reads them. Proved for all reachable caches with list-node allocation not failing, for all outcomes, for arguments that are not moved from. For values moved out of an entry (emplace with std::move) it is proved for calls that return; if the assignment throws, the value is lost (C77_moved_value_lost_by_throw)."
  },
  {
   "property": "C78",
   "status": "partial",
   "theorems": [
    "LRU.C78_own_range_partial",
    "LRU.C78_inserting_a_cache_into_itself",
    "LRU.C78_moving_a_cache_into_itself",
    "LRU.C78_own_ordered_range",
    "LRU.C78_own_ordered_part_undefined",
    "LRU.C78_own_ordered_effect",
    "LRU.C78_own_range_refuted",
    "LRU.C78_own_range_safety_refuted"
   ],
   "note": "For all reachable caches with list-node allocation not failing. Proved for unordered iterators, hence for insert(cache) and insert(std::move(cache)). False of the code for ordered iterators: inserting an entry moves it to the end of the list, from where the loop continues. With ordered_end() the loop stops after the first entry (C78_own_ordered_range, C78_own_ordered_effect, C78_own_range_refuted); with any other end it dereferences the end of the list (C78_own_ordered_part_undefined, C78_own_range_safety_refuted)."
  },
  {
   "property": "C79",
   "status": "proved",
   "theorems": [
    "LRU.C79_same_answers",
    "LRU.C79_same_answers_later",
    "LRU.C79_contents_decide",
    "LRU.C79_no_surprises"
   ],
   "note": "For all programs of such steps that compile (swap and move assignment of caches of the same type, == and swap through the base class also of timed caches with different Durations), in environments in which nothing fails and in which the clock shows one time during each step; that this is needed is C71_no_explanation. The textbook is defined in Spec/ManyTimed on top of Spec/Machine and Spec/TimedMachine; it does not distinguish KeyNotFound from KeyExpired. Copying is not among the steps (C28)."
  },
  {
   "property": "C80",
   "status": "proved",
   "theorems": [
    "LRU.C80_same_news",
    "LRU.C80_nothing_else_matters",
    "LRU.C80_no_surprises"
   ],
   "note": "For all programs of such steps that mention no statistics object before it exists, in environments in which nothing fails. The textbook is defined in Spec/Watched on top of Spec/Machine; its statistics objects are journals. Rates are exact quotients. Callbacks that use caches themselves are C65. Copying is not among the steps (C28)."
  },
  {
   "property": "C81",
   "status": "proved",
   "theorems": [
    "LRU.C81_valid_iff_set",
    "LRU.C81_accessors",
    "LRU.C81_compare_key",
    "LRU.C81_compare_iterator",
    "LRU.C81_assign",
    "LRU.C81_assign_end",
    "LRU.C81_one_address"
   ],
   "note": "For every object that the functions of the class can make (LastAccessed.Made) and every state of a cache. C81_one_address justifies that the model of the cache keeps one address for the object."
  },
  {
   "property": "C82",
   "status": "proved",
   "theorems": [
    "LRU.C82_call_keeps_time_order",
    "LRU.C82_history_keeps_time_order",
    "LRU.C82_all_expired",
    "LRU.C82_clear_expired"
   ],
   "note": "Holds for every cache that is not a copy, in every program (which may copy other caches), with list-node allocation not failing (NoListFault); clocks, callbacks, other allocations, hash order are arbitrary. For histories without calls that bring an entry forward (Op.BringsForward); for the others C42 and C43 show that the two functions are wrong."
  },
  {
   "property": "C83",
   "status": "partial",
   "theorems": [
    "LRU.C83_base_swap_exchanges_partial",
    "LRU.C83_base_swap_returns",
    "LRU.C83_like_swap",
    "LRU.C83_swapped_caches_are_valid",
    "LRU.C83_other_time_to_live",
    "LRU.C83_refuted"
   ],
   "note": "For all programs. False of the code: TimedCache::swap does not override BaseCache::swap, which leaves the times to live where they are, so that entries are judged by a time to live they were not stored with (C83_other_time_to_live, C83_refuted). Everything else is proved; for caches with equal times to live, in particular plain ones, the two functions do the same (C83_like_swap)."
  },
  {
   "property": "C84",
   "status": "proved",
   "theorems": [
    "LRU.C84_same_news",
    "LRU.C84_nothing_else_matters",
    "LRU.C84_no_surprises"
   ],
   "note": "For all programs of such steps that compile (admissible), in environments in which nothing fails and in which the clock shows one time during each step (PacedDeeds). The textbook is defined in Spec/WatchedTimed on top of Spec/ManyTimed and Spec/Watched; which expired keys are overlooked is part of it, because it is what the code does (C44 refutes that all accesses are registered). Rates are exact quotients. Callbacks that use caches themselves are C65. Copying is not among the steps (C28)."
  },
  {
   "property": "C85",
   "status": "partial",
   "theorems": [
    "LRU.C85_which_operator",
    "LRU.C85_const_source_partial",
    "LRU.C85_other_source",
    "LRU.C85_lives_start_anew",
    "LRU.C85_assignment_returns",
    "LRU.C85_construction",
    "LRU.C85_construction_from_rvalue",
    "LRU.C85_construction_throws",
    "LRU.C85_base_copy",
    "LRU.C85_base_move",
    "LRU.C85_order_refuted",
    "LRU.C85_expired_refuted",
    "LRU.C85_source_refuted"
   ],
   "note": "For all programs with list-node allocation not failing. Such assignments are always those of ranges (C85_which_operator). Proved: what the target holds, its capacity, that it keeps its class, time to live, statistics and callbacks, and that the world stays one to which the other theorems apply. False of the code: the order of use is lost (C85_order_refuted); entries get new insertion times (C85_lives_start_anew), so that expired ones are served again (C85_expired_refuted); a source that is not const is moved from even if it is an lvalue (C85_source_refuted)."
  },
  {
   "property": "C86",
   "status": "partial",
   "theorems": [
    "LRU.C86_evaluates_iff",
    "LRU.C86_memoised_partial",
    "LRU.C86_expired_evaluates",
    "LRU.C86_expired_repeats",
    "LRU.C86_refuted"
   ],
   "note": "For all programs with wrapped functions. False of the code: storing a result for an argument that is stored but has expired does not renew the time of its entry (C41_stored_key_keeps_time), so that every further call with this argument evaluates the function, until the entry is evicted (C86_expired_evaluates, C86_expired_repeats, C86_refuted). Proved for arguments that were not stored (C86_memoised_partial), and exactly when a call evaluates (C86_evaluates_iff)."
  },
  {
   "property": "C87",
   "status": "partial",
   "theorems": [
    "LRU.C87_totals",
    "LRU.C87_key",
    "LRU.C87_exact_partial",
    "LRU.C87_same_object",
    "LRU.C87_in_programs",
    "LRU.C87_rate_refuted",
    "LRU.C87_no_rate_refuted"
   ],
   "note": "Model/Counters is the class with 64-bit counters; C87_same_object proves that it shows the last 64 bits of the object with natural numbers used in the other models, for all calls. Proved for all sequences of calls: the totals and the counters of monitored keys modulo 2^64. The hit rate and the miss rate are proved for fewer than 2^64 accesses (C87_exact_partial), as exact quotients. False of the code otherwise: the hit rate can exceed 1 (C87_rate_refuted) or be undefined although there were accesses (C87_no_rate_refuted)."
  },
  {
   "property": "C88",
   "status": "partial",
   "theorems": [
    "LRU.C88_finds",
    "LRU.C88_swap",
    "LRU.C88_copy",
    "LRU.C88_construction",
    "LRU.C88_calls_keep",
    "LRU.C88_others_unaffected",
    "LRU.C88_move_construction",
    "LRU.C88_given_partial",
    "LRU.C88_given_or_default",
    "LRU.C88_given_refuted"
   ],
   "note": "Model/Functors follows the function objects through programs; elements are represented by the functions they were stored with. False of the code: the move constructor swaps with a cache whose members were default-constructed, so the source is left with default-constructed functions, for function pointers null ones, which are called if the cache is used again (C88_given_refuted). Proved for programs without move construction (C88_given_partial), and everything else for all programs."
  },
  {
   "property": "C89",
   "status": "partial",
   "theorems": [
    "LRU.C89_well_formed",
    "LRU.C89_calls_complete",
    "LRU.C89_one_cache",
    "LRU.C89_idle",
    "LRU.C89_outcome_unique",
    "LRU.C89_other_caches_unchanged",
    "LRU.C89_same_effect",
    "LRU.C89_layers_do_no_harm",
    "LRU.C89_safe_calls_end",
    "LRU.C89_read_through",
    "LRU.C89_miss_account",
    "LRU.C89_hit_account",
    "LRU.C89_exceptions",
    "LRU.C89_circle_never_returns",
    "LRU.C89_refuted"
   ],
   "note": "For all programs whose callbacks use caches (LProg), for caches that hold no copy, with list-node allocation not failing. False of the code if caches use each other in a circle: the callbacks of another cache can erase the entry that find is holding an iterator to (C89_refuted), and accesses of a key that none of the caches stores need not return (C89_circle_never_returns). Proved for caches in layers: everything in the statement (C89_other_caches_unchanged, C89_same_effect, C89_layers_do_no_harm, C89_safe_calls_end; timed caches notice the time that passes while callbacks run), also if callbacks change their own cache on a miss, with the two caches in front of each other as an instance (C89_read_through, in environments in which nothing fails; the access itself reports a miss). Callbacks may also register callbacks with caches below, while their own containers are gone through. For all callbacks, also in circles: a call that completes has told each callback in order, and what happens to the caches in between is what the callbacks call and nothing else (C89_miss_account, C89_hit_account); their exceptions do not become those of the call (C89_exceptions). For callbacks that use only their own cache the model is that of C65 (C89_one_cache), and for idle ones the model without callbacks (C89_idle). Caches are not created or destroyed by callbacks."
  },
  {
   "property": "C90",
   "status": "partial",
   "theorems": [
    "LRU.C90_roundings",
    "LRU.C90_threshold",
    "LRU.C90_never_early",
    "LRU.C90_exact",
    "LRU.C90_exact_millis",
    "LRU.C90_millis_never_early",
    "LRU.C90_three_microseconds",
    "LRU.C90_default_cache",
    "LRU.C90_rates_bounds",
    "LRU.C90_rates",
    "LRU.C90_expires_early",
    "LRU.C90_expires_late",
    "LRU.C90_rates_hide_a_miss"
   ],
   "note": "For every rounding that keeps the order and leaves representable numbers alone; double and float of IEEE 754, rounding to nearest, ties to even, are defined and shown to be such roundings. The threshold exists for every unit, time to live and rounding. To the nanosecond: below 2^33 ms (99 days), and below 2^32 ms for other units. Refuted beyond: a time to live of 9007199255 ms (104 days) expires late, one of 576460752307 ms (18 years) early; the error is always below three microseconds. Rates: exact up to the last of 53 digits for up to 2^53 accesses; refuted beyond (hit rate 1 in spite of a miss). Assumes a clock that ticks in nanoseconds and duration_cast as in the standard; excess precision (x87) is a rounding too, but two different ones would be in use."
  },
  {
   "property": "C91",
   "status": "partial",
   "theorems": [
    "LRU.C91_coarse_durations",
    "LRU.C91_narrow_durations_partial",
    "LRU.C91_fine_durations",
    "LRU.C91_stored_time_to_live",
    "LRU.C91_expired_entries_come_back",
    "LRU.C91_fine_durations_overflow",
    "LRU.C91_long_time_to_live_overflows"
   ],
   "note": "Proved for 64-bit durations in units of whole ticks (nanoseconds, ..., hours), for which Kind.expired of the model is exact. False of the code otherwise: with duration<int, milli> expired entries are fresh again after 25 days (C91_expired_entries_come_back), with units smaller than a nanosecond the test is undefined from some age on (C91_fine_durations says exactly when), and a long time to live does not fit into 64-bit nanoseconds. Assumes the conversion of [time.duration.cast] with a 64-bit intmax_t and a clock with 64-bit readings."
  },
  {
   "property": "C92",
   "status": "partial",
   "theorems": [
    "LRU.C92_equality",
    "LRU.C92_equal_iff",
    "LRU.C92_false_for_a_reason",
    "LRU.C92_terminates",
    "LRU.C92_different_sizes",
    "LRU.C92_inequality",
    "LRU.C92_reflexive",
    "LRU.C92_symmetric",
    "LRU.C92_transitive",
    "LRU.C92_copies",
    "LRU.C92_same_as_model",
    "LRU.C92_copy_refuted"
   ],
   "note": "For all programs with list-node allocation not failing, all comparisons for which keys that are == are equivalent for KeyEqual (a requirement of std::unordered_map). False of the code, as of the standard containers, that copies are always equal to their original: not for values that are not equal to themselves (C92_copy_refuted; C92_copies says exactly when they are). operator== is noexcept, so that a comparison that throws terminates the program; C92_equality proves that nothing else does, and C92_false_for_a_reason that such a comparison is not taken for a difference. Everything else is proved."
  },
  {
   "property": "C93",
   "status": "proved",
   "theorems": [
    "LRU.C93_calls",
    "LRU.C93_programs",
    "LRU.C93_runs",
    "LRU.C93_not_void"
   ],
   "note": "The functions that contain assertions, or call ones that do, are modelled a second time with them; what a failed assertion does is a parameter, and the result does not depend on it. No invariant is needed: each assertion follows from a test the same function made before. Iterators are those of the cache they are given to."
  },
  {
   "property": "C94",
   "status": "partial",
   "theorems": [
    "LRU.C94_contents",
    "LRU.C94_strong_guarantee",
    "LRU.C94_conversion_terminates",
    "LRU.C94_no_value",
    "LRU.C94_undefined",
    "LRU.C94_ownership",
    "LRU.C94_no_leak",
    "LRU.C94_references_survive",
    "LRU.C94_like_std_optional_partial",
    "LRU.C94_like_std_optional_refuted",
    "LRU.C94_conversion_refuted"
   ],
   "note": "For all programs, with and without failing constructions. False of the code: that programs always see the same as with std::optional (a moved-from object is empty, C94_like_std_optional_refuted; programs that do not look at moved-from objects see the same, C94_like_std_optional_partial), and that conversions are possible when the values convert (the constraint tests the opposite direction, C94_conversion_refuted). The generalized move constructor is noexcept and terminates the program if it cannot allocate (C94_conversion_terminates). Values of all types are of one type in the model; a conversion is a function on it."
  },
  {
   "property": "C95",
   "status": "partial",
   "theorems": [
    "LRU.C95_entries_are_elements_partial",
    "LRU.C95_converted_entries_refuted",
    "LRU.C95_converted_entries_dangle",
    "LRU.C95_comparisons",
    "LRU.C95_comparisons_agree"
   ],
   "note": "Refinement of addresses of keys and values to a machine of elements, for all programs whose conversions are between entries of the same types up to const. False of the code for conversions that change the type of the key or the value, which the constraint of the generalized constructor allows: the reference is bound to a temporary object (C95_converted_entries_refuted), and remains dangling whatever the program does (C95_converted_entries_dangle). Newer compilers reject the binding (core issue 1696). Keys and values of all types are of one type in the model. Comparisons are noexcept: one that throws terminates the program, exactly when it is needed (C95_comparisons). entry == entry is ambiguous and does not compile; this is not modelled. Which elements a cache has, and what erases them, is the subject of the other models."
  }
 ]
}