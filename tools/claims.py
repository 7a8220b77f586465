claim("C02", "proved", ["C02_no_duplicates_same_entries"], REACH)
claim("C05", "proved", ["C05_insert_with_space_keeps_everything", "insert_returns"], REACH)
claim("C06", "proved", ["C06_insert_present_key_updates", "insert_returns"], REACH)
claim("C07", "partial", ["C07_hit_moves_entry_to_most_recent", "C07_miss_changes_nothing", "C07_throw_changes_nothing", "C07_throwing_lookup_can_reorder", "C07_needs_assignments_to_succeed"], REACH + "Proved for hits, for misses that return, and for failing lookups other than KeyExpired. False of the code for a lookup on a timed cache whose entry expires between its two clock readings: it throws KeyExpired but has moved the entry (C07_throwing_lookup_can_reorder). The recency part needs value assignments not to throw (NoAssignFault; C07_needs_assignments_to_succeed shows it fails otherwise).")
claim("C09", "proved", ["C09_erase_key", "C09_erase_unordered_iterator", "C09_erase_ordered_iterator"], REACH)
claim("C10", "proved", ["C10_clear_makes_fresh", "C10_shrink_zero_makes_fresh"], REACH)
claim("C11", "proved", ["C11_shrink_keeps_most_recent"], REACH)
claim("C12", "proved", ["C12_capacity_keeps_most_recent"], REACH)
claim("C13", "proved", ["C13_capacity_zero_stores_nothing", "C13_capacity_zero_is_empty"], REACH)
claim("C14", "partial", ["C14_front_back_partial", "C14_empty_cache_terminates"], "False of the code on empty caches: front() and back() are noexcept and throw, which terminates the program (C14_empty_cache_terminates). Proved for non-empty caches.")
claim("C15", "proved", ["C15_size_arithmetic"], REACH)
claim("C16", "proved", ["C16_access_outcome", "C16_contains_predicts_lookup"], REACH)
claim("C39", "proved", ["C39_hit_is_fresh", "C39_time_stamps", "C39_time_stamp_is_past"], REACH)
claim("C40", "proved", ["C40_fresh_is_served"], REACH)
claim("C41", "partial", ["C41_new_key_starts_time_to_live_partial", "C41_stored_key_keeps_time", "C41_reinsertion_does_not_restart"], REACH + "False of the code for keys that are already stored: updating a key keeps its old insertion time. Proved for new keys.")
claim("C42", "partial", ["C42_all_expired_tests_most_recent", "C42_all_expired_partial", "C42_all_expired_wrong_after_lookup"], REACH + "False of the code: all_expired() only tests the most recently used entry. Proved when the entries are ordered by insertion time (C82 says which histories keep them so).")
claim("C43", "partial", ["C43_clear_expired_removes_only_expired", "C43_clear_expired_partial", "C43_clear_expired_misses_expired"], REACH + "False of the code: clear_expired() stops at the first fresh entry. Proved when the entries are ordered by insertion time (C82 says which histories keep them so); that only expired entries are removed is proved for all caches.")
claim("C44", "partial", ["C44_expired_is_a_miss_partial", "C44_expired_last_accessed_not_registered"], REACH + "False of the code for the last accessed key: contains() and lookup() register nothing and lookup() throws KeyExpired. The complete behaviour is proved.")
claim("C45", "partial", ["C45_not_expired_within_requested_time", "C45_expired_stays_expired", "C45_expires_partial", "C45_time_to_live_is_truncated"], REACH + "The first two parts are proved. The third is false for integer Durations coarser than the clock, because time to live and elapsed time are truncated; proved up to one unit of Duration, and exactly for a Duration as fine as the clock.")
claim("C46", "partial", ["C46_no_hit_if_lookup_throws_partial", "C46_hit_registered_then_thrown", "C40_fresh_is_served"], REACH + "False of the code: lookup() reads the clock twice and can register a hit and then throw KeyExpired. Proved that this is the only way.")
claim("C47", "partial", ["C47_expired_entries_can_be_erased_partial", "C47_ordered_erase_of_expired_throws", "C47_ordered_erase_refuted"], REACH + "False of the code for ordered iterators, where erase throws KeyExpired; proved for keys and unordered iterators.")
claim("C48", "proved", ["C48_only_removing_calls_remove", "C48_access_to_expired_changes_nothing"], REACH)
claim("C34", "proved", ["C34_iterators_stay_valid", "C34_one_call", "C34_valid_iterators_can_be_read"], REACH + "Stated for whole histories of calls, returning or throwing.")
claim("C35", "proved", ["C35_positions_denote_entries", "C35_positions_are_all", "C35_increment_and_decrement", "C35_walk", "C35_inverse", "C35_unordered_walk"], REACH)
claim("C36", "proved", ["C36_queries_have_no_side_effects"], REACH)
claim("C37", "proved", ["C37_conversion", "C37_conversion_of_end", "C37_comparison"], REACH)
claim("C38", "partial", ["C38_past_the_end_throws_partial", "C38_unordered_end_is_undefined", "C38_refuted"], "False of the code for unordered iterators, which are dereferenced before they are checked: key() and value() of unordered_end() are undefined behaviour in every state. Proved for ordered iterators and for erase.")
claim("C56", "proved", ["C56_first_representative", "C56_representative_kept", "C56_update_through_equivalent_key"], REACH)
claim("C58", "proved", ["C58_looked_up_position_is_last"], REACH + "Needs value assignments not to throw (NoAssignFault).")
claim("C59", "proved", ["C59_write_changes_one_value", "C59_write_is_visible"], REACH)
claim("C18", "proved", ["C18_counts", "C18_misses", "C18_monitored", "C18_other_calls"], REACH + "C18_counts holds with throwing callbacks as well.")
claim("C19", "proved", ["C19_key_counts", "C19_statistics_calls"], "Stated for traces of programs with any number of caches reporting to the object (plain caches, callbacks that do not throw).")
claim("C20", "proved", ["C20_totals", "C20_rates", "C20_in_programs"], "Rates are exact quotients, not floating-point numbers. Without any access they are 0/0. reset_all() is not modelled: it does not compile when instantiated.")
claim("C21", "proved", ["C21_callbacks", "C21_throwing_callback", "C21_nothing_else", "C21_nothing_else_in_programs"], REACH)
claim("C24", "partial", ["C24_accesses_partial", "C24_hits_partial", "C24_unrelated_steps", "C24_expired_access_not_counted"], "Proved for plain caches, copies included. False of the code for timed caches, where an access to an expired last accessed key is not counted (C24_expired_access_not_counted); that unrelated steps change nothing is proved for timed caches too.")
claim("C60", "proved", ["C60_stats", "C60_monitor", "C60_frozen", "C60_stays", "C60_copy", "C60_swap_move"], "For all states of the model, copies included.")
claim("C22", "proved", ["C22_throwing_callback_is_harmless", "C22_propagates_on_hit", "C22_propagates_on_miss", "C22_comes_from_callback"], REACH)
claim("C23", "partial", ["C23_insertion_exceptions_partial", "C23_any_call_partial", "C23_failed_list_node_corrupts", "C23_failed_list_node_undefined", "C23_first_refused_list_node", "C23_insertion_exceptions", "C23_failed_assignment_spoils", "C23_erase_after_refused_list_node", "C23_access_after_refused_list_node", "C23_retry_after_refused_list_node", "C23_insert_after_refused_list_node", "C23_clear_after_refused_list_node"], "False of the code when the allocation of a list node fails: the key stays in the map without an entry in the recency list (size() is wrong, a later find is undefined). Proved for all other exceptions: constructors, assignments, map nodes, callbacks. An assignment that throws may leave any value in the entry (Oracle.torn), which is found afterwards (C23_failed_assignment_spoils). For the failing list node, too, the outcome is determined for all states: exactly one map node without a list node is left behind (C23_first_refused_list_node), erasing, accessing or re-inserting its key is then undefined, clear() repairs the cache.")
claim("C33", "proved", ["C33_calls_complete", "C33_preconditions_are_exact", "C33_programs_complete"], REACH)
claim("C01", "proved", ["C01_size_within_capacity", "C01_size_call", "C01_unset_is_empty"], "For all caches of all programs, copies included.")
claim("C25", "partial", ["C25_swap_exchanges", "C25_swap_twice_restores", "C25_self_swap", "C25_swapped_caches_are_valid", "C25_references_survive", "C25_ordered_iterators_before", "C25_ordered_iterators_read_the_other_cache", "C25_ordered_iterators_do_not_survive"], "Everything but ordered iterators is proved. An ordered iterator keeps a pointer to the cache it came from, so after swap() it is checked against the wrong cache (C25_ordered_iterators_do_not_survive).")
claim("C02", "proved", ["C02_no_duplicates_same_entries", "C02_all_caches"], "For all caches of all programs, copies included, with list-node allocation not failing.")
claim("C26", "partial", ["C26_move_construction_partial", "C26_moved_from_calls", "C26_moved_from_can_be_revived", "C26_target_is_valid", "C26_move_assignment_exchanges", "C26_moved_from_is_not_valid", "C26_move_assignment_does_not_empty"], "False of the code in two ways. After move construction the source has an indeterminate capacity, so capacity(), is_full(), insert() and others are undefined behaviour (the exact set is proved, and that setting the capacity repairs it). Move assignment swaps, so its source is not empty. What the target holds is proved in full.")
claim("C27", "proved", ["C27_copy_construction", "C27_copy_construction_completes", "C27_copy_assignment"], "For all sources of all programs, copies of copies included, with list-node allocation not failing.")
claim("C28", "partial", ["C28_calls_are_local_partial", "C28_original_partial", "C28_cleared_copy_partial", "C28_erase_on_copy_is_undefined", "C28_find_on_copy_never_returns", "C28_calls_on_copies_are_undefined", "C28_lookup_returns_reference_into_original", "C28_copy_does_not_outlive_original"], "False of the code: a copy keeps list iterators and the last-accessed pointer of the original, so erase, find, lookup, update and shrink on it are undefined behaviour (for all copies: erase of any stored key, find in plain caches), and a lookup can return a reference into the original. Proved: calls leave other caches alone, the original stays usable, and a copy is usable again once cleared or range-assigned.")
claim("C29", "proved", ["C29_equality", "C29_reflexive", "C29_symmetric", "C29_transitive"], "For all caches of all programs, copies included. != is defined in the code as the negation of ==.")

HIST = REACH + 'Assumes that list-node allocations do not fail (NoListFault) and that assigning a value does not throw (NoAssignFault; C07_needs_assignments_to_succeed shows that recency breaks otherwise). '
claim("C03", "proved", ["C03_latest_write", "C62_refines_textbook_lru"], HIST + "Over all histories, plain and timed caches; the log starts with the contents of the start state.")
claim("C04", "proved", ["C04_evicts_least_recently_used", "C04_insert_evicts_least_recent"], HIST + "C04_evicts_least_recently_used identifies the evicted entry by the history; C04_insert_evicts_least_recent needs no assumption on assignments.")
claim("C08", "proved", ["C08_iteration_is_recency_order"], HIST + "Also for timed caches.")
claim("C62", "proved", ["C62_refines_textbook_lru"], HIST)

claim("C30", "proved", ["C30_range_insertion", "C30_moving_range_insertion", "C30_result"], REACH + "Also when an insertion in between throws: the effect is then that of the insertions up to it.")
claim("C31", "proved", ["C31_constructors", "C31_construction_returns"], "For all programs, copies included, with list-node allocation not failing.")
claim("C32", "proved", ["C32_range_assignment", "C32_assignment_returns"], "For all programs, copies included, with list-node allocation not failing.")
claim("C61", "partial", ["C61_range_left_alone_partial", "C61_lvalue_assignment_moves", "C61_range_left_alone_refuted"], "False of the code for ranges that are not const: operator=(Range&&) is a forwarding reference, binds to lvalues and moves every pair from them. Proved for const ranges and for insert().")
claim("C63", "partial", ["C63_assignment_copies_partial", "C63_lvalue_assignment", "C63_self_assignment_empties", "C63_assignment_copies_refuted", "C63_source_unchanged_refuted"], "False of the code for sources that are not const: caches are ranges, and operator=(Range&&) is a better match than the copy assignment operator. The elements are then re-inserted in hash-table order and moved from the source; self-assignment empties the cache. What happens is proved for all programs; const sources are copied (C27). Overload resolution itself is modelled from the C++ rules (Model/Overloads).")
claim("C64", "partial", ["C64_construction_copies_partial", "C64_lvalue_construction", "C64_construction_copies_refuted"], "False of the code for sources that are not const: the range constructor Cache(Range&) is a better match than the copy constructor, so that order, capacity and statistics are not copied. What happens is proved for all programs; const sources are copied (C27).")

WRAP = 'For all programs that wrap functions and call the wrappers, recursive calls included (MReach); arguments and results are values, one thread. '
claim("C49", "proved", ["C49_transparent", "C49_defined", "C49_returns", "C49_outcome", "C49_same_outcome", "C49_spoiled_value_returned"], WRAP + "If the cache threw before, an assignment that throws must keep a value that equals the one to be assigned (KeepsEqual); without that C49_spoiled_value_returned is a counterexample. Functions wrapped in closures of the same type must agree, or see C51. C49_outcome and C49_same_outcome, for functions that throw and catch, are for environments in which nothing else fails.")
claim("C50", "proved", ["C50_holds_recent", "C50_evaluates_iff", "C50_first_call_evaluates", "C50_call_is_use", "C50_new_arguments"], WRAP + "The arguments that count are those of all calls that returned, through any closure of the same type.")
claim("C51", "partial", ["C51_different_types_partial", "C51_refuted"], WRAP + "False of the code: the cache is a static variable of the lambda's call operator, so all functions of one type wrapped with the same template arguments share it. Proved for closures of different types (and in C49 for functions that agree).")
claim("C52", "partial", ["C52_live_arguments_partial", "C52_number_partial", "C52_duration_partial", "C52_fixed_partial", "C52_temporary_dangles", "C52_timed_wrap_dangles", "C52_refuted"], WRAP + "False of the code: the closure keeps references to the arguments. wrap(f, 128) and timed_wrap(f, d) always leave a dangling reference that the first call reads; lvalues are read at the first call, and only those given to the wrapper of the type called first count.")
claim("C53", "proved", ["C53_inclusion", "C53_no_more_misses", "C53_holds_most_recent", "C53_misses", "C53_accesses_complete"], REACH + "Caches empty at the start, plain, in an environment in which nothing fails.")
claim("C54", "proved", ["C54_equal_hashes", "C54_respects_equality", "C54_first_element", "C54_depends_on_order", "C54_order_always_matters"], "")

claim("C57", "partial", ["C57_program_partial", "C57_step_partial", "C57_cache", "C57_ub", "C57_refuted"], "For all programs, copies and failing allocations included, and all pairs of environments that differ only in how hash tables are ordered at each insertion and copy. False of the code for one construct that is not a step of the modelled programs: assigning or constructing from a cache that is not const goes through the overload for ranges (C63, C64) and inserts the elements in hash-table order (C57_refuted).")
claim("C55", "proved", ["C55_insert_emplace_agree", "C55_insert_emplace_same", "C55_insert_emplace_undefined"], REACH + "The states may differ in the order of the hash table (which the environment chooses, see C57) and in the count of fallible actions; everything else, insertion times and internal pointers included, is equal. C23 states what holds after an exception.")
claim("C17", "partial", ["C17_call_partial", "C17_run_partial", "C17_run_back_partial", "C17_refuted", "C17_timed_shortcut_observable"], REACH + "For every call and for whole histories, with and without the shortcut, provided that assigning a value never throws. Without that it is false of the code (C17_refuted): a throwing assignment in insert leaves the last accessed entry and the most recently used entry different. For timed caches, which the property does not cover, the shortcut is observable (C17_timed_shortcut_observable).")
claim("C65", "partial", ["C65_well_formed", "C65_calls_complete", "C65_outcome_unique", "C65_inspecting_callbacks", "C65_find_hit", "C65_find_miss", "C65_lookup", "C65_contains", "C65_load_on_miss", "C65_miss_callbacks_do_no_harm", "C65_recursive_callback_never_returns", "C65_refuted", "C65_erasing_callback_undefined", "C65_registering_callback_undefined", "C65_lookup_not_most_recent", "C65_miss_account", "C65_hit_account", "C65_first_event", "C65_exceptions", "C65_lookup_not_found", "C65_own_container_undefined"], "For all programs in which the callbacks use the cache (RReachable), with list-node allocation not failing. False of the code: find uses its iterator after the callbacks have run, so a hit callback that erases the key, or whose insertion evicts it, leads to undefined behaviour; so does registering a callback from a callback; a callback that accesses its own key never returns; and lookup through the shortcut does not leave the key most recent. Proved: if the call ends, the cache is well-formed and the answer is right for the moment of the call (contains, find() == end() and the value read by lookup; on timed caches the hits); miss callbacks that insert, erase, clear or resize do no harm; callbacks that only inspect change nothing. For callbacks that make any calls but accesses, C65_miss_account and C65_hit_account give in full what every callback is told and does and what becomes of the cache; for arbitrary callbacks only the first event (C65_first_event) and the exceptions (C65_exceptions, C65_lookup_not_found) are given.")
claim("C66", "partial", ["C66_stored_entry_is_the_denoted_one", "C66_denotes_one", "C66_find_denotes", "C66_insert_denotes", "C66_walking", "C66_reads_like_a_new_iterator", "C66_reading", "C66_equality", "C66_copies_denote_the_same", "C66_iterators_stay_put", "C66_reading_later", "C66_evicted_iterators_denote_the_new_entry", "C66_stale_entry", "C66_refuted", "C66_writes_like_a_reference", "C66_swap", "C66_fresh", "C66_postfix", "C66_unordered_walking", "C66_deref", "C66_past_the_end", "C66_undefined"], "For all programs with iterator objects (IReachable), plain and timed caches, both implementations of Optional, with list-node allocation not failing. False of the code only when the entry leaves the cache: an insertion into a full cache reuses the list node of the evicted entry, so that ordered iterators to it silently denote the new entry (C66_evicted_iterators_denote_the_new_entry, C66_refuted), key() gives the new key, and value() is undefined if the old entry had been stored (C66_stale_entry). The documentation calls such iterators invalidated, so programs should not use them. Everything else is proved.")
claim("C67", "partial", ["C67_calls_do_not_depend_on_growth", "C67_returned_iterators_are_current", "C67_ordered_iterators_unaffected", "C67_unordered_iterators_partial", "C67_unordered_iterators_can_be_read", "C67_insertion_invalidates_iff", "C67_insertion_makes_room", "C67_old_iterators_are_undefined", "C67_other_calls_keep_the_table", "C67_bounded_number_of_invalidations", "C67_stable_after_first_eviction", "C67_refuted_unordered_iterators_survive_insertion"], "For all reachable caches and every choice of table sizes (Growth), with list-node allocation not failing. Proved for the cache itself (no call uses an iterator across a growth of the table), for ordered iterators and references. False of unordered iterators: an insertion for which the table has no room invalidates them all (C67_refuted_unordered_iterators_survive_insertion); proved instead: exactly when this happens, that it happens at most capacity + 1 times between two calls that empty the cache, and never again after the first eviction unless the capacity is raised. Copy, move and swap of caches are not part of this model.")
claim("C68", "proved", ["C68_same_answers", "C68_indistinguishable_iff"], "For all reachable plain caches with a capacity (not moved from), in environments in which nothing fails. The textbook map with its answers is defined in Spec/Machine, independently of the model of the cache. C62 gives the contents for timed caches and failing environments.")
claim("C69", "proved", ["C69_same_calls", "C69_access_cost", "C69_insert_cost", "C69_constant_cost", "C69_repeat_is_free", "C69_after_insert_is_free", "C69_drop_cost", "C69_amortized", "C69_find_price", "C69_access_price", "C69_insert_price"], "Model/Cost is the model with a meter; C69_same_calls proves that the metered calls are the calls of the model. Counted are searches in the hash table, nodes created, destroyed or moved, and notifications. How long a search takes, growing the table and user-defined operations are not counted, so 'expected' in the documentation (average over hash values) is outside. The prices of find, contains, lookup, insert and emplace that return are also proved exactly (C69_find_price, C69_access_price, C69_insert_price), so that the bounds do not hold because the meter forgets to charge. The bounds on single calls hold in every state; the other theorems need an environment that does not refuse list nodes.")
claim("C70", "partial", ["C70_same_calls", "C70_comparison_terminates", "C70_failures_show", "C70_first_search_throws", "C70_first_comparison_terminates", "C70_second_use_throws", "C70_ordered_iterators", "C70_interrupted_others_partial", "C70_interrupted_insertion", "C70_interrupted_erase", "C70_interrupted_trimming", "C70_interrupted_range", "C70_interrupted_assignment", "C70_interrupted_call_partial", "C70_half_inserted", "C70_half_inserted_undefined", "C70_half_erased", "C70_half_erased_undefined", "C70_clear_repairs", "C70_insert_not_safe", "C70_erase_not_safe", "C70_exceptions_terminate"], "Model/HashFault is the model with searches and comparisons that may throw; C70_same_calls proves that without exceptions it is the model. False of the code in two places: inserting into a full cache and erasing the last accessed key leave the two data structures inconsistent when the search in the middle throws (C70_insert_not_safe, C70_erase_not_safe), and exceptions from noexcept functions terminate the program (C70_exceptions_terminate; C70_failures_show: in no other case, and no exception is swallowed; C70_first_search_throws, C70_first_comparison_terminates, C70_second_use_throws and C70_ordered_iterators say what the calls do first). What is true is proved for all states: all other calls are exception safe, and C70_interrupted_call_partial determines what is left behind in every case.")
claim("C71", "proved", ["C71_same_answers", "C71_call", "C71_like_plain", "C71_no_explanation"], "For all reachable timed caches with a capacity (not moved from), in environments in which nothing fails. The textbook map with its answers is defined in Spec/TimedMachine, independently of the model of the cache. KeyNotFound and KeyExpired count as the same answer (C44 says which is thrown). C71_no_explanation shows with a concrete program that the condition on the clock is needed.")
claim("C72", "partial", ["C72_computes_fibonacci", "C72_every_number_is_computed_once_partial", "C72_capacity_two_takes_exponential_time", "C72_capacity_two_is_not_sufficient"], "For all reachable plain caches in environments in which nothing fails; integers do not overflow. The value is proved for every capacity and every order of evaluation. The number of misses is n - 1 for capacities of at least 3, and for capacity 2 if the right operand is evaluated first. False otherwise: with capacity 2 and the left operand first there are at least 2^(n/4) misses.")
claim("C73", "partial", ["C73_fibonacci_value", "C73_get_value", "C73_fibonacci_returns_partial", "C73_get_returns_partial", "C73_in_time", "C73_timed_example_can_throw", "C73_get_can_throw"], "If the programs return, the value is right: for all reachable caches, whatever throws, except that list nodes are not refused and values are assigned without exceptions. False of the code that they always return: on a timed cache the entry can expire between contains and the lookup, which then throws KeyExpired. This is proved to be the only way in which they can fail when nothing else does.")
claim("C74", "proved", ["C74_competitive", "C74_twice_the_room", "C74_worst_case", "C74_factor_is_attained"], "For all reachable plain caches in environments in which nothing fails; misses are counted by the statistics object of the cache. The competitor is any sequence of sets of keys that contain what is requested, loading any keys at any time; what it holds at the start counts as loaded, what the cache holds at the start does not matter.")
claim("C75", "partial", ["C75_same_calls", "C75_insert", "C75_emplace", "C75_emplace_does_not_copy_partial", "C75_range", "C75_move_range", "C75_assign_range", "C75_assign_move_range", "C75_lvalues_are_safe", "C75_keys_are_not_copied", "C75_insert_throws", "C75_emplace_throws", "C75_emplace_copies", "C75_not_move_aware", "C75_failed_emplace_loses_the_element"], "Model/Moves is the model with a ledger of constructions, copies and moves; C75_same_calls proves that the calls are those of the model. False of the code in one case: the value emplaced for a key that is already stored is copied, not moved (C75_emplace_copies, C75_not_move_aware). The exact number of copies and moves is proved for every insertion that returns, and for single elements also what is possible when the call throws; for all calls that throw that lvalues are not moved from and keys given as rvalues not copied; elements given as rvalues can be lost (C75_failed_emplace_loses_the_element). List nodes are not refused.")
claim("C76", "proved", ["C76_same_answers", "C76_same_answers_later", "C76_contents_decide", "C76_no_surprises"], "For all programs of such steps, in environments in which nothing fails. The textbook is defined in Spec/Many on top of Spec/Machine. Copying is not among the steps, because copies share internal iterators with their source (C28); timed caches one at a time in C71.")
claim("C77", "partial", ["C77_references_like_copies", "C77_value_of_the_evicted_entry", "C77_erasing_by_stored_key", "C77_dangling_key", "C77_emplacing_a_moved_value", "C77_emplacing_onto_itself", "C77_moved_value_lost_by_throw"], "Model/Alias has the calls with references instead of values as arguments, read at each place where the code reads them. Proved for all reachable caches with list-node allocation not failing, for all outcomes, for arguments that are not moved from. For values moved out of an entry (emplace with std::move) it is proved for calls that return; if the assignment throws, the value is lost (C77_moved_value_lost_by_throw).")
claim("C78", "partial", ["C78_own_range_partial", "C78_inserting_a_cache_into_itself", "C78_moving_a_cache_into_itself", "C78_own_ordered_range", "C78_own_ordered_part_undefined", "C78_own_ordered_effect", "C78_own_range_refuted", "C78_own_range_safety_refuted"], "For all reachable caches with list-node allocation not failing. Proved for unordered iterators, hence for insert(cache) and insert(std::move(cache)). False of the code for ordered iterators: inserting an entry moves it to the end of the list, from where the loop continues. With ordered_end() the loop stops after the first entry (C78_own_ordered_range, C78_own_ordered_effect, C78_own_range_refuted); with any other end it dereferences the end of the list (C78_own_ordered_part_undefined, C78_own_range_safety_refuted).")
claim("C79", "proved", ["C79_same_answers", "C79_same_answers_later", "C79_contents_decide", "C79_no_surprises"], "For all programs of such steps that compile (swap and move assignment of caches of the same type, == and swap through the base class also of timed caches with different Durations), in environments in which nothing fails and in which the clock shows one time during each step; that this is needed is C71_no_explanation. The textbook is defined in Spec/ManyTimed on top of Spec/Machine and Spec/TimedMachine; it does not distinguish KeyNotFound from KeyExpired. Copying is not among the steps (C28).")
claim("C80", "proved", ["C80_same_news", "C80_nothing_else_matters", "C80_no_surprises"], "For all programs of such steps that mention no statistics object before it exists, in environments in which nothing fails. The textbook is defined in Spec/Watched on top of Spec/Machine; its statistics objects are journals. Rates are exact quotients. Callbacks that use caches themselves are C65. Copying is not among the steps (C28).")
claim("C81", "proved", ["C81_valid_iff_set", "C81_accessors", "C81_compare_key", "C81_compare_iterator", "C81_assign", "C81_assign_end", "C81_one_address"], "For every object that the functions of the class can make (LastAccessed.Made) and every state of a cache. C81_one_address justifies that the model of the cache keeps one address for the object.")
claim("C82", "proved", ["C82_call_keeps_time_order", "C82_history_keeps_time_order", "C82_all_expired", "C82_clear_expired"], REACH + "For histories without calls that bring an entry forward (Op.BringsForward); for the others C42 and C43 show that the two functions are wrong.")
claim("C83", "partial", ["C83_base_swap_exchanges_partial", "C83_base_swap_returns", "C83_like_swap", "C83_swapped_caches_are_valid", "C83_other_time_to_live", "C83_refuted"], "For all programs. False of the code: TimedCache::swap does not override BaseCache::swap, which leaves the times to live where they are, so that entries are judged by a time to live they were not stored with (C83_other_time_to_live, C83_refuted). Everything else is proved; for caches with equal times to live, in particular plain ones, the two functions do the same (C83_like_swap).")
claim("C84", "proved", ["C84_same_news", "C84_nothing_else_matters", "C84_no_surprises"], "For all programs of such steps that compile (admissible), in environments in which nothing fails and in which the clock shows one time during each step (PacedDeeds). The textbook is defined in Spec/WatchedTimed on top of Spec/ManyTimed and Spec/Watched; which expired keys are overlooked is part of it, because it is what the code does (C44 refutes that all accesses are registered). Rates are exact quotients. Callbacks that use caches themselves are C65. Copying is not among the steps (C28).")
claim("C85", "partial", ["C85_which_operator", "C85_const_source_partial", "C85_other_source", "C85_lives_start_anew", "C85_assignment_returns", "C85_construction", "C85_construction_from_rvalue", "C85_construction_throws", "C85_base_copy", "C85_base_move", "C85_order_refuted", "C85_expired_refuted", "C85_source_refuted"], "For all programs with list-node allocation not failing. Such assignments are always those of ranges (C85_which_operator). Proved: what the target holds, its capacity, that it keeps its class, time to live, statistics and callbacks, and that the world stays one to which the other theorems apply. False of the code: the order of use is lost (C85_order_refuted); entries get new insertion times (C85_lives_start_anew), so that expired ones are served again (C85_expired_refuted); a source that is not const is moved from even if it is an lvalue (C85_source_refuted).")
claim("C86", "partial", ["C86_evaluates_iff", "C86_memoised_partial", "C86_expired_evaluates", "C86_expired_repeats", "C86_refuted"], "For all programs with wrapped functions. False of the code: storing a result for an argument that is stored but has expired does not renew the time of its entry (C41_stored_key_keeps_time), so that every further call with this argument evaluates the function, until the entry is evicted (C86_expired_evaluates, C86_expired_repeats, C86_refuted). Proved for arguments that were not stored (C86_memoised_partial), and exactly when a call evaluates (C86_evaluates_iff).")
claim("C87", "partial", ["C87_totals", "C87_key", "C87_exact_partial", "C87_same_object", "C87_in_programs", "C87_rate_refuted", "C87_no_rate_refuted"], "Model/Counters is the class with 64-bit counters; C87_same_object proves that it shows the last 64 bits of the object with natural numbers used in the other models, for all calls. Proved for all sequences of calls: the totals and the counters of monitored keys modulo 2^64. The hit rate and the miss rate are proved for fewer than 2^64 accesses (C87_exact_partial), as exact quotients. False of the code otherwise: the hit rate can exceed 1 (C87_rate_refuted) or be undefined although there were accesses (C87_no_rate_refuted).")
claim("C88", "partial", ["C88_finds", "C88_swap", "C88_copy", "C88_construction", "C88_calls_keep", "C88_others_unaffected", "C88_move_construction", "C88_given_partial", "C88_given_or_default", "C88_given_refuted"], "Model/Functors follows the function objects through programs; elements are represented by the functions they were stored with. False of the code: the move constructor swaps with a cache whose members were default-constructed, so the source is left with default-constructed functions, for function pointers null ones, which are called if the cache is used again (C88_given_refuted). Proved for programs without move construction (C88_given_partial), and everything else for all programs.")
claim("C89", "partial", ["C89_well_formed", "C89_calls_complete", "C89_one_cache", "C89_idle", "C89_outcome_unique", "C89_other_caches_unchanged", "C89_same_effect", "C89_layers_do_no_harm", "C89_safe_calls_end", "C89_read_through", "C89_miss_account", "C89_hit_account", "C89_exceptions", "C89_circle_never_returns", "C89_refuted"], "For all programs whose callbacks use caches (LProg), for caches that hold no copy, with list-node allocation not failing. False of the code if caches use each other in a circle: the callbacks of another cache can erase the entry that find is holding an iterator to (C89_refuted), and accesses of a key that none of the caches stores need not return (C89_circle_never_returns). Proved for caches in layers: everything in the statement (C89_other_caches_unchanged, C89_same_effect, C89_layers_do_no_harm, C89_safe_calls_end; timed caches notice the time that passes while callbacks run), also if callbacks change their own cache on a miss, with the two caches in front of each other as an instance (C89_read_through, in environments in which nothing fails; the access itself reports a miss). Callbacks may also register callbacks with caches below, while their own containers are gone through. For all callbacks, also in circles: a call that completes has told each callback in order, and what happens to the caches in between is what the callbacks call and nothing else (C89_miss_account, C89_hit_account); their exceptions do not become those of the call (C89_exceptions). For callbacks that use only their own cache the model is that of C65 (C89_one_cache), and for idle ones the model without callbacks (C89_idle). Caches are not created or destroyed by callbacks.")
claim("C90", "partial", ["C90_roundings", "C90_threshold", "C90_never_early", "C90_exact", "C90_exact_millis", "C90_millis_never_early", "C90_three_microseconds", "C90_default_cache", "C90_rates_bounds", "C90_rates", "C90_expires_early", "C90_expires_late", "C90_rates_hide_a_miss"], "For every rounding that keeps the order and leaves representable numbers alone; double and float of IEEE 754, rounding to nearest, ties to even, are defined and shown to be such roundings. The threshold exists for every unit, time to live and rounding. To the nanosecond: below 2^33 ms (99 days), and below 2^32 ms for other units. Refuted beyond: a time to live of 9007199255 ms (104 days) expires late, one of 576460752307 ms (18 years) early; the error is always below three microseconds. Rates: exact up to the last of 53 digits for up to 2^53 accesses; refuted beyond (hit rate 1 in spite of a miss). Assumes a clock that ticks in nanoseconds and duration_cast as in the standard; excess precision (x87) is a rounding too, but two different ones would be in use.")
claim("C91", "partial", ["C91_coarse_durations", "C91_narrow_durations_partial", "C91_fine_durations", "C91_stored_time_to_live", "C91_expired_entries_come_back", "C91_fine_durations_overflow", "C91_long_time_to_live_overflows"], "Proved for 64-bit durations in units of whole ticks (nanoseconds, ..., hours), for which Kind.expired of the model is exact. False of the code otherwise: with duration<int, milli> expired entries are fresh again after 25 days (C91_expired_entries_come_back), with units smaller than a nanosecond the test is undefined from some age on (C91_fine_durations says exactly when), and a long time to live does not fit into 64-bit nanoseconds. Assumes the conversion of [time.duration.cast] with a 64-bit intmax_t and a clock with 64-bit readings.")
claim("C92", "partial", ["C92_equality", "C92_equal_iff", "C92_false_for_a_reason", "C92_terminates", "C92_different_sizes", "C92_inequality", "C92_reflexive", "C92_symmetric", "C92_transitive", "C92_copies", "C92_same_as_model", "C92_copy_refuted"], "For all programs with list-node allocation not failing, all comparisons for which keys that are == are equivalent for KeyEqual (a requirement of std::unordered_map). False of the code, as of the standard containers, that copies are always equal to their original: not for values that are not equal to themselves (C92_copy_refuted; C92_copies says exactly when they are). operator== is noexcept, so that a comparison that throws terminates the program; C92_equality proves that nothing else does, and C92_false_for_a_reason that such a comparison is not taken for a difference. Everything else is proved.")
claim("C93", "proved", ["C93_calls", "C93_programs", "C93_runs", "C93_not_void"], "The functions that contain assertions, or call ones that do, are modelled a second time with them; what a failed assertion does is a parameter, and the result does not depend on it. No invariant is needed: each assertion follows from a test the same function made before. Iterators are those of the cache they are given to.")
claim("C94", "partial", ["C94_contents", "C94_strong_guarantee", "C94_conversion_terminates", "C94_no_value", "C94_undefined", "C94_ownership", "C94_no_leak", "C94_references_survive", "C94_like_std_optional_partial", "C94_like_std_optional_refuted", "C94_conversion_refuted"], "For all programs, with and without failing constructions. False of the code: that programs always see the same as with std::optional (a moved-from object is empty, C94_like_std_optional_refuted; programs that do not look at moved-from objects see the same, C94_like_std_optional_partial), and that conversions are possible when the values convert (the constraint tests the opposite direction, C94_conversion_refuted). The generalized move constructor is noexcept and terminates the program if it cannot allocate (C94_conversion_terminates). Values of all types are of one type in the model; a conversion is a function on it.")
claim("C95", "partial", ["C95_entries_are_elements_partial", "C95_converted_entries_refuted", "C95_converted_entries_dangle", "C95_comparisons", "C95_comparisons_agree"], "Refinement of addresses of keys and values to a machine of elements, for all programs whose conversions are between entries of the same types up to const. False of the code for conversions that change the type of the key or the value, which the constraint of the generalized constructor allows: the reference is bound to a temporary object (C95_converted_entries_refuted), and remains dangling whatever the program does (C95_converted_entries_dangle). Newer compilers reject the binding (core issue 1696). Keys and values of all types are of one type in the model. Comparisons are noexcept: one that throws terminates the program, exactly when it is needed (C95_comparisons). entry == entry is ambiguous and does not compile; this is not modelled. Which elements a cache has, and what erases them, is the subject of the other models.")
