# Axioms

What `#print axioms` reports for every theorem in `MANIFEST.json`. `propext`, `Classical.choice` and
`Quot.sound` are the axioms of Lean itself.

| theorem | axioms |
|---|---|
| `LRU.C01_size_within_capacity` | Classical.choice, Quot.sound, propext |
| `LRU.C01_size_call` | Classical.choice, Quot.sound, propext |
| `LRU.C01_unset_is_empty` | Classical.choice, Quot.sound, propext |
| `LRU.C02_no_duplicates_same_entries` | Classical.choice, Quot.sound, propext |
| `LRU.C02_all_caches` | Classical.choice, Quot.sound, propext |
| `LRU.C03_latest_write` | Classical.choice, Quot.sound, propext |
| `LRU.C62_refines_textbook_lru` | Classical.choice, Quot.sound, propext |
| `LRU.C04_evicts_least_recently_used` | Classical.choice, Quot.sound, propext |
| `LRU.C04_insert_evicts_least_recent` | Classical.choice, Quot.sound, propext |
| `LRU.C05_insert_with_space_keeps_everything` | Classical.choice, Quot.sound, propext |
| `LRU.insert_returns` | Classical.choice, Quot.sound, propext |
| `LRU.C06_insert_present_key_updates` | Classical.choice, Quot.sound, propext |
| `LRU.C07_hit_moves_entry_to_most_recent` | Classical.choice, Quot.sound, propext |
| `LRU.C07_miss_changes_nothing` | Classical.choice, Quot.sound, propext |
| `LRU.C07_throw_changes_nothing` | Classical.choice, Quot.sound, propext |
| `LRU.C07_throwing_lookup_can_reorder` | Classical.choice, Quot.sound, propext |
| `LRU.C07_needs_assignments_to_succeed` | Classical.choice, Quot.sound, propext |
| `LRU.C08_iteration_is_recency_order` | Classical.choice, Quot.sound, propext |
| `LRU.C09_erase_key` | Classical.choice, Quot.sound, propext |
| `LRU.C09_erase_unordered_iterator` | Classical.choice, Quot.sound, propext |
| `LRU.C09_erase_ordered_iterator` | Classical.choice, Quot.sound, propext |
| `LRU.C10_clear_makes_fresh` | propext |
| `LRU.C10_shrink_zero_makes_fresh` | Classical.choice, Quot.sound, propext |
| `LRU.C11_shrink_keeps_most_recent` | Classical.choice, Quot.sound, propext |
| `LRU.C12_capacity_keeps_most_recent` | Classical.choice, Quot.sound, propext |
| `LRU.C13_capacity_zero_stores_nothing` | propext |
| `LRU.C13_capacity_zero_is_empty` | Classical.choice, Quot.sound, propext |
| `LRU.C14_front_back_partial` | Classical.choice, Quot.sound, propext |
| `LRU.C14_empty_cache_terminates` | Classical.choice, Quot.sound, propext |
| `LRU.C15_size_arithmetic` | Classical.choice, Quot.sound, propext |
| `LRU.C16_access_outcome` | Classical.choice, Quot.sound, propext |
| `LRU.C16_contains_predicts_lookup` | Classical.choice, Quot.sound, propext |
| `LRU.C17_call_partial` | Classical.choice, Quot.sound, propext |
| `LRU.C17_run_partial` | Classical.choice, Quot.sound, propext |
| `LRU.C17_run_back_partial` | Classical.choice, Quot.sound, propext |
| `LRU.C17_refuted` | Classical.choice, Quot.sound, propext |
| `LRU.C17_timed_shortcut_observable` | Classical.choice, Quot.sound, propext |
| `LRU.C18_counts` | Classical.choice, Quot.sound, propext |
| `LRU.C18_misses` | Classical.choice, Quot.sound, propext |
| `LRU.C18_monitored` | Classical.choice, Quot.sound, propext |
| `LRU.C18_other_calls` | Quot.sound, propext |
| `LRU.C19_key_counts` | Quot.sound, propext |
| `LRU.C19_statistics_calls` | Quot.sound, propext |
| `LRU.C20_totals` | Quot.sound, propext |
| `LRU.C20_rates` | Classical.choice, Quot.sound, propext |
| `LRU.C20_in_programs` | Quot.sound, propext |
| `LRU.C21_callbacks` | Classical.choice, Quot.sound, propext |
| `LRU.C21_throwing_callback` | Classical.choice, Quot.sound, propext |
| `LRU.C21_nothing_else` | Quot.sound, propext |
| `LRU.C21_nothing_else_in_programs` | propext |
| `LRU.C22_throwing_callback_is_harmless` | Classical.choice, Quot.sound, propext |
| `LRU.C22_propagates_on_hit` | Classical.choice, Quot.sound, propext |
| `LRU.C22_propagates_on_miss` | Classical.choice, Quot.sound, propext |
| `LRU.C22_comes_from_callback` | Classical.choice, Quot.sound, propext |
| `LRU.C23_insertion_exceptions_partial` | Classical.choice, Quot.sound, propext |
| `LRU.C23_any_call_partial` | Classical.choice, Quot.sound, propext |
| `LRU.C23_failed_list_node_corrupts` | Classical.choice, Quot.sound, propext |
| `LRU.C23_failed_list_node_undefined` | Classical.choice, Quot.sound, propext |
| `LRU.C23_first_refused_list_node` | Classical.choice, Quot.sound, propext |
| `LRU.C23_insertion_exceptions` | Classical.choice, Quot.sound, propext |
| `LRU.C23_failed_assignment_spoils` | Classical.choice, Quot.sound, propext |
| `LRU.C23_erase_after_refused_list_node` | Classical.choice, Quot.sound, propext |
| `LRU.C23_access_after_refused_list_node` | Classical.choice, Quot.sound, propext |
| `LRU.C23_retry_after_refused_list_node` | Classical.choice, Quot.sound, propext |
| `LRU.C23_insert_after_refused_list_node` | Classical.choice, Quot.sound, propext |
| `LRU.C23_clear_after_refused_list_node` | propext |
| `LRU.C24_accesses_partial` | Quot.sound, propext |
| `LRU.C24_hits_partial` | Quot.sound, propext |
| `LRU.C24_unrelated_steps` | Quot.sound, propext |
| `LRU.C24_expired_access_not_counted` | Classical.choice, Quot.sound, propext |
| `LRU.C25_swap_exchanges` | propext |
| `LRU.C25_swap_twice_restores` | Classical.choice, Quot.sound, propext |
| `LRU.C25_self_swap` | propext |
| `LRU.C25_swapped_caches_are_valid` | propext |
| `LRU.C25_references_survive` | propext |
| `LRU.C25_ordered_iterators_before` | Classical.choice, Quot.sound, propext |
| `LRU.C25_ordered_iterators_read_the_other_cache` | Classical.choice, Quot.sound, propext |
| `LRU.C25_ordered_iterators_do_not_survive` | Classical.choice, Quot.sound, propext |
| `LRU.C26_move_construction_partial` | Quot.sound, propext |
| `LRU.C26_moved_from_calls` | Classical.choice, Quot.sound, propext |
| `LRU.C26_moved_from_can_be_revived` | Classical.choice, Quot.sound, propext |
| `LRU.C26_target_is_valid` | propext |
| `LRU.C26_move_assignment_exchanges` | propext |
| `LRU.C26_moved_from_is_not_valid` | Classical.choice, Quot.sound, propext |
| `LRU.C26_move_assignment_does_not_empty` | Classical.choice, Quot.sound, propext |
| `LRU.C27_copy_construction` | Classical.choice, Quot.sound, propext |
| `LRU.C27_copy_construction_completes` | Classical.choice, Quot.sound, propext |
| `LRU.C27_copy_assignment` | Classical.choice, Quot.sound, propext |
| `LRU.C28_calls_are_local_partial` | propext |
| `LRU.C28_original_partial` | propext |
| `LRU.C28_cleared_copy_partial` | propext |
| `LRU.C28_erase_on_copy_is_undefined` | Classical.choice, Quot.sound, propext |
| `LRU.C28_find_on_copy_never_returns` | Classical.choice, Quot.sound, propext |
| `LRU.C28_calls_on_copies_are_undefined` | Classical.choice, Quot.sound, propext |
| `LRU.C28_lookup_returns_reference_into_original` | Classical.choice, Quot.sound, propext |
| `LRU.C28_copy_does_not_outlive_original` | Classical.choice, Quot.sound, propext |
| `LRU.C29_equality` | Classical.choice, Quot.sound, propext |
| `LRU.C29_reflexive` | propext |
| `LRU.C29_symmetric` | Classical.choice, Quot.sound, propext |
| `LRU.C29_transitive` | Classical.choice, Quot.sound, propext |
| `LRU.C30_range_insertion` | Quot.sound, propext |
| `LRU.C30_moving_range_insertion` | Quot.sound, propext |
| `LRU.C30_result` | Quot.sound, propext |
| `LRU.C31_constructors` | Classical.choice, Quot.sound, propext |
| `LRU.C31_construction_returns` | Classical.choice, Quot.sound, propext |
| `LRU.C32_range_assignment` | Classical.choice, Quot.sound, propext |
| `LRU.C32_assignment_returns` | Classical.choice, Quot.sound, propext |
| `LRU.C33_calls_complete` | Classical.choice, Quot.sound, propext |
| `LRU.C33_preconditions_are_exact` | Classical.choice, Quot.sound, propext |
| `LRU.C33_programs_complete` | Classical.choice, Quot.sound, propext |
| `LRU.C34_iterators_stay_valid` | Classical.choice, Quot.sound, propext |
| `LRU.C34_one_call` | Classical.choice, Quot.sound, propext |
| `LRU.C34_valid_iterators_can_be_read` | Classical.choice, Quot.sound, propext |
| `LRU.C35_positions_denote_entries` | Classical.choice, Quot.sound, propext |
| `LRU.C35_positions_are_all` | Classical.choice, Quot.sound, propext |
| `LRU.C35_increment_and_decrement` | Classical.choice, Quot.sound, propext |
| `LRU.C35_walk` | Classical.choice, Quot.sound, propext |
| `LRU.C35_inverse` | Classical.choice, Quot.sound, propext |
| `LRU.C35_unordered_walk` | Classical.choice, Quot.sound, propext |
| `LRU.C36_queries_have_no_side_effects` | Classical.choice, Quot.sound, propext |
| `LRU.C37_conversion` | Classical.choice, Quot.sound, propext |
| `LRU.C37_conversion_of_end` | propext |
| `LRU.C37_comparison` | Classical.choice, Quot.sound, propext |
| `LRU.C38_past_the_end_throws_partial` | propext |
| `LRU.C38_unordered_end_is_undefined` | propext |
| `LRU.C38_refuted` | Classical.choice, Quot.sound, propext |
| `LRU.C39_hit_is_fresh` | Classical.choice, Quot.sound, propext |
| `LRU.C39_time_stamps` | Classical.choice, Quot.sound, propext |
| `LRU.C39_time_stamp_is_past` | Classical.choice, Quot.sound, propext |
| `LRU.C40_fresh_is_served` | Classical.choice, Quot.sound, propext |
| `LRU.C41_new_key_starts_time_to_live_partial` | Classical.choice, Quot.sound, propext |
| `LRU.C41_stored_key_keeps_time` | Classical.choice, Quot.sound, propext |
| `LRU.C41_reinsertion_does_not_restart` | Classical.choice, Quot.sound, propext |
| `LRU.C42_all_expired_tests_most_recent` | Classical.choice, Quot.sound, propext |
| `LRU.C42_all_expired_partial` | Classical.choice, Quot.sound, propext |
| `LRU.C42_all_expired_wrong_after_lookup` | Classical.choice, Quot.sound, propext |
| `LRU.C43_clear_expired_removes_only_expired` | Classical.choice, Quot.sound, propext |
| `LRU.C43_clear_expired_partial` | Classical.choice, Quot.sound, propext |
| `LRU.C43_clear_expired_misses_expired` | Classical.choice, Quot.sound, propext |
| `LRU.C44_expired_is_a_miss_partial` | Classical.choice, Quot.sound, propext |
| `LRU.C44_expired_last_accessed_not_registered` | Classical.choice, Quot.sound, propext |
| `LRU.C45_not_expired_within_requested_time` | Classical.choice, Quot.sound, propext |
| `LRU.C45_expired_stays_expired` | Classical.choice, Quot.sound, propext |
| `LRU.C45_expires_partial` | Classical.choice, Quot.sound, propext |
| `LRU.C45_time_to_live_is_truncated` | Classical.choice, Quot.sound, propext |
| `LRU.C46_no_hit_if_lookup_throws_partial` | Classical.choice, Quot.sound, propext |
| `LRU.C46_hit_registered_then_thrown` | Classical.choice, Quot.sound, propext |
| `LRU.C47_expired_entries_can_be_erased_partial` | Classical.choice, Quot.sound, propext |
| `LRU.C47_ordered_erase_of_expired_throws` | Classical.choice, Quot.sound, propext |
| `LRU.C47_ordered_erase_refuted` | Classical.choice, Quot.sound, propext |
| `LRU.C48_only_removing_calls_remove` | Classical.choice, Quot.sound, propext |
| `LRU.C48_access_to_expired_changes_nothing` | Classical.choice, Quot.sound, propext |
| `LRU.C49_transparent` | Classical.choice, Quot.sound, propext |
| `LRU.C49_defined` | Classical.choice, Quot.sound, propext |
| `LRU.C49_returns` | Classical.choice, Quot.sound, propext |
| `LRU.C49_outcome` | Classical.choice, Quot.sound, propext |
| `LRU.C49_same_outcome` | Classical.choice, Quot.sound, propext |
| `LRU.C49_spoiled_value_returned` | Classical.choice, Quot.sound, propext |
| `LRU.C50_holds_recent` | Classical.choice, Quot.sound, propext |
| `LRU.C50_evaluates_iff` | Classical.choice, Quot.sound, propext |
| `LRU.C50_first_call_evaluates` | Classical.choice, Quot.sound, propext |
| `LRU.C50_call_is_use` | Classical.choice, Quot.sound, propext |
| `LRU.C50_new_arguments` | Classical.choice, Quot.sound, propext |
| `LRU.C51_different_types_partial` | Classical.choice, Quot.sound, propext |
| `LRU.C51_refuted` | Classical.choice, Quot.sound, propext |
| `LRU.C52_live_arguments_partial` | Classical.choice, Quot.sound, propext |
| `LRU.C52_number_partial` | Classical.choice, Quot.sound, propext |
| `LRU.C52_duration_partial` | Classical.choice, Quot.sound, propext |
| `LRU.C52_fixed_partial` | Classical.choice, Quot.sound, propext |
| `LRU.C52_temporary_dangles` | Classical.choice, Quot.sound, propext |
| `LRU.C52_timed_wrap_dangles` | Classical.choice, Quot.sound, propext |
| `LRU.C52_refuted` | Classical.choice, Quot.sound, propext |
| `LRU.C53_inclusion` | Classical.choice, Quot.sound, propext |
| `LRU.C53_no_more_misses` | Classical.choice, Quot.sound, propext |
| `LRU.C53_holds_most_recent` | Classical.choice, Quot.sound, propext |
| `LRU.C53_misses` | Classical.choice, Quot.sound, propext |
| `LRU.C53_accesses_complete` | Classical.choice, Quot.sound, propext |
| `LRU.C54_equal_hashes` | propext |
| `LRU.C54_respects_equality` | propext |
| `LRU.C54_first_element` | Quot.sound, propext |
| `LRU.C54_depends_on_order` | propext |
| `LRU.C54_order_always_matters` | Quot.sound, propext |
| `LRU.C55_insert_emplace_agree` | Classical.choice, Quot.sound, propext |
| `LRU.C55_insert_emplace_same` | Classical.choice, Quot.sound, propext |
| `LRU.C55_insert_emplace_undefined` | Classical.choice, Quot.sound, propext |
| `LRU.C56_first_representative` | Classical.choice, Quot.sound, propext |
| `LRU.C56_representative_kept` | Classical.choice, Quot.sound, propext |
| `LRU.C56_update_through_equivalent_key` | Classical.choice, Quot.sound, propext |
| `LRU.C57_program_partial` | Classical.choice, Quot.sound, propext |
| `LRU.C57_step_partial` | Classical.choice, Quot.sound, propext |
| `LRU.C57_cache` | Classical.choice, Quot.sound, propext |
| `LRU.C57_ub` | Classical.choice, Quot.sound, propext |
| `LRU.C57_refuted` | Classical.choice, Quot.sound, propext |
| `LRU.C58_looked_up_position_is_last` | Classical.choice, Quot.sound, propext |
| `LRU.C59_write_changes_one_value` | Classical.choice, Quot.sound, propext |
| `LRU.C59_write_is_visible` | Classical.choice, Quot.sound, propext |
| `LRU.C60_stats` | propext |
| `LRU.C60_monitor` | Quot.sound, propext |
| `LRU.C60_frozen` | Quot.sound, propext |
| `LRU.C60_stays` | Quot.sound, propext |
| `LRU.C60_copy` | Quot.sound, propext |
| `LRU.C60_swap_move` | Quot.sound, propext |
| `LRU.C61_range_left_alone_partial` | propext |
| `LRU.C61_lvalue_assignment_moves` | Classical.choice, Quot.sound, propext |
| `LRU.C61_range_left_alone_refuted` | Classical.choice, Quot.sound, propext |
| `LRU.C63_assignment_copies_partial` | propext |
| `LRU.C63_lvalue_assignment` | Classical.choice, Quot.sound, propext |
| `LRU.C63_self_assignment_empties` | Quot.sound, propext |
| `LRU.C63_assignment_copies_refuted` | Classical.choice, Quot.sound, propext |
| `LRU.C63_source_unchanged_refuted` | Classical.choice, Quot.sound, propext |
| `LRU.C64_construction_copies_partial` | propext |
| `LRU.C64_lvalue_construction` | Classical.choice, Quot.sound, propext |
| `LRU.C64_construction_copies_refuted` | Classical.choice, Quot.sound, propext |
| `LRU.C65_well_formed` | Classical.choice, Quot.sound, propext |
| `LRU.C65_calls_complete` | Classical.choice, Quot.sound, propext |
| `LRU.C65_outcome_unique` | propext |
| `LRU.C65_inspecting_callbacks` | Classical.choice, Quot.sound, propext |
| `LRU.C65_find_hit` | Classical.choice, Quot.sound, propext |
| `LRU.C65_find_miss` | Classical.choice, Quot.sound, propext |
| `LRU.C65_lookup` | Classical.choice, Quot.sound, propext |
| `LRU.C65_contains` | Classical.choice, Quot.sound, propext |
| `LRU.C65_load_on_miss` | Classical.choice, Quot.sound, propext |
| `LRU.C65_miss_callbacks_do_no_harm` | Classical.choice, Quot.sound, propext |
| `LRU.C65_recursive_callback_never_returns` | Classical.choice, Quot.sound, propext |
| `LRU.C65_refuted` | Classical.choice, Quot.sound, propext |
| `LRU.C65_erasing_callback_undefined` | Classical.choice, Quot.sound, propext |
| `LRU.C65_registering_callback_undefined` | Classical.choice, Quot.sound, propext |
| `LRU.C65_lookup_not_most_recent` | Classical.choice, Quot.sound, propext |
| `LRU.C65_miss_account` | Quot.sound, propext |
| `LRU.C65_hit_account` | Classical.choice, Quot.sound, propext |
| `LRU.C65_first_event` | Classical.choice, Quot.sound, propext |
| `LRU.C65_exceptions` | Classical.choice, Quot.sound, propext |
| `LRU.C65_lookup_not_found` | Classical.choice, Quot.sound, propext |
| `LRU.C65_own_container_undefined` | Classical.choice, Quot.sound, propext |
| `LRU.C66_stored_entry_is_the_denoted_one` | Classical.choice, Quot.sound, propext |
| `LRU.C66_denotes_one` | Classical.choice, Quot.sound, propext |
| `LRU.C66_find_denotes` | Classical.choice, Quot.sound, propext |
| `LRU.C66_insert_denotes` | Classical.choice, Quot.sound, propext |
| `LRU.C66_walking` | Classical.choice, Quot.sound, propext |
| `LRU.C66_reads_like_a_new_iterator` | Classical.choice, Quot.sound, propext |
| `LRU.C66_reading` | Classical.choice, Quot.sound, propext |
| `LRU.C66_equality` | Classical.choice, Quot.sound, propext |
| `LRU.C66_copies_denote_the_same` | Classical.choice, Quot.sound, propext |
| `LRU.C66_iterators_stay_put` | Classical.choice, Quot.sound, propext |
| `LRU.C66_reading_later` | Classical.choice, Quot.sound, propext |
| `LRU.C66_evicted_iterators_denote_the_new_entry` | Classical.choice, Quot.sound, propext |
| `LRU.C66_stale_entry` | Classical.choice, Quot.sound, propext |
| `LRU.C66_refuted` | Classical.choice, Quot.sound, propext |
| `LRU.C66_writes_like_a_reference` | Classical.choice, Quot.sound, propext |
| `LRU.C66_swap` | Quot.sound, propext |
| `LRU.C66_fresh` | propext |
| `LRU.C66_postfix` | Classical.choice, Quot.sound, propext |
| `LRU.C66_unordered_walking` | Classical.choice, Quot.sound, propext |
| `LRU.C66_deref` | Classical.choice, Quot.sound, propext |
| `LRU.C66_past_the_end` | propext |
| `LRU.C66_undefined` | propext |
| `LRU.C67_calls_do_not_depend_on_growth` | Quot.sound, propext |
| `LRU.C67_returned_iterators_are_current` | Quot.sound, propext |
| `LRU.C67_ordered_iterators_unaffected` | Classical.choice, Quot.sound, propext |
| `LRU.C67_unordered_iterators_partial` | Classical.choice, Quot.sound, propext |
| `LRU.C67_unordered_iterators_can_be_read` | Classical.choice, Quot.sound, propext |
| `LRU.C67_insertion_invalidates_iff` | Classical.choice, Quot.sound, propext |
| `LRU.C67_insertion_makes_room` | Classical.choice, Quot.sound, propext |
| `LRU.C67_old_iterators_are_undefined` | propext |
| `LRU.C67_other_calls_keep_the_table` | Classical.choice, propext |
| `LRU.C67_bounded_number_of_invalidations` | Classical.choice, Quot.sound, propext |
| `LRU.C67_stable_after_first_eviction` | Classical.choice, Quot.sound, propext |
| `LRU.C67_refuted_unordered_iterators_survive_insertion` | Classical.choice, Quot.sound, propext |
| `LRU.C68_same_answers` | Classical.choice, Quot.sound, propext |
| `LRU.C68_indistinguishable_iff` | Classical.choice, Quot.sound, propext |
| `LRU.C69_same_calls` | Quot.sound, propext |
| `LRU.C69_access_cost` | Quot.sound, propext |
| `LRU.C69_insert_cost` | propext |
| `LRU.C69_constant_cost` | Quot.sound, propext |
| `LRU.C69_repeat_is_free` | Classical.choice, Quot.sound, propext |
| `LRU.C69_after_insert_is_free` | Classical.choice, Quot.sound, propext |
| `LRU.C69_drop_cost` | Classical.choice, Quot.sound, propext |
| `LRU.C69_amortized` | Classical.choice, Quot.sound, propext |
| `LRU.C69_find_price` | Classical.choice, Quot.sound, propext |
| `LRU.C69_access_price` | Classical.choice, Quot.sound, propext |
| `LRU.C69_insert_price` | Classical.choice, Quot.sound, propext |
| `LRU.C70_same_calls` | Quot.sound, propext |
| `LRU.C70_comparison_terminates` | Quot.sound, propext |
| `LRU.C70_failures_show` | Quot.sound, propext |
| `LRU.C70_first_search_throws` | Quot.sound, propext |
| `LRU.C70_first_comparison_terminates` | propext |
| `LRU.C70_second_use_throws` | propext |
| `LRU.C70_ordered_iterators` | Classical.choice, Quot.sound, propext |
| `LRU.C70_interrupted_others_partial` | Quot.sound, propext |
| `LRU.C70_interrupted_insertion` | Classical.choice, Quot.sound, propext |
| `LRU.C70_interrupted_erase` | Classical.choice, Quot.sound, propext |
| `LRU.C70_interrupted_trimming` | Classical.choice, Quot.sound, propext |
| `LRU.C70_interrupted_range` | Classical.choice, Quot.sound, propext |
| `LRU.C70_interrupted_assignment` | Classical.choice, Quot.sound, propext |
| `LRU.C70_interrupted_call_partial` | Classical.choice, Quot.sound, propext |
| `LRU.C70_half_inserted` | Classical.choice, Quot.sound, propext |
| `LRU.C70_half_inserted_undefined` | Classical.choice, Quot.sound, propext |
| `LRU.C70_half_erased` | Classical.choice, Quot.sound, propext |
| `LRU.C70_half_erased_undefined` | Classical.choice, Quot.sound, propext |
| `LRU.C70_clear_repairs` | propext |
| `LRU.C70_insert_not_safe` | Classical.choice, Quot.sound, propext |
| `LRU.C70_erase_not_safe` | Classical.choice, Quot.sound, propext |
| `LRU.C70_exceptions_terminate` | Classical.choice, Quot.sound, propext |
| `LRU.C71_same_answers` | Classical.choice, Quot.sound, propext |
| `LRU.C71_call` | Classical.choice, Quot.sound, propext |
| `LRU.C71_like_plain` | Classical.choice, Quot.sound, propext |
| `LRU.C71_no_explanation` | Classical.choice, Quot.sound, propext |
| `LRU.C72_computes_fibonacci` | Classical.choice, Quot.sound, propext |
| `LRU.C72_every_number_is_computed_once_partial` | Classical.choice, Quot.sound, propext |
| `LRU.C72_capacity_two_takes_exponential_time` | Classical.choice, Quot.sound, propext |
| `LRU.C72_capacity_two_is_not_sufficient` | Classical.choice, Quot.sound, propext |
| `LRU.C73_fibonacci_value` | Classical.choice, Quot.sound, propext |
| `LRU.C73_get_value` | Classical.choice, Quot.sound, propext |
| `LRU.C73_fibonacci_returns_partial` | Classical.choice, Quot.sound, propext |
| `LRU.C73_get_returns_partial` | Classical.choice, Quot.sound, propext |
| `LRU.C73_in_time` | Quot.sound, propext |
| `LRU.C73_timed_example_can_throw` | Classical.choice, Quot.sound, propext |
| `LRU.C73_get_can_throw` | Classical.choice, Quot.sound, propext |
| `LRU.C74_competitive` | Classical.choice, Quot.sound, propext |
| `LRU.C74_twice_the_room` | Classical.choice, Quot.sound, propext |
| `LRU.C74_worst_case` | Classical.choice, Quot.sound, propext |
| `LRU.C74_factor_is_attained` | Classical.choice, Quot.sound, propext |
| `LRU.C75_same_calls` | Quot.sound, propext |
| `LRU.C75_insert` | Classical.choice, Quot.sound, propext |
| `LRU.C75_emplace` | Classical.choice, Quot.sound, propext |
| `LRU.C75_emplace_does_not_copy_partial` | Classical.choice, Quot.sound, propext |
| `LRU.C75_range` | Classical.choice, Quot.sound, propext |
| `LRU.C75_move_range` | Classical.choice, Quot.sound, propext |
| `LRU.C75_assign_range` | Classical.choice, Quot.sound, propext |
| `LRU.C75_assign_move_range` | Classical.choice, Quot.sound, propext |
| `LRU.C75_lvalues_are_safe` | propext |
| `LRU.C75_keys_are_not_copied` | propext |
| `LRU.C75_insert_throws` | Classical.choice, Quot.sound, propext |
| `LRU.C75_emplace_throws` | Quot.sound, propext |
| `LRU.C75_emplace_copies` | Classical.choice, Quot.sound, propext |
| `LRU.C75_not_move_aware` | Classical.choice, Quot.sound, propext |
| `LRU.C75_failed_emplace_loses_the_element` | Classical.choice, Quot.sound, propext |
| `LRU.C76_same_answers` | Classical.choice, Quot.sound, propext |
| `LRU.C76_same_answers_later` | Classical.choice, Quot.sound, propext |
| `LRU.C76_contents_decide` | Classical.choice, Quot.sound, propext |
| `LRU.C76_no_surprises` | Classical.choice, Quot.sound, propext |
| `LRU.C77_references_like_copies` | Classical.choice, Quot.sound, propext |
| `LRU.C77_value_of_the_evicted_entry` | Classical.choice, Quot.sound, propext |
| `LRU.C77_erasing_by_stored_key` | Classical.choice, Quot.sound, propext |
| `LRU.C77_dangling_key` | Classical.choice, Quot.sound, propext |
| `LRU.C77_emplacing_a_moved_value` | Classical.choice, Quot.sound, propext |
| `LRU.C77_emplacing_onto_itself` | Classical.choice, Quot.sound, propext |
| `LRU.C77_moved_value_lost_by_throw` | Classical.choice, Quot.sound, propext |
| `LRU.C78_own_range_partial` | Classical.choice, Quot.sound, propext |
| `LRU.C78_inserting_a_cache_into_itself` | Classical.choice, Quot.sound, propext |
| `LRU.C78_moving_a_cache_into_itself` | Classical.choice, Quot.sound, propext |
| `LRU.C78_own_ordered_range` | Classical.choice, Quot.sound, propext |
| `LRU.C78_own_ordered_part_undefined` | Classical.choice, Quot.sound, propext |
| `LRU.C78_own_ordered_effect` | Classical.choice, Quot.sound, propext |
| `LRU.C78_own_range_refuted` | Classical.choice, Quot.sound, propext |
| `LRU.C78_own_range_safety_refuted` | Classical.choice, Quot.sound, propext |
| `LRU.C79_same_answers` | Classical.choice, Quot.sound, propext |
| `LRU.C79_same_answers_later` | Classical.choice, Quot.sound, propext |
| `LRU.C79_contents_decide` | Classical.choice, Quot.sound, propext |
| `LRU.C79_no_surprises` | Classical.choice, Quot.sound, propext |
| `LRU.C80_same_news` | Classical.choice, Quot.sound, propext |
| `LRU.C80_nothing_else_matters` | Classical.choice, Quot.sound, propext |
| `LRU.C80_no_surprises` | Classical.choice, Quot.sound, propext |
| `LRU.C81_valid_iff_set` | none |
| `LRU.C81_accessors` | none |
| `LRU.C81_compare_key` | none |
| `LRU.C81_compare_iterator` | none |
| `LRU.C81_assign` | Quot.sound, propext |
| `LRU.C81_assign_end` | none |
| `LRU.C81_one_address` | Quot.sound, propext |
| `LRU.C82_call_keeps_time_order` | Classical.choice, Quot.sound, propext |
| `LRU.C82_history_keeps_time_order` | Classical.choice, Quot.sound, propext |
| `LRU.C82_all_expired` | Classical.choice, Quot.sound, propext |
| `LRU.C82_clear_expired` | Classical.choice, Quot.sound, propext |
| `LRU.C83_base_swap_exchanges_partial` | propext |
| `LRU.C83_base_swap_returns` | propext |
| `LRU.C83_like_swap` | Classical.choice, Quot.sound, propext |
| `LRU.C83_swapped_caches_are_valid` | propext |
| `LRU.C83_other_time_to_live` | Classical.choice, Quot.sound, propext |
| `LRU.C83_refuted` | Classical.choice, Quot.sound, propext |
| `LRU.C84_same_news` | Classical.choice, Quot.sound, propext |
| `LRU.C84_nothing_else_matters` | Classical.choice, Quot.sound, propext |
| `LRU.C84_no_surprises` | Classical.choice, Quot.sound, propext |
| `LRU.C85_which_operator` | propext |
| `LRU.C85_const_source_partial` | Classical.choice, Quot.sound, propext |
| `LRU.C85_other_source` | Classical.choice, Quot.sound, propext |
| `LRU.C85_lives_start_anew` | Classical.choice, Quot.sound, propext |
| `LRU.C85_assignment_returns` | Classical.choice, Quot.sound, propext |
| `LRU.C85_construction` | Classical.choice, Quot.sound, propext |
| `LRU.C85_construction_from_rvalue` | Classical.choice, Quot.sound, propext |
| `LRU.C85_construction_throws` | Classical.choice, Quot.sound, propext |
| `LRU.C85_base_copy` | Classical.choice, Quot.sound, propext |
| `LRU.C85_base_move` | Quot.sound, propext |
| `LRU.C85_order_refuted` | Classical.choice, Quot.sound, propext |
| `LRU.C85_expired_refuted` | Classical.choice, Quot.sound, propext |
| `LRU.C85_source_refuted` | Classical.choice, Quot.sound, propext |
| `LRU.C86_evaluates_iff` | Classical.choice, Quot.sound, propext |
| `LRU.C86_memoised_partial` | Classical.choice, Quot.sound, propext |
| `LRU.C86_expired_evaluates` | Classical.choice, Quot.sound, propext |
| `LRU.C86_expired_repeats` | Classical.choice, Quot.sound, propext |
| `LRU.C86_refuted` | Classical.choice, Quot.sound, propext |
| `LRU.C87_totals` | Quot.sound, propext |
| `LRU.C87_key` | Quot.sound, propext |
| `LRU.C87_exact_partial` | Classical.choice, Quot.sound, propext |
| `LRU.C87_same_object` | Quot.sound, propext |
| `LRU.C87_in_programs` | Quot.sound, propext |
| `LRU.C87_rate_refuted` | Classical.choice, Quot.sound, propext |
| `LRU.C87_no_rate_refuted` | Classical.choice, Quot.sound, propext |
| `LRU.C88_finds` | propext |
| `LRU.C88_swap` | propext |
| `LRU.C88_copy` | propext |
| `LRU.C88_construction` | propext |
| `LRU.C88_calls_keep` | Quot.sound, propext |
| `LRU.C88_others_unaffected` | Quot.sound, propext |
| `LRU.C88_move_construction` | propext |
| `LRU.C88_given_partial` | propext |
| `LRU.C88_given_or_default` | propext |
| `LRU.C88_given_refuted` | Quot.sound, propext |
| `LRU.C89_well_formed` | Classical.choice, Quot.sound, propext |
| `LRU.C89_calls_complete` | Classical.choice, Quot.sound, propext |
| `LRU.C89_one_cache` | Classical.choice, Quot.sound, propext |
| `LRU.C89_idle` | Classical.choice, Quot.sound, propext |
| `LRU.C89_outcome_unique` | propext |
| `LRU.C89_other_caches_unchanged` | Classical.choice, Quot.sound, propext |
| `LRU.C89_same_effect` | Classical.choice, Quot.sound, propext |
| `LRU.C89_layers_do_no_harm` | Classical.choice, Quot.sound, propext |
| `LRU.C89_safe_calls_end` | Classical.choice, Quot.sound, propext |
| `LRU.C89_read_through` | Classical.choice, Quot.sound, propext |
| `LRU.C89_miss_account` | Classical.choice, Quot.sound, propext |
| `LRU.C89_hit_account` | Classical.choice, Quot.sound, propext |
| `LRU.C89_exceptions` | Classical.choice, Quot.sound, propext |
| `LRU.C89_circle_never_returns` | Classical.choice, Quot.sound, propext |
| `LRU.C89_refuted` | Classical.choice, Quot.sound, propext |
| `LRU.C90_roundings` | Classical.choice, Quot.sound, propext |
| `LRU.C90_threshold` | Classical.choice, Quot.sound, propext |
| `LRU.C90_never_early` | Classical.choice, Quot.sound, propext |
| `LRU.C90_exact` | Classical.choice, Quot.sound, propext |
| `LRU.C90_exact_millis` | Classical.choice, Quot.sound, propext |
| `LRU.C90_millis_never_early` | Classical.choice, Quot.sound, propext |
| `LRU.C90_three_microseconds` | Classical.choice, Quot.sound, propext |
| `LRU.C90_default_cache` | Classical.choice, Quot.sound, propext |
| `LRU.C90_rates_bounds` | Classical.choice, Quot.sound, propext |
| `LRU.C90_rates` | Classical.choice, Quot.sound, propext |
| `LRU.C90_expires_early` | Classical.choice, Quot.sound, propext |
| `LRU.C90_expires_late` | Classical.choice, Quot.sound, propext |
| `LRU.C90_rates_hide_a_miss` | Classical.choice, Quot.sound, propext |
| `LRU.C91_coarse_durations` | Classical.choice, Quot.sound, propext |
| `LRU.C91_narrow_durations_partial` | Quot.sound, propext |
| `LRU.C91_fine_durations` | Quot.sound, propext |
| `LRU.C91_stored_time_to_live` | Classical.choice, Quot.sound, propext |
| `LRU.C91_expired_entries_come_back` | none |
| `LRU.C91_fine_durations_overflow` | none |
| `LRU.C91_long_time_to_live_overflows` | none |
| `LRU.C92_equality` | Classical.choice, Quot.sound, propext |
| `LRU.C92_equal_iff` | Classical.choice, Quot.sound, propext |
| `LRU.C92_false_for_a_reason` | Classical.choice, Quot.sound, propext |
| `LRU.C92_terminates` | Classical.choice, Quot.sound, propext |
| `LRU.C92_different_sizes` | Classical.choice, Quot.sound, propext |
| `LRU.C92_inequality` | Classical.choice, Quot.sound, propext |
| `LRU.C92_reflexive` | propext |
| `LRU.C92_symmetric` | Classical.choice, Quot.sound, propext |
| `LRU.C92_transitive` | Classical.choice, Quot.sound, propext |
| `LRU.C92_copies` | Classical.choice, Quot.sound, propext |
| `LRU.C92_same_as_model` | Classical.choice, Quot.sound, propext |
| `LRU.C92_copy_refuted` | Classical.choice, Quot.sound, propext |
| `LRU.C93_calls` | Quot.sound, propext |
| `LRU.C93_programs` | Quot.sound, propext |
| `LRU.C93_runs` | Quot.sound, propext |
| `LRU.C93_not_void` | Quot.sound, propext |
| `LRU.C94_contents` | Quot.sound, propext |
| `LRU.C94_strong_guarantee` | Quot.sound, propext |
| `LRU.C94_conversion_terminates` | Quot.sound, propext |
| `LRU.C94_no_value` | Quot.sound, propext |
| `LRU.C94_undefined` | Quot.sound, propext |
| `LRU.C94_ownership` | Quot.sound, propext |
| `LRU.C94_no_leak` | Quot.sound, propext |
| `LRU.C94_references_survive` | propext |
| `LRU.C94_like_std_optional_partial` | Quot.sound, propext |
| `LRU.C94_like_std_optional_refuted` | propext |
| `LRU.C94_conversion_refuted` | none |
| `LRU.C95_entries_are_elements_partial` | Quot.sound, propext |
| `LRU.C95_converted_entries_refuted` | propext |
| `LRU.C95_converted_entries_dangle` | Quot.sound, propext |
| `LRU.C95_comparisons` | propext |
| `LRU.C95_comparisons_agree` | Quot.sound, propext |
