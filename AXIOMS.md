# Axioms of the property theorems

Made by `tools/gen_axioms.py` from `#print axioms`.

| Theorem | Axioms |
|---|---|
| Dal.C01_ymd_of_every_date | propext, Classical.choice, Quot.sound |
| Dal.C01_ctor_roundtrip_partial | propext, Classical.choice, Quot.sound |
| Dal.C01_ctor_gap_is_one_day_early | propext, Classical.choice, Quot.sound |
| Dal.C01_violated | none |
| Dal.C01_out_of_range_invalid | propext, Classical.choice, Quot.sound |
| Dal.C01_excel_roundtrip | propext, Classical.choice, Quot.sound |
| Dal.C01_rounding_immaterial | propext, Classical.choice, Quot.sound |
| Dal.C02_order_is_calendar_order | propext, Classical.choice, Quot.sound |
| Dal.C02_ymd_determines_date | propext, Classical.choice, Quot.sound |
| Dal.C02_difference_counts_days | propext, Classical.choice, Quot.sound |
| Dal.C02_addDays | propext, Quot.sound |
| Dal.C02_addDays_wraps | none |
| Dal.C03_dayOfWeek | propext, Quot.sound |
| Dal.C03_weekend | propext, Classical.choice, Quot.sound |
| Dal.C04_daysInMonth_partial | propext, Classical.choice, Quot.sound |
| Dal.C04_violated | none |
| Dal.C04_endOfMonth_partial | propext, Classical.choice, Quot.sound |
| Dal.C04_endOfMonth_violated | none |
| Dal.C05_addMonths_partial | propext, Classical.choice, Quot.sound |
| Dal.C05_violated | none |
| Dal.C06_text_reads_as_ctor | propext, Classical.choice, Quot.sound |
| Dal.C06_roundtrip_partial | propext, Classical.choice, Quot.sound |
| Dal.C06_violated | propext, Classical.choice, Quot.sound |
| Dal.C06_us_format | propext, Classical.choice, Quot.sound |
| Dal.C06_rejects | propext |
| Dal.C07_order_and_difference_partial | propext, Classical.choice, Quot.sound |
| Dal.C07_violated | propext, Classical.choice, Quot.sound |
| Dal.C07_add | propext, Classical.choice, Quot.sound |
| Dal.C07_hms_roundtrip | propext, Classical.choice, Quot.sound |
| Dal.C07_msec_roundtrip | propext, Classical.choice, Quot.sound |
| Dal.C08_imm_is_third_wednesday | propext, Classical.choice, Quot.sound |
| Dal.C08_cds_forward_partial | propext, Classical.choice, Quot.sound |
| Dal.C08_cds_backward_partial | propext, Classical.choice, Quot.sound |
| Dal.C08_cds_violated | propext, Quot.sound |
| Dal.C08_imm_monthly | propext, Classical.choice, Quot.sound |
| Dal.C08_imm_quarterly_partial | propext, Classical.choice, Quot.sound |
| Dal.C08_imm_quarterly_violated | none |
| Dal.C08_eom_backward | propext, Classical.choice, Quot.sound |
| Dal.C08_eom_forward_violated | none |
| Dal.C09_isBus_iff | propext, Classical.choice, Quot.sound |
| Dal.C09_count_is_number_of_business_days | propext, Classical.choice, Quot.sound |
| Dal.C09_count_additive | propext, Classical.choice, Quot.sound |
| Dal.C10_nextBus_least | propext, Classical.choice, Quot.sound |
| Dal.C10_prevBus_greatest | propext, Classical.choice, Quot.sound |
| Dal.C10_idempotent | propext |
| Dal.C10_terminates_iff | propext, Quot.sound |
| Dal.C11_steps_invert | propext, Classical.choice, Quot.sound |
| Dal.C11_libor_fix_start | propext, Classical.choice, Quot.sound |
| Dal.C11_not_inverse_off_business_days | none |
| Dal.C11_libor_business_days | propext, Quot.sound |
| Dal.C12_sequential_registration_partial | propext, Classical.choice, Quot.sound |
| Dal.C12_no_corruption | propext, Classical.choice, Quot.sound |
| Dal.C12_lost_update | propext |
| Dal.C13_forward_partial | propext, Classical.choice, Quot.sound |
| Dal.C13_backward_partial | propext, Classical.choice, Quot.sound |
| Dal.C13_day_tenors_advance | propext, Quot.sound |
| Dal.C13_month_tenors_advance | propext, Classical.choice, Quot.sound |
| Dal.C13_eom_does_not_terminate | propext, Quot.sound |
| Dal.C13_makeSchedule | propext, Classical.choice, Quot.sound |
| Dal.C14_act_fixed | propext, Classical.choice, Quot.sound |
| Dal.C14_actAct_is_daily_sum_partial | propext, Classical.choice, Quot.sound |
| Dal.C14_actAct_additive_partial | propext, Classical.choice, Quot.sound |
| Dal.C14_actAct_violated | propext, Classical.choice, Quot.sound |
| Dal.C14_actAct_not_antisymmetric | propext, Classical.choice, Quot.sound |
| Dal.C14_act365L_does_not_terminate | propext, Classical.choice, Quot.sound |
| Dal.C14_act365L_partial | propext, Quot.sound |
| Dal.C14_bond_partial | propext, Classical.choice, Quot.sound |
| Dal.C14_bond_whole_months | propext, Classical.choice, Quot.sound |
| Dal.C14_bond_violated | propext, Classical.choice, Quot.sound |
| Dal.C14_act365L_year_partial | propext, Classical.choice, Quot.sound |
| Dal.C14_act365L_year_violated | propext, Quot.sound |
| Dal.C15_eq_iff_fold | propext, Classical.choice, Quot.sound |
| Dal.C15_eq_ascii_partial | propext, Classical.choice, Quot.sound |
| Dal.C15_high_bytes_conflated | propext |
| Dal.C15_eq_equivalence | propext, Classical.choice, Quot.sound |
| Dal.C15_lt_total | propext, Classical.choice, Quot.sound |
| Dal.C15_lt_trans | propext, Classical.choice, Quot.sound |
| Dal.C15_lt_congr | propext, Classical.choice, Quot.sound |
| Dal.C15_map_keys_distinct | propext, Classical.choice, Quot.sound |
| Dal.C15_map_find_insert | propext, Classical.choice, Quot.sound |
| Dal.C16_idempotent | propext, Quot.sound |
| Dal.C16_condensed_spec | propext, Quot.sound |
| Dal.C16_equivalent_iff | propext, Classical.choice, Quot.sound |
| Dal.C16_equivalent_condensed | propext, Classical.choice, Quot.sound |
| Dal.C17_never_repeats | propext, Classical.choice, Quot.sound |
| Dal.C17_keeps_prefix | propext, Classical.choice, Quot.sound |
| Dal.C18_join_spec | propext |
| Dal.C18_join_skip | propext, Quot.sound |
| Dal.C18_split_join | propext, Quot.sound |
| Dal.C18_split_join_trailing | propext, Quot.sound |
| Dal.C18_split_join_drop | propext, Quot.sound |
| Dal.C18_join_split | propext, Classical.choice, Quot.sound |
| Dal.C19_roundtrip | propext, Quot.sound |
| Dal.C19_comma_list | propext, Quot.sound |
| Dal.C19_word_iff | propext, Classical.choice, Quot.sound |
| Dal.C20_lookup_after_insert | propext, Classical.choice, Quot.sound |
| Dal.C20_duplicate_rejected | propext, Classical.choice, Quot.sound |
| Dal.C20_text_roundtrip | propext, Classical.choice, Quot.sound |
| Dal.C20_int_survives | propext, Classical.choice, Quot.sound |
| Dal.C20_large_number_violated | propext, Classical.choice, Quot.sound |
| Dal.C20_date_survives_partial | propext, Classical.choice, Quot.sound |
| Dal.C20_date_violated | propext, Classical.choice, Quot.sound |
| Dal.C20_dateTime_survives_partial | propext, Classical.choice, Quot.sound |
| Dal.C20_string_survives_iff | propext, Classical.choice, Quot.sound |
| Dal.C20_bool_violated | propext, Classical.choice, Quot.sound |
| Dal.C20_blank_violated | propext, Classical.choice, Quot.sound |
| Dal.C21_iterate | propext, Classical.choice, Quot.sound |
| Dal.C21_collect | propext, Classical.choice, Quot.sound |
| Dal.C21_find | propext, Classical.choice, Quot.sound |
| Dal.C21_scoping | propext |
| Dal.C22_erase_by_start | propext, Classical.choice, Quot.sound |
| Dal.C22_invariant | propext, Classical.choice, Quot.sound |
| Dal.C22_add_then_fetch | propext, Classical.choice, Quot.sound |
| Dal.C22_add_erases_exactly_partial | propext, Classical.choice, Quot.sound |
| Dal.C22_tilde_violated | propext, Classical.choice, Quot.sound |
| Dal.C22_add_entries | propext, Classical.choice, Quot.sound |
| Dal.C22_erase_pattern | propext |
| Dal.C22_erase_object | propext, Classical.choice, Quot.sound |
| Dal.C22_find | propext, Quot.sound |
| Dal.C22_concurrent_violated | propext |
| Dal.C22_store_get_set | propext, Classical.choice, Quot.sound |
| Dal.C23_overrides | propext, Quot.sound |
| Dal.C23_restored | propext, Quot.sound |
| Dal.C23_move_assign_violated | propext |
| Dal.C24_store | propext, Classical.choice, Quot.sound |
| Dal.C24_always_chronological | propext, Classical.choice, Quot.sound |
| Dal.C24_find | propext, Classical.choice, Quot.sound |
| Dal.C25_splat_defined | propext, Classical.choice, Quot.sound |
| Dal.C25_roundtrip_partial | propext, Classical.choice, Quot.sound |
| Dal.C25_empty_value_violated | propext |
| Dal.C25_last_empty_value_violated | none |
| Dal.C25_one_column_violated | propext, Classical.choice, Quot.sound |
| Dal.C25_blank_entry_violated | propext |
| Dal.C25_memberless_violated | propext |
| Dal.C26_number_survives_iff | propext, Classical.choice, Quot.sound |
| Dal.C26_number_error | propext, Classical.choice, Quot.sound |
| Dal.C26_int_violated | propext, Classical.choice, Quot.sound |
| Dal.C26_string_roundtrip_partial | propext, Classical.choice, Quot.sound |
| Dal.C26_string_violated | propext, Classical.choice, Quot.sound |
| Dal.C26_string_survives_iff | propext, Classical.choice, Quot.sound |
| Dal.C26_escape_violated | propext, Classical.choice, Quot.sound |
| Dal.C26_bool_roundtrip | propext, Classical.choice, Quot.sound |
| Dal.C26_date_roundtrip_partial | propext, Classical.choice, Quot.sound |
| Dal.C26_array | propext, Classical.choice, Quot.sound |
| Dal.C26_vectors_partial | propext, Classical.choice, Quot.sound |
| Dal.C26_int_vector_violated | propext, Classical.choice, Quot.sound |
| Dal.C26_matrix | propext, Classical.choice, Quot.sound |
| Dal.C26_number_matrix | propext, Classical.choice, Quot.sound |
| Dal.C26_cell_violated | propext, Classical.choice, Quot.sound |
| Dal.C27_expression | propext, Quot.sound |
| Dal.C27_event | propext, Quot.sound |
| Dal.C27_unambiguous | propext, Quot.sound |
| Dal.C27_unambiguous_event | propext, Quot.sound |
| Dal.C27_stops | propext, Classical.choice, Quot.sound |
| Dal.C27_minimal_parentheses | propext, Quot.sound |
| Dal.C27_all_parentheses | propext, Quot.sound |
| Dal.C27_tokens | propext, Quot.sound |
| Dal.C27_leftover_violated | propext, Quot.sound |
| Dal.C27_parenthesis_comparison_violated | propext, Classical.choice, Quot.sound |
| Dal.C27_unfinished_if_violated | propext, Classical.choice, Quot.sound |
| Dal.C27_caret_violated | propext, Classical.choice, Quot.sound |
| Dal.C27_trailing_comma_violated | propext, Classical.choice, Quot.sound |
| Dal.C28_slots | propext, Classical.choice, Quot.sound |
| Dal.C28_slots_distinct | propext, Classical.choice, Quot.sound |
| Dal.C28_names_nodup | propext, Classical.choice, Quot.sound |
| Dal.C28_constant_values | propext, Classical.choice, Quot.sound |
| Dal.C28_payoff | propext, Classical.choice, Quot.sound |
| Dal.C29_compiled_eq_interpreted_partial | propext, Classical.choice, Quot.sound |
| Dal.C29_no_else_partial | propext, Classical.choice, Quot.sound |
| Dal.C29_after_else_violated | propext, Classical.choice, Quot.sound |
| Dal.C29_deep_condition_violated | propext, Classical.choice, Quot.sound |
| Dal.C29_folded_violated | propext, Classical.choice, Quot.sound |
| Dal.C30_marks_sound | propext |
| Dal.C30_varying_not_marked | propext |
| Dal.C30_marks_inert | propext |
| Dal.C31_recorded_iff_written | propext, Classical.choice, Quot.sound |
| Dal.C31_complete_partial | propext, Classical.choice, Quot.sound |
| Dal.C31_max_nesting | propext, Classical.choice, Quot.sound |
| Dal.C31_constant_target_violated | propext, Classical.choice, Quot.sound |
| Dal.C32_add_total | propext, Classical.choice, Quot.sound |
| Dal.C32_union | propext, Classical.choice, Quot.sound |
| Dal.C32_expression_partial | propext, Classical.choice, Quot.sound |
| Dal.C32_condition_partial | propext, Classical.choice, Quot.sound |
| Dal.C32_event_partial | propext, Classical.choice, Quot.sound |
| Dal.C32_product_partial | propext, Classical.choice, Quot.sound |
| Dal.C32_initial | propext, Quot.sound |
| Dal.C32_discrete_bounds | propext, Classical.choice, Quot.sound |
| Dal.C32_log_violated | propext, Quot.sound |
| Dal.C32_max_violated | propext, Classical.choice, Quot.sound |
| Dal.C32_expression_total | propext, Classical.choice, Quot.sound |
| Dal.C32_condition_total | propext, Classical.choice, Quot.sound |
| Dal.C32_statement_total | propext, Classical.choice, Quot.sound |
| Dal.C32_statements_total | propext, Classical.choice, Quot.sound |
| Dal.C32_total | propext, Classical.choice, Quot.sound |
| Dal.C32_divisor_violated | propext, Quot.sound |
| Dal.C33_removal_preserves | none |
| Dal.C33_product | none |
| Dal.C33_removal_complete | none |
| Dal.C33_unmarked_condition | none |
| Dal.C34_degree_range | propext, Classical.choice, Quot.sound |
| Dal.C34_degree_defined_partial | propext, Classical.choice, Quot.sound |
| Dal.C34_connectives | propext, Classical.choice, Quot.sound |
| Dal.C34_sharp_outside_bands_partial | propext, Classical.choice, Quot.sound |
| Dal.C34_blend | propext, Quot.sound |
| Dal.C34_negation_violated | propext, Classical.choice, Quot.sound |
| Dal.C34_zero_width_violated | propext, Classical.choice, Quot.sound |
| Dal.C35_date_order | propext, Classical.choice, Quot.sound |
| Dal.C35_texts | propext, Classical.choice, Quot.sound |
| Dal.C35_same_date_order | propext, Classical.choice, Quot.sound |
| Dal.C35_order_irrelevant | propext, Classical.choice, Quot.sound |
| Dal.C35_macros_first | propext, Classical.choice, Quot.sound |
| Dal.C36_fifo | propext, Classical.choice, Quot.sound |
| Dal.C36_delivered | propext, Classical.choice, Quot.sound |
| Dal.C36_once | propext, Classical.choice, Quot.sound |
| Dal.C36_interrupt_wakes | propext, Classical.choice, Quot.sound |
| Dal.C36_interrupt_returns | propext |
| Dal.C36_no_lost_wakeup | propext, Classical.choice, Quot.sound |
| Dal.C36_no_deadlock | propext, Classical.choice, Quot.sound |
| Dal.C36_pop_gets | propext |
| Dal.C36_interrupt_hides_violated | propext |
| Dal.C36_clear_reset | propext |
| Dal.C36_each_call_answered | propext, Classical.choice, Quot.sound |
| Dal.C37_started_once | propext, Classical.choice, Quot.sound |
| Dal.C37_done_once | propext, Classical.choice, Quot.sound |
| Dal.C37_returned_ready | propext, Quot.sound |
| Dal.C37_terminates | propext, Quot.sound |
| Dal.C37_no_deadlock | propext, Quot.sound |
| Dal.C37_wait_ends | propext, Quot.sound |
| Dal.C37_thread_numbers_partial | propext, Quot.sound |
| Dal.C37_two_clients_violated | propext, Quot.sound |
| Dal.C37_start | propext, Classical.choice, Quot.sound |
| Dal.C37_unknown_hardware_violated | none |
| Dal.C38_cover | propext, Classical.choice, Quot.sound |
| Dal.C38_within | propext, Classical.choice, Quot.sound |
| Dal.C38_capacity | propext, Classical.choice, Quot.sound |
| Dal.C38_value | propext, Classical.choice, Quot.sound |
| Dal.C38_any_schedule | propext, Classical.choice, Quot.sound |
| Dal.C38_no_paths_violated | propext, Quot.sound |
| Dal.C38_few_paths_violated | propext |
| Dal.C39_irn | propext, Classical.choice, Quot.sound |
| Dal.C39_irn_lagged | propext, Classical.choice, Quot.sound |
| Dal.C39_table | propext, Quot.sound |
| Dal.C39_mrg | propext, Classical.choice, Quot.sound |
| Dal.C39_mrg_exact | propext, Classical.choice, Quot.sound |
| Dal.C39_rounding_harmless | propext, Classical.choice, Quot.sound |
| Dal.C39_fill_uniform_partial | propext, Classical.choice, Quot.sound |
| Dal.C39_longer_vector_violated | propext, Classical.choice, Quot.sound |
| Dal.C40_mrg_half_partial | propext, Classical.choice, Quot.sound |
| Dal.C40_mrg_continue_partial | propext, Classical.choice, Quot.sound |
| Dal.C40_mrg_uniform_even_partial | propext, Classical.choice, Quot.sound |
| Dal.C40_mrg_reuses_paths_violated | propext, Classical.choice, Quot.sound |
| Dal.C40_mrg_not_the_path_violated | propext, Classical.choice, Quot.sound |
| Dal.C40_irn_violated | propext, Quot.sound |
| Dal.C41_construction | propext, Classical.choice, Quot.sound |
| Dal.C41_each_once | propext, Classical.choice, Quot.sound |
| Dal.C41_no_dimension_violated | propext |
| Dal.C41_sum_of_squares | propext, Classical.choice, Quot.sound |
| Dal.C41_linear | propext, Classical.choice, Quot.sound |
| Dal.C41_own_times | propext, Classical.choice, Quot.sound |
| Dal.C42_stays | propext, Classical.choice, Quot.sound |
| Dal.C42_rewind_to_mark | propext, Classical.choice, Quot.sound |
| Dal.C42_iteration_partial | propext, Classical.choice, Quot.sound |
| Dal.C42_iteration_full_violated | propext, Quot.sound |
| Dal.C42_full_block_violated | propext, Quot.sound |
| Dal.C42_find | propext, Classical.choice, Quot.sound |
| Dal.C42_too_long_violated | propext, Classical.choice, Quot.sound |
| Dal.C42_clear_mark_violated | none |
| Dal.C43_gradient | propext, Classical.choice, Quot.sound |
| Dal.C43_gradient_exact | propext, Classical.choice, Quot.sound |
| Dal.C43_paths_accumulate | propext, Classical.choice, Quot.sound |
| Dal.C43_cutoff_violated | propext, Classical.choice, Quot.sound |
| Dal.C43_max_tie_violated | propext, Classical.choice, Quot.sound |
| Dal.C43_result_before_mark_violated | propext, Classical.choice, Quot.sound |
| Dal.C44_observe | propext, Quot.sound |
| Dal.C44_new | propext, Quot.sound |
| Dal.C44_lifo | propext, Quot.sound |
| Dal.C44_copy_move | propext, Quot.sound |
| Dal.C44_top_and_pop_violated | propext |
| Dal.C44_push_after_clear_violated | none |
| Dal.C44_assign_cleared_violated | propext |
| Dal.C44_static | propext, Quot.sound |
| Dal.C44_static_overflow_violated | propext, Quot.sound |
| Dal.C45_multiply | propext, Classical.choice, Quot.sound |
| Dal.C45_set | propext, Classical.choice, Quot.sound |
| Dal.C45_solve_then_multiply | propext, Classical.choice, Quot.sound |
| Dal.C45_multiply_then_solve | propext, Classical.choice, Quot.sound |
| Dal.C45_dominant_decomposes | propext, Classical.choice, Quot.sound |
| Dal.C45_zero_pivot_refused | propext, Quot.sound |
| Dal.C45_multiply_in_place_violated | propext, Classical.choice, Quot.sound |
| Dal.C46_multiply | propext, Classical.choice, Quot.sound |
| Dal.C46_write | propext, Quot.sound |
| Dal.C46_lower_solve | propext, Classical.choice, Quot.sound |
| Dal.C46_lower_solve_succeeds | propext, Classical.choice, Quot.sound |
| Dal.C46_transposed_solve_violated | propext, Classical.choice, Quot.sound |
| Dal.C46_transposed_residual_partial | propext, Classical.choice, Quot.sound |
| Dal.C46_transposed_solve_partial | propext, Classical.choice, Quot.sound |
| Dal.C46_symmetric_check_violated | propext, Classical.choice, Quot.sound |
| Dal.C46_decomposition_fails_violated | propext, Quot.sound |
| Dal.C46_never_decomposed_violated | propext, Classical.choice, Quot.sound |
| Dal.C46_accumulator_right_violated | propext, Classical.choice, Quot.sound |
| Dal.C47_correlated_linear | propext, Classical.choice, Quot.sound |
| Dal.C47_covariance | propext, Classical.choice, Quot.sound |
| Dal.C47_multiply_solve | propext, Classical.choice, Quot.sound |
| Dal.C47_solve_multiply | propext, Classical.choice, Quot.sound |
| Dal.C47_solve_into_empty_violated | propext, Quot.sound |
| Dal.C47_factor_partial | propext, Classical.choice, Quot.sound |
| Dal.C47_operator | propext, Classical.choice, Quot.sound |
| Dal.C47_zero_variance_violated | propext, Classical.choice, Quot.sound |
| Dal.C48_accepted | propext, Quot.sound |
| Dal.C48_nodes | propext, Classical.choice, Quot.sound |
| Dal.C48_line | propext, Classical.choice, Quot.sound |
| Dal.C48_between | propext, Classical.choice, Quot.sound |
| Dal.C48_flat | propext, Classical.choice, Quot.sound |
| Dal.C48_monotone | propext, Classical.choice, Quot.sound |
| Dal.C48_antitone | propext, Classical.choice, Quot.sound |
| Dal.C48_repeated_violated | propext, Classical.choice, Quot.sound |
| Dal.C48_empty_violated | propext, Quot.sound |
| Dal.C48_nodes2 | propext, Classical.choice, Quot.sound |
| Dal.C48_between2 | propext, Classical.choice, Quot.sound |
| Dal.C48_flat2 | propext, Classical.choice, Quot.sound |
| Dal.C48_bilinear | propext, Classical.choice, Quot.sound |
| Dal.C48_monotone2_x | propext, Classical.choice, Quot.sound |
| Dal.C48_monotone2_y | propext, Classical.choice, Quot.sound |
| Dal.C49_spline | propext, Classical.choice, Quot.sound |
| Dal.C49_accepted | propext, Classical.choice, Quot.sound |
| Dal.C49_bounds | propext, Classical.choice, Quot.sound |
| Dal.C49_natural | propext, Classical.choice, Quot.sound |
| Dal.C50_minimal_partial | propext, Classical.choice, Quot.sound |
| Dal.C50_zero_penalty | propext, Classical.choice, Quot.sound |
| Dal.C50_constant | propext, Classical.choice, Quot.sound |
| Dal.C50_first_pair_violated | propext, Classical.choice, Quot.sound |
| Dal.C50_two_points_violated | propext, Classical.choice, Quot.sound |
| Dal.C50_zero_weight_violated | propext, Classical.choice, Quot.sound |
| Dal.C51_start | propext, Quot.sound |
| Dal.C51_step | propext, Classical.choice, Quot.sound |
| Dal.C51_search | propext, Classical.choice, Quot.sound |
| Dal.C51_root | propext, Classical.choice, Quot.sound |
| Dal.C51_defined | propext, Classical.choice, Quot.sound |
| Dal.C51_both_zero_violated | propext, Classical.choice, Quot.sound |
| Dal.C51_hunt | propext, Classical.choice, Quot.sound |
| Dal.C51_hunt_accepted | propext, Quot.sound |
| Dal.C51_converged | propext, Classical.choice, Quot.sound |
| Dal.C52_new | propext, Quot.sound |
| Dal.C52_rank_zero_violated | propext |
| Dal.C52_inside | propext, Quot.sound |
| Dal.C52_distinct | propext, Quot.sound |
| Dal.C52_goto | propext, Classical.choice, Quot.sound |
| Dal.C52_slice | propext, Classical.choice, Quot.sound |
| Dal.C52_resize_partial | propext, Classical.choice, Quot.sound |
| Dal.C52_origin_violated | propext, Classical.choice, Quot.sound |
| Dal.C52_grow_violated | propext |
| Dal.C52_empty_cube_violated | propext, Quot.sound |
| Dal.C52_zero_size_violated | propext |
| Dal.C52_rank | propext |
| Dal.C53_cg | propext, Classical.choice, Quot.sound |
| Dal.C53_bcg | propext, Classical.choice, Quot.sound |
| Dal.C53_exact_guess_violated | propext, Classical.choice, Quot.sound |
| Dal.C53_exact_guess_bcg_violated | propext, Classical.choice, Quot.sound |
| Dal.C53_bcg_symmetric | propext, Classical.choice, Quot.sound |
| Dal.C53_defined | propext, Classical.choice, Quot.sound |
| Dal.C53_terminates | propext, Classical.choice, Quot.sound |
| Dal.C54_new | propext, Quot.sound |
| Dal.C54_refused | propext |
| Dal.C54_sizes | propext, Quot.sound |
| Dal.C54_setLoc | propext, Quot.sound |
| Dal.C54_read | propext, Quot.sound |
| Dal.C54_write | propext, Quot.sound |
| Dal.C54_setAll | propext, Quot.sound |
| Dal.C54_store | propext, Quot.sound |
| Dal.C54_alias_violated | propext |
| Dal.C54_truncated_violated | propext |
| Dal.C54_same_name_violated | none |
| Dal.C55_constant_value | propext, Classical.choice, Quot.sound |
| Dal.C55_constant_integral | propext, Classical.choice, Quot.sound |
| Dal.C55_constant_adds | propext, Quot.sound |
| Dal.C55_linear_day | propext, Classical.choice, Quot.sound |
| Dal.C55_linear_knots | propext, Classical.choice, Quot.sound |
| Dal.C55_linear_between | propext, Classical.choice, Quot.sound |
| Dal.C55_positive | propext, Classical.choice, Quot.sound |
| Dal.C55_compose | propext, Classical.choice, Quot.sound |
| Dal.C55_decreasing | propext, Classical.choice, Quot.sound |
| Dal.C55_shift | propext, Classical.choice, Quot.sound |
| Dal.C55_empty_violated | propext, Quot.sound |
| Dal.C56_ordered | propext, Quot.sound |
| Dal.C56_latest | propext, Quot.sound |
| Dal.C56_include | propext, Quot.sound |
| Dal.C56_comm | propext, Quot.sound |
| Dal.C56_assoc | propext, Quot.sound |
| Dal.C56_idem | propext, Quot.sound |
| Dal.C56_permutation | propext, Quot.sound |
| Dal.C57_format_writes_the_layout | propext, Classical.choice, Quot.sound |
| Dal.C57_transpose | propext, Quot.sound |
| Dal.C57_invert | propext, Quot.sound |
| Dal.C57_twice_same_output | propext, Classical.choice, Quot.sound |
| Dal.C57_linear | propext, Quot.sound |
| Dal.C57_parse_digit | propext, Classical.choice, Quot.sound |
| Dal.C57_parse_parentheses | propext, Classical.choice, Quot.sound |
| Dal.C57_parse_suffix | propext, Classical.choice, Quot.sound |
| Dal.C57_parse_separators | propext, Classical.choice, Quot.sound |
| Dal.C57_missing_piece_violated | propext, Classical.choice, Quot.sound |
| Dal.C58_multiply | propext, Classical.choice, Quot.sound |
| Dal.C58_multiply_vector | propext, Classical.choice, Quot.sound |
| Dal.C58_vector_multiply | propext, Classical.choice, Quot.sound |
| Dal.C58_weighted_inner_product | propext, Classical.choice, Quot.sound |
| Dal.C58_add_j_squared | propext, Classical.choice, Quot.sound |
| Dal.C58_any_history | propext, Classical.choice, Quot.sound |
| Dal.C58_new | propext, Classical.choice, Quot.sound |
| Dal.C58_fill_scale_clear | propext, Quot.sound |
| Dal.C58_put | propext, Quot.sound |
| Dal.C58_copy | propext, Classical.choice, Quot.sound |
| Dal.C58_resize_keeps | propext, Classical.choice, Quot.sound |
| Dal.C58_resize_new_elements_partial | propext, Classical.choice, Quot.sound |
| Dal.C58_resize_new_elements_violated | propext |
| Dal.C58_transpose | propext, Classical.choice, Quot.sound |
| Dal.C58_transpose_twice | propext, Classical.choice, Quot.sound |
| Dal.C58_transpose_no_columns_violated | propext, Quot.sound |
| Dal.C58_append | propext, Classical.choice, Quot.sound |
| Dal.C58_append_narrower_throws | propext, Classical.choice, Quot.sound |
| Dal.C58_toVectors | propext, Quot.sound |
| Dal.C58_fromVectors_roundtrip | propext, Classical.choice, Quot.sound |
| Dal.C58_fromVectors_longer_violated | propext |
| Dal.C59_payout | propext, Classical.choice, Quot.sound |
| Dal.C59_black | propext, Classical.choice, Quot.sound |
| Dal.C59_bachelier | propext, Classical.choice, Quot.sound |
| Dal.C59_black_bounds | propext, Classical.choice, Quot.sound |
| Dal.C59_bachelier_bounds | propext, Classical.choice, Quot.sound |
| Dal.C60_derivatives_of_quadratics | propext, Classical.choice, Quot.sound |
| Dal.C60_small_grids_refused | propext, Quot.sound |
| Dal.C60_theta_scheme | propext, Classical.choice, Quot.sound |
| Dal.C60_constants | propext, Classical.choice, Quot.sound |
| Dal.C60_step_made | propext, Classical.choice, Quot.sound |
| Dal.C60_bounds | propext, Classical.choice, Quot.sound |
| Dal.C60_edges_not_discounted | propext, Classical.choice, Quot.sound |
| Dal.C60_uniform_grid | propext, Classical.choice, Quot.sound |
| Dal.C60_uniform_refuses | propext, Quot.sound |
| Dal.C60_concentrating_grid | propext, Classical.choice, Quot.sound |
| Dal.C61_equity_partial | propext, Classical.choice, Quot.sound |
| Dal.C61_equity_date_violated | propext, Classical.choice, Quot.sound |
| Dal.C61_equity_bracket_violated | propext, Classical.choice, Quot.sound |
| Dal.C61_equity_names_collide | propext, Classical.choice, Quot.sound |
| Dal.C61_equity_texts_partial | propext, Classical.choice, Quot.sound |
| Dal.C61_fx_parser | propext, Classical.choice, Quot.sound |
| Dal.C61_fx_violated | propext, Classical.choice, Quot.sound |
| Dal.C61_fx_registered | propext, Classical.choice, Quot.sound |
| Dal.C62_collar | propext, Classical.choice, Quot.sound |
| Dal.C62_no_fixing | propext, Quot.sound |
| Dal.C62_probability | propext, Classical.choice, Quot.sound |
| Dal.C62_ramp | propext, Classical.choice, Quot.sound |
| Dal.C62_monotone | propext, Classical.choice, Quot.sound |
| Dal.C62_all | propext, Classical.choice, Quot.sound |
| Dal.C62_all_probability | propext, Classical.choice, Quot.sound |
| Dal.C62_interval | propext, Quot.sound |
| Dal.C62_extremum_interval | propext, Quot.sound |
| Dal.C62_extremum_violated | propext, Classical.choice, Quot.sound |
| Dal.C62_extremum_outside_violated | propext, Classical.choice, Quot.sound |
| Dal.C63_fill | propext, Classical.choice, Quot.sound |
| Dal.C63_fill_one_more | propext, Classical.choice, Quot.sound |
| Dal.C63_dupire_line | propext, Classical.choice, Quot.sound |
| Dal.C63_bs_line | propext, Classical.choice, Quot.sound |
| Dal.C63_paths | propext, Classical.choice, Quot.sound |
| Dal.C63_dupire_today_violated | propext, Classical.choice, Quot.sound |
| Dal.C63_gap_violated | propext, Classical.choice, Quot.sound |
| Dal.C63_bs_moments | propext, Classical.choice, Quot.sound |
| Dal.C63_script_line | propext, Classical.choice, Quot.sound |
| Dal.C63_preprocess_twice_violated | propext, Classical.choice, Quot.sound |
| Dal.C64_period | propext, Classical.choice, Quot.sound |
| Dal.C64_roundtrip | propext, Classical.choice, Quot.sound |
| Dal.C64_future | propext, Classical.choice, Quot.sound |
| Dal.C64_inverse | propext, Classical.choice, Quot.sound |
| Dal.C64_refused | propext |
| Dal.C65_split_partial | propext, Classical.choice, Quot.sound |
| Dal.C65_not_square_throws | propext, Classical.choice, Quot.sound |
| Dal.C65_correlations_bounded | propext, Classical.choice, Quot.sound |
| Dal.C65_small_variance_violated | propext, Classical.choice, Quot.sound |
| Dal.C66_future_codes | propext, Classical.choice, Quot.sound |
| Dal.C67_reads_iff | propext, Classical.choice, Quot.sound |
| Dal.C67_foreign | propext, Classical.choice, Quot.sound |
| Dal.C67_insensitive | propext, Classical.choice, Quot.sound |
| Dal.C67_roundtrip | propext, Classical.choice, Quot.sound |
| Dal.C67_print_injective | propext, Classical.choice, Quot.sound |
| Dal.C67_value | propext, Classical.choice, Quot.sound |
| Dal.C67_listed | propext, Classical.choice, Quot.sound |
| Dal.C67_register_keeps | propext |
| Dal.C67_register_new | propext, Classical.choice, Quot.sound |
| Dal.C67_register_refused | propext |
| Dal.C67_register_duplicate | propext, Classical.choice, Quot.sound |
| Dal.C67_register_partial_violated | propext, Classical.choice, Quot.sound |
| Dal.C67_ext_equal_violated | propext, Classical.choice, Quot.sound |
| Dal.C68_black_delta | propext, Classical.choice, Quot.sound |
| Dal.C68_black_vega | propext, Classical.choice, Quot.sound |
| Dal.C68_bachelier | propext, Classical.choice, Quot.sound |
| Dal.C68_bachelier_sign_violated | propext, Classical.choice, Quot.sound |
| Dal.C68_zero_vol_violated | propext, Classical.choice, Quot.sound |
| Dal.C69_maps | propext, Classical.choice, Quot.sound |
| Dal.C69_slope_range | propext, Classical.choice, Quot.sound |
| Dal.C69_refused | propext, Classical.choice, Quot.sound |
| Dal.C70_days | propext, Quot.sound |
| Dal.C70_months_partial | propext, Classical.choice, Quot.sound |
| Dal.C70_adjusted | propext, Classical.choice, Quot.sound |
| Dal.C70_ends_on_business_day | propext, Quot.sound |
| Dal.C70_business_days | propext, Classical.choice, Quot.sound |
| Dal.C70_parse | propext, Classical.choice, Quot.sound |
| Dal.C70_parse_special | propext, Classical.choice, Quot.sound |
| Dal.C70_parse_compound | propext, Classical.choice, Quot.sound |
| Dal.C70_compound | propext, Classical.choice, Quot.sound |
| Dal.C70_nominal_maturity | propext, Classical.choice, Quot.sound |
| Dal.C71_accepts_iff | propext, Classical.choice, Quot.sound |
| Dal.C71_text_means_centres | propext, Classical.choice, Quot.sound |
| Dal.C71_equal_iff | propext, Classical.choice, Quot.sound |
| Dal.C71_name_roundtrip | propext, Classical.choice, Quot.sound |
| Dal.C71_count_with_cache | propext, Classical.choice, Quot.sound |
| Dal.C71_spaced_name_violated | propext, Classical.choice, Quot.sound |
| Dal.C72_parameters_partial | propext, Classical.choice, Quot.sound |
| Dal.C72_fixing_not_last_violated | propext, Classical.choice, Quot.sound |
| Dal.C72_incomplete_last_ignored | propext, Classical.choice, Quot.sound |
| Dal.C72_periods | propext, Classical.choice, Quot.sound |
| Dal.C72_no_frequency_violated | propext, Classical.choice, Quot.sound |
| Dal.C72_defaults | propext, Classical.choice, Quot.sound |
| Dal.C72_short_date_violated | propext, Classical.choice, Quot.sound |
| Dal.C73_diagonal_multiply | propext, Classical.choice, Quot.sound |
| Dal.C73_diagonal_solve | propext, Classical.choice, Quot.sound |
| Dal.C73_diagonal_into_empty_violated | propext, Quot.sound |
| Dal.C73_diagonal_correlated | propext, Classical.choice, Quot.sound |
| Dal.C73_lower_solve_left | propext, Classical.choice, Quot.sound |
| Dal.C73_lower_solve_right | propext, Classical.choice, Quot.sound |
| Dal.C73_lower_multiply_right | propext, Classical.choice, Quot.sound |
| Dal.C73_lower_right_inverse | propext, Classical.choice, Quot.sound |
| Dal.C73_lower_multiply_left_partial | propext, Classical.choice, Quot.sound |
| Dal.C73_lower_left_violated | propext, Classical.choice, Quot.sound |
| Dal.C74_tables | propext, Quot.sound |
| Dal.C74_business_days | propext, Classical.choice, Quot.sound |
| Dal.C74_after_the_tables | propext, Classical.choice, Quot.sound |
| Dal.C74_init | propext, Classical.choice, Quot.sound |
| Dal.C74_half_initialised_violated | propext, Classical.choice, Quot.sound |
| Dal.C74_fact_history | propext |
| Dal.C74_register_all | propext, Classical.choice, Quot.sound |
| Dal.C74_other_currencies_violated | propext, Classical.choice, Quot.sound |
| Dal.C74_currencies_first | propext, Classical.choice, Quot.sound |
| Dal.C75_find_within_tolerance | propext, Classical.choice, Quot.sound |
| Dal.C75_find_ends | propext, Classical.choice, Quot.sound |
| Dal.C75_find_regular | propext, Classical.choice, Quot.sound |
| Dal.C75_gradient_affine | propext, Classical.choice, Quot.sound |
| Dal.C75_secant | propext, Classical.choice, Quot.sound |
| Dal.C75_accepted_step | propext, Classical.choice, Quot.sound |
| Dal.C75_step | propext, Classical.choice, Quot.sound |
| Dal.C75_find_affine | propext, Classical.choice, Quot.sound |
| Dal.C75_backtrack_fraction_partial | propext, Classical.choice, Quot.sound |
| Dal.C75_good_step_rejected_violated | propext, Classical.choice, Quot.sound |
| Dal.C75_gives_up_violated | propext, Classical.choice, Quot.sound |
| Dal.C75_assertion_violated | propext, Classical.choice, Quot.sound |
| Dal.C75_approximate_ends | propext, Classical.choice, Quot.sound |
| Dal.C75_approx_step | propext, Classical.choice, Quot.sound |
| Dal.C75_approximate_affine_partial | propext, Classical.choice, Quot.sound |
| Dal.C75_approximate_few_violated | propext, Classical.choice, Quot.sound |
| Dal.C75_approximate_affine_violated | propext, Classical.choice, Quot.sound |
| Dal.C76_bag_roundtrip | propext, Quot.sound |
| Dal.C76_bag_read | propext, Classical.choice, Quot.sound |
| Dal.C76_find | propext, Classical.choice, Quot.sound |
| Dal.C76_find_hidden | propext |
| Dal.C76_first_find_violated | propext |
| Dal.C76_audit | propext, Classical.choice, Quot.sound |
| Dal.C76_audit_violated | propext, Classical.choice, Quot.sound |
| Dal.C76_recall | propext, Classical.choice, Quot.sound |
| Dal.C76_audit_recall | propext, Classical.choice, Quot.sound |
| Dal.C77_flat_is_black_scholes | propext, Classical.choice, Quot.sound |
| Dal.C77_step_at_node | propext, Classical.choice, Quot.sound |
| Dal.C77_step_outside | propext, Classical.choice, Quot.sound |
| Dal.C77_dupire_mean | propext, Classical.choice, Quot.sound |
| Dal.C77_bs_mean | propext, Classical.choice, Quot.sound |
| Dal.C77_bs_gradient | propext, Classical.choice, Quot.sound |
| Dal.C77_same_values | propext, Classical.choice, Quot.sound |
| Dal.C77_dupire_gradient_partial | propext, Classical.choice, Quot.sound |
| Dal.C77_first_step_gradient | propext, Classical.choice, Quot.sound |
| Dal.C77_spot_derivative | propext, Classical.choice, Quot.sound |
| Dal.C77_spot_violated | propext, Classical.choice, Quot.sound |
| Dal.C77_vega_violated | propext, Classical.choice, Quot.sound |
| Dal.C77_scenario | propext, Classical.choice, Quot.sound |
| Dal.C77_forward_violated | propext, Classical.choice, Quot.sound |
| Dal.C77_no_forwards_violated | propext, Classical.choice, Quot.sound |
| Dal.C77_forwards | propext, Classical.choice, Quot.sound |
| Dal.C77_bs_fill | propext, Classical.choice, Quot.sound |
| Dal.C77_bs_scenario_any | propext, Classical.choice, Quot.sound |
| Dal.C77_bs_scenario | propext, Classical.choice, Quot.sound |
| Dal.C78_parameters | propext, Classical.choice, Quot.sound |
| Dal.C78_clone | propext, Classical.choice, Quot.sound |
| Dal.C78_write | propext, Classical.choice, Quot.sound |
| Dal.C78_create | propext, Classical.choice, Quot.sound |
| Dal.C78_slides_violated | none |
| Dal.C78_result | propext, Classical.choice, Quot.sound |
| Dal.C78_unknown_name_violated | propext |
| Dal.C78_copy_violated | propext |
| Dal.C78_risk | propext, Classical.choice, Quot.sound |
| Dal.C78_report | propext, Classical.choice, Quot.sound |
| Dal.C78_name_clash_violated | propext, Classical.choice, Quot.sound |
| Dal.C78_label_clash_violated | propext, Classical.choice, Quot.sound |
| Dal.C79_maturity | propext, Classical.choice, Quot.sound |
| Dal.C79_gap_violated | propext, Classical.choice, Quot.sound |
| Dal.C79_outside_violated | propext, Classical.choice, Quot.sound |
| Dal.C79_calibration | propext, Classical.choice, Quot.sound |
| Dal.C79_fresh_view | propext, Classical.choice, Quot.sound |
| Dal.C79_no_nodes_violated | propext, Classical.choice, Quot.sound |
| Dal.C79_bump | propext, Classical.choice, Quot.sound |
| Dal.C79_differences | propext, Classical.choice, Quot.sound |
| Dal.C79_total_variance | propext, Classical.choice, Quot.sound |
| Dal.C79_local_vol_partial | propext, Classical.choice, Quot.sound |
| Dal.C79_local_vol_violated | propext, Classical.choice, Quot.sound |
| Dal.C79_merton | propext, Classical.choice, Quot.sound |
| Dal.C79_no_jumps | propext, Classical.choice, Quot.sound |
| Dal.C79_forward_violated | propext, Classical.choice, Quot.sound |
| Dal.C80_expression | propext, Quot.sound |
| Dal.C80_condition | propext, Quot.sound |
| Dal.C80_evaluate | propext, Quot.sound |
| Dal.C80_chain | propext, Quot.sound |
| Dal.C80_deep_violated | propext, Quot.sound |
| Dal.C80_past_partial | propext, Quot.sound |
| Dal.C80_past_violated | propext, Classical.choice, Quot.sound |
| Dal.C81_int | propext, Classical.choice, Quot.sound |
| Dal.C81_single | propext, Classical.choice, Quot.sound |
| Dal.C81_kinds | propext, Classical.choice, Quot.sound |
| Dal.C81_cells | propext, Quot.sound |
| Dal.C81_optional | propext, Quot.sound |
| Dal.C81_vector | propext, Classical.choice, Quot.sound |
| Dal.C81_block | propext, Classical.choice, Quot.sound |
| Dal.C81_rectangle | propext, Classical.choice, Quot.sound |
| Dal.C81_matrix | propext, Classical.choice, Quot.sound |
| Dal.C81_extract | propext, Classical.choice, Quot.sound |
| Dal.C81_records | propext, Classical.choice, Quot.sound |
| Dal.C81_blank_record_violated | propext, Classical.choice, Quot.sound |
| Dal.C81_date | propext, Classical.choice, Quot.sound |
| Dal.C81_date_range_violated | propext, Classical.choice, Quot.sound |
| Dal.C81_missing_violated | propext, Classical.choice, Quot.sound |
| Dal.C81_dateTime_partial | propext, Classical.choice, Quot.sound |
| Dal.C81_dateTime_violated | propext, Classical.choice, Quot.sound |
| Dal.C81_dictionary | propext, Classical.choice, Quot.sound |
| Dal.C81_dictionary_read | propext, Classical.choice, Quot.sound |
| Dal.C81_defined | propext, Classical.choice, Quot.sound |
| Dal.C81_integer_cell_violated | propext, Classical.choice, Quot.sound |
| Dal.C82_rows | propext, Quot.sound |
| Dal.C82_layout | propext, Classical.choice, Quot.sound |
| Dal.C82_memory_partial | propext, Classical.choice, Quot.sound |
| Dal.C82_empty_vector_violated | propext, Classical.choice, Quot.sound |
| Dal.C82_vector_roundtrip | propext, Classical.choice, Quot.sound |
| Dal.C82_matrix_roundtrip | propext, Classical.choice, Quot.sound |
| Dal.C82_scalar_roundtrip | propext, Classical.choice, Quot.sound |
| Dal.C82_text_roundtrip | propext, Classical.choice, Quot.sound |
| Dal.C82_text_violated | propext, Classical.choice, Quot.sound |
| Dal.C82_date_roundtrip | propext, Classical.choice, Quot.sound |
| Dal.C82_dateTime_roundtrip_partial | propext, Classical.choice, Quot.sound |
| Dal.C82_number_roundtrip | propext, Classical.choice, Quot.sound |
| Dal.C82_blank_entry_violated | propext, Classical.choice, Quot.sound |
| Dal.C83_vector_arithmetic | propext, Classical.choice, Quot.sound |
| Dal.C83_vector_arithmetic_sizes_violated | propext, Classical.choice, Quot.sound |
| Dal.C83_scalar_arithmetic | propext, Quot.sound |
| Dal.C83_equal | propext, Classical.choice, Quot.sound |
| Dal.C83_xrange | propext, Classical.choice, Quot.sound |
| Dal.C83_xrange_none_violated | propext, Quot.sound |
| Dal.C83_unique | propext, Classical.choice, Quot.sound |
| Dal.C83_unique_order_violated | none |
| Dal.C83_is_monotonic | propext, Classical.choice, Quot.sound |
| Dal.C83_zip | propext, Classical.choice, Quot.sound |
| Dal.C83_zip_to_map | propext, Classical.choice, Quot.sound |
| Dal.C83_zip_to_map_twice_violated | propext, Quot.sound |
| Dal.C83_zip_to_multimap | propext, Classical.choice, Quot.sound |
| Dal.C83_nearest_int | propext, Classical.choice, Quot.sound |
| Dal.C83_as_int | propext, Classical.choice, Quot.sound |
| Dal.C83_as_int_difference | propext, Classical.choice, Quot.sound |
| Dal.C83_as_int_ends_violated | propext, Classical.choice, Quot.sound |
| Dal.C83_l1_normalized | propext, Classical.choice, Quot.sound |
| Dal.C83_l1_normalized_violated | propext, Classical.choice, Quot.sound |
| Dal.C83_l2_normalized | propext, Classical.choice, Quot.sound |
| Dal.C83_centralized | propext, Classical.choice, Quot.sound |
| Dal.C83_covariance | propext, Classical.choice, Quot.sound |
| Dal.C83_covariance_empty_violated | propext, Quot.sound |
| Dal.C83_variance | propext, Classical.choice, Quot.sound |
| Dal.C83_correlation | propext, Classical.choice, Quot.sound |
| Dal.C83_self_correlation_violated | propext, Classical.choice, Quot.sound |
| Dal.C84_notes | propext, Classical.choice, Quot.sound |
| Dal.C84_sound | propext, Classical.choice, Quot.sound |
| Dal.C84_temporary_violated | propext, Classical.choice, Quot.sound |
| Dal.C84_released | propext, Classical.choice, Quot.sound |
| Dal.C84_released_violated | propext, Classical.choice, Quot.sound |
| Dal.C84_plain | propext, Classical.choice, Quot.sound |
| Dal.C85_date_of_cell | propext, Classical.choice, Quot.sound |
| Dal.C85_forward_start | propext, Classical.choice, Quot.sound |
| Dal.C85_fixed_time_violated | propext, Classical.choice, Quot.sound |
| Dal.C85_discount_dates | propext, Classical.choice, Quot.sound |
| Dal.C85_names | propext, Classical.choice, Quot.sound |
| Dal.C85_no_name_violated | propext, Classical.choice, Quot.sound |
| Dal.C85_empty_maturity_violated | propext, Classical.choice, Quot.sound |
| Dal.C85_forward_names_partial | propext, Classical.choice, Quot.sound |
| Dal.C85_same_names_violated | propext, Classical.choice, Quot.sound |
| Dal.C85_collateral_violated | propext |
| Dal.C85_parse_violated | propext, Classical.choice, Quot.sound |
| Dal.C86_spline | propext, Classical.choice, Quot.sound |
| Dal.C86_precise | propext, Classical.choice, Quot.sound |
| Dal.C86_tail_violated | propext, Classical.choice, Quot.sound |
| Dal.C86_inverse_defined_partial | propext, Classical.choice, Quot.sound |
| Dal.C86_inverse_ends_violated | propext, Classical.choice, Quot.sound |
| Dal.C86_inverse_symmetric | propext, Classical.choice, Quot.sound |
| Dal.C86_inverse_increasing | propext, Classical.choice, Quot.sound |
| Dal.C86_polish_partial | propext, Classical.choice, Quot.sound |
| Dal.C87_debug | propext, Classical.choice, Quot.sound |
| Dal.C87_product | propext, Classical.choice, Quot.sound |
| Dal.C87_printed | propext, Classical.choice, Quot.sound |
| Dal.C87_determined_partial | propext, Classical.choice, Quot.sound |
| Dal.C87_digits_violated | propext, Classical.choice, Quot.sound |
| Dal.C88_roundtrip_partial | propext, Classical.choice, Quot.sound |
| Dal.C88_unambiguous | propext, Classical.choice, Quot.sound |
| Dal.C88_library | propext, Classical.choice, Quot.sound |
| Dal.C88_bool_violated | propext, Classical.choice, Quot.sound |
| Dal.C88_untagged_violated | none |
| Dal.C88_nonempty_violated | propext |
| Dal.C88_first_registered | propext, Classical.choice, Quot.sound |
| Dal.C88_register_violated | propext |
| Dal.C89_lines | propext, Quot.sound |
| Dal.C89_long_line_violated | propext, Quot.sound |
| Dal.C89_fields | propext, Classical.choice, Quot.sound |
| Dal.C89_table | propext, Classical.choice, Quot.sound |
| Dal.C89_roundtrip_partial | propext, Classical.choice, Quot.sound |
| Dal.C89_int_plain | propext, Classical.choice, Quot.sound |
| Dal.C89_values_partial | propext, Classical.choice, Quot.sound |
| Dal.C89_digits_text_violated | propext, Classical.choice, Quot.sound |
| Dal.C89_bool_text_violated | propext |
| Dal.C89_equals_violated | propext |
| Dal.C89_comma_violated | propext, Classical.choice, Quot.sound |
| Dal.C89_missing_violated | propext |
| Dal.C89_small_numbers_violated | propext, Classical.choice, Quot.sound |
| Dal.C90_values | propext, Classical.choice, Quot.sound |
| Dal.C90_roundtrip_partial | propext, Classical.choice, Quot.sound |
| Dal.C90_library | propext, Classical.choice, Quot.sound |
| Dal.C90_generators_violated | propext, Classical.choice, Quot.sound |
| Dal.C90_reports_violated | propext, Classical.choice, Quot.sound |
| Dal.C90_names_violated | propext, Classical.choice, Quot.sound |
| Dal.C91_past_fixing | propext, Classical.choice, Quot.sound |
| Dal.C91_fixing | propext, Classical.choice, Quot.sound |
| Dal.C91_no_access | propext, Classical.choice, Quot.sound |
| Dal.C91_quiet_violated | propext, Classical.choice, Quot.sound |
| Dal.C91_agrees_with_history | propext, Classical.choice, Quot.sound |
| Dal.C91_innermost | propext, Classical.choice, Quot.sound |
| Dal.C91_case | propext, Classical.choice, Quot.sound |
| Dal.C91_keys | propext, Classical.choice, Quot.sound |
| Dal.C91_zip | propext, Classical.choice, Quot.sound |
| Dal.C91_members | propext, Classical.choice, Quot.sound |
| Dal.C91_json_partial | propext, Classical.choice, Quot.sound |
| Dal.C91_subsecond_violated | propext, Classical.choice, Quot.sound |
| Dal.C91_decimals_violated | propext, Classical.choice, Quot.sound |
| Dal.C92_chart | propext, Classical.choice, Quot.sound |
| Dal.C92_written | propext, Classical.choice, Quot.sound |
| Dal.C92_range | propext, Classical.choice, Quot.sound |
| Dal.C92_labels_violated | propext, Classical.choice, Quot.sound |
| Dal.C92_long_violated | propext, Classical.choice, Quot.sound |
| Dal.C92_apart | propext, Classical.choice, Quot.sound |
| Dal.C92_start | propext, Classical.choice, Quot.sound |
| Dal.C92_matrix | propext, Classical.choice, Quot.sound |
| Dal.C92_row_labels_violated | propext, Classical.choice, Quot.sound |
| Dal.C92_plain | propext, Classical.choice, Quot.sound |
| Dal.C92_vector | propext, Classical.choice, Quot.sound |
| Dal.C92_lines | propext, Classical.choice, Quot.sound |
| Dal.C92_names_violated | propext, Classical.choice, Quot.sound |
| Dal.C92_data_name | propext, Classical.choice, Quot.sound |
| Dal.C93_int | propext, Classical.choice, Quot.sound |
| Dal.C93_kinds | propext, Quot.sound |
| Dal.C93_is_int | propext, Classical.choice, Quot.sound |
| Dal.C93_is_int_violated | propext, Classical.choice, Quot.sound |
| Dal.C93_convert | propext, Classical.choice, Quot.sound |
| Dal.C93_words_violated | propext, Classical.choice, Quot.sound |
| Dal.C93_settings | propext, Classical.choice, Quot.sound |
| Dal.C93_roundtrip | propext, Classical.choice, Quot.sound |
| Dal.C93_text_partial | propext, Classical.choice, Quot.sound |
| Dal.C93_text_violated | propext, Classical.choice, Quot.sound |
| Dal.C93_empty_violated | propext, Classical.choice, Quot.sound |
| Dal.C93_unlimited_violated | propext, Classical.choice, Quot.sound |
| Dal.C93_tries_violated | propext, Classical.choice, Quot.sound |
| Dal.C94_linear | propext, Classical.choice, Quot.sound |
| Dal.C94_linear_knots | propext, Classical.choice, Quot.sound |
| Dal.C94_linear_get | propext, Classical.choice, Quot.sound |
| Dal.C94_empty_violated | propext, Quot.sound |
| Dal.C94_smoothed_exact | propext, Classical.choice, Quot.sound |
| Dal.C94_smoothed_constant | propext, Classical.choice, Quot.sound |
| Dal.C94_smoothed_partial | propext, Classical.choice, Quot.sound |
| Dal.C94_smoothed_violated | propext, Classical.choice, Quot.sound |
| Dal.C94_cubic | propext, Classical.choice, Quot.sound |
| Dal.C94_cubic_get | propext, Classical.choice, Quot.sound |
| Dal.C94_cubic_knots | propext, Classical.choice, Quot.sound |
| Dal.C94_two_points_violated | propext, Classical.choice, Quot.sound |
| Dal.C94_grid | propext, Classical.choice, Quot.sound |
| Dal.C94_grid_get | propext, Classical.choice, Quot.sound |
| Dal.C94_grid_knots | propext, Classical.choice, Quot.sound |
| Dal.C94_grid_empty_violated | propext, Quot.sound |
| Dal.C95_rows | propext, Classical.choice, Quot.sound |
| Dal.C95_split | propext, Classical.choice, Quot.sound |
| Dal.C95_names | propext, Classical.choice, Quot.sound |
| Dal.C95_own_name_violated | propext, Classical.choice, Quot.sound |
| Dal.C95_seed_violated | propext, Classical.choice, Quot.sound |
| Dal.C95_zero_seed_violated | none |
| Dal.C95_clone | propext, Quot.sound |
| Dal.C95_clone_violated | propext, Classical.choice, Quot.sound |
| Dal.C95_precise_violated | propext, Classical.choice, Quot.sound |
| Dal.C95_branch_violated | propext, Quot.sound |
| Dal.C95_stored_violated | propext, Classical.choice, Quot.sound |
| Dal.C95_pure_violated | propext, Classical.choice, Quot.sound |
| Dal.C96_risk | propext, Classical.choice, Quot.sound |
| Dal.C96_table | propext, Classical.choice, Quot.sound |
| Dal.C96_lookup | propext, Classical.choice, Quot.sound |
| Dal.C96_plain | propext, Classical.choice, Quot.sound |
| Dal.C96_model | propext, Classical.choice, Quot.sound |
| Dal.C96_clash_violated | propext, Classical.choice, Quot.sound |
| Dal.C96_no_paths_violated | propext, Classical.choice, Quot.sound |
| Dal.C96_dates | propext, Classical.choice, Quot.sound |
| Dal.C96_product | propext, Classical.choice, Quot.sound |
| Dal.C96_sizes | propext, Classical.choice, Quot.sound |
| Dal.C96_serial_violated | propext, Classical.choice, Quot.sound |
| Dal.C96_text_dates_violated | propext, Classical.choice, Quot.sound |
| Dal.C96_blank_violated | propext, Classical.choice, Quot.sound |
| Dal.C96_debug | propext, Quot.sound |
| Dal.C97_black | propext, Classical.choice, Quot.sound |
| Dal.C97_black_small | propext, Classical.choice, Quot.sound |
| Dal.C97_black_certain | propext, Classical.choice, Quot.sound |
| Dal.C97_bachelier_partial | propext, Classical.choice, Quot.sound |
| Dal.C97_bachelier_tail_violated | propext, Classical.choice, Quot.sound |
| Dal.C97_bachelier_sign_violated | propext, Classical.choice, Quot.sound |
| Dal.C97_bs_law | propext, Classical.choice, Quot.sound |
| Dal.C97_bs | propext, Classical.choice, Quot.sound |
| Dal.C97_dupire_flat | propext, Classical.choice, Quot.sound |
| Dal.C97_script | propext, Classical.choice, Quot.sound |
| Dal.C98_black | propext, Classical.choice, Quot.sound |
| Dal.C98_unique | propext, Classical.choice, Quot.sound |
| Dal.C98_recovers | propext, Classical.choice, Quot.sound |
| Dal.C98_guess | propext, Classical.choice, Quot.sound |
| Dal.C98_refuses | propext, Classical.choice, Quot.sound |
| Dal.C98_far_violated | propext, Classical.choice, Quot.sound |
| Dal.C98_tolerance_violated | propext, Classical.choice, Quot.sound |
| Dal.C98_bachelier | propext, Classical.choice, Quot.sound |
| Dal.C98_bachelier_log | propext, Classical.choice, Quot.sound |
| Dal.C98_bachelier_guess_violated | propext, Classical.choice, Quot.sound |
| Dal.C98_bachelier_sign_violated | propext, Classical.choice, Quot.sound |
| Dal.C98_between | propext, Classical.choice, Quot.sound |
| Dal.C98_model | propext, Classical.choice, Quot.sound |
| Dal.C98_model_guess | propext, Classical.choice, Quot.sound |
| Dal.C98_scholes | propext, Classical.choice, Quot.sound |
| Dal.C98_vol_vega | propext, Classical.choice, Quot.sound |
| Dal.C98_derivatives | propext, Classical.choice, Quot.sound |
| Dal.C98_names_violated | propext, Classical.choice, Quot.sound |
| Dal.C99_values | propext, Classical.choice, Quot.sound |
| Dal.C99_gradient | propext, Classical.choice, Quot.sound |
| Dal.C100_date | propext, Classical.choice, Quot.sound |
| Dal.C100_greeks | propext, Classical.choice, Quot.sound |
| Dal.C100_script | propext, Classical.choice, Quot.sound |
| Dal.C100_digital_violated | propext, Classical.choice, Quot.sound |
| Dal.C101_gradient | propext, Classical.choice, Quot.sound |
| Dal.C101_digital | propext, Classical.choice, Quot.sound |
| Dal.C101_digital_narrow | propext, Classical.choice, Quot.sound |
| Dal.C102_put_partial | propext, Classical.choice, Quot.sound |
| Dal.C102_call_partial | propext, Classical.choice, Quot.sound |
| Dal.C102_greeks | propext, Classical.choice, Quot.sound |
| Dal.C102_unbiased | propext, Classical.choice, Quot.sound |
| Dal.C102_error_partial | propext, Classical.choice, Quot.sound |
| Dal.C102_confidence_partial | propext, Classical.choice, Quot.sound |
| Dal.C102_mrg | propext, Classical.choice, Quot.sound |
| Dal.C102_mrg_violated | propext, Classical.choice, Quot.sound |
| Dal.C102_irn | propext, Classical.choice, Quot.sound |
| Dal.C102_irn_one_thread | propext, Classical.choice, Quot.sound |
| Dal.C102_irn_violated | propext, Classical.choice, Quot.sound |
| Dal.C102_positions | propext, Classical.choice, Quot.sound |
| Dal.C103_law | propext, Classical.choice, Quot.sound |
| Dal.C103_mean | propext, Classical.choice, Quot.sound |
| Dal.C103_unbiased | propext, Classical.choice, Quot.sound |
| Dal.C103_error_one_task | propext, Classical.choice, Quot.sound |
| Dal.C103_option | propext, Classical.choice, Quot.sound |
| Dal.C104_risks | propext, Classical.choice, Quot.sound |
| Dal.C104_exact | propext, Classical.choice, Quot.sound |
| Dal.C104_constants | propext, Classical.choice, Quot.sound |
| Dal.C104_option | propext, Classical.choice, Quot.sound |
| Dal.C104_option_mean | propext, Classical.choice, Quot.sound |
| Dal.C104_strike_violated | propext, Classical.choice, Quot.sound |
| Dal.C104_today_violated | propext, Classical.choice, Quot.sound |
| Dal.C105_risks | propext, Classical.choice, Quot.sound |
| Dal.C105_exact | propext, Classical.choice, Quot.sound |
| Dal.C105_tasks | propext, Classical.choice, Quot.sound |
| Dal.C105_gradient | propext, Classical.choice, Quot.sound |
| Dal.C105_option | propext, Classical.choice, Quot.sound |
| Dal.C105_option_mean | propext, Classical.choice, Quot.sound |
| Dal.C105_option_compiled | propext, Classical.choice, Quot.sound |
| Dal.C105_copy_violated | propext, Classical.choice, Quot.sound |
| Dal.C105_refused | propext, Classical.choice, Quot.sound |
| Dal.C106_refused | propext, Classical.choice, Quot.sound |
| Dal.C106_report_refused | propext, Classical.choice, Quot.sound |
| Dal.C106_simulation | propext, Classical.choice, Quot.sound |
| Dal.C106_table | propext, Classical.choice, Quot.sound |
| Dal.C106_option | propext, Classical.choice, Quot.sound |
| Dal.C106_unbiased | propext, Classical.choice, Quot.sound |
| Dal.C107_call | propext, Classical.choice, Quot.sound |
| Dal.C107_black | propext, Classical.choice, Quot.sound |
| Dal.C107_price | propext, Classical.choice, Quot.sound |
| Dal.C107_error | propext, Classical.choice, Quot.sound |
| Dal.C107_smooth | propext, Classical.choice, Quot.sound |
| Dal.C107_crank | propext, Classical.choice, Quot.sound |
| Dal.C108_gram_partial | propext, Classical.choice, Quot.sound |
| Dal.C108_frame | propext, Quot.sound |
| Dal.C108_defined | propext, Classical.choice, Quot.sound |
| Dal.C108_solve_violated | propext, Classical.choice, Quot.sound |
| Dal.C108_dropped | propext, Quot.sound |
| Dal.C108_gram_violated | propext, Classical.choice, Quot.sound |
| Dal.C108_cancel_violated | propext, Classical.choice, Quot.sound |
| Dal.C109_columns | propext, Classical.choice, Quot.sound |
| Dal.C109_gradient | propext, Classical.choice, Quot.sound |
| Dal.C109_gradient_exact | propext, Classical.choice, Quot.sound |
| Dal.C109_single_violated | propext, Classical.choice, Quot.sound |
| Dal.C109_mixed_violated | propext, Classical.choice, Quot.sound |
| Dal.C109_columns_violated | propext, Classical.choice, Quot.sound |
| Dal.C109_scope_partial | none |
| Dal.C109_scope_violated | none |
| Dal.C110_price | propext, Classical.choice, Quot.sound |
| Dal.C110_report | propext, Classical.choice, Quot.sound |
| Dal.C110_made | propext, Classical.choice, Quot.sound |
| Dal.C110_exact | propext, Classical.choice, Quot.sound |
| Dal.C110_smooth | propext, Classical.choice, Quot.sound |
| Dal.C110_parity | propext, Classical.choice, Quot.sound |
| Dal.C110_between | propext, Classical.choice, Quot.sound |
| Dal.C110_worthless | propext, Classical.choice, Quot.sound |
| Dal.C110_twice_violated | propext, Classical.choice, Quot.sound |
| Dal.C111_no_events | propext, Classical.choice, Quot.sound |
| Dal.C111_barrier_made | propext, Classical.choice, Quot.sound |
| Dal.C111_barrier_partial | propext, Classical.choice, Quot.sound |
| Dal.C111_barrier_smooth | propext, Classical.choice, Quot.sound |
| Dal.C111_history_violated | propext, Classical.choice, Quot.sound |
| Dal.C111_dates | propext |
| Dal.C111_fresh | propext, Classical.choice, Quot.sound |
| Dal.C111_value_partial | propext, Classical.choice, Quot.sound |
| Dal.C111_blind | propext, Classical.choice, Quot.sound |
| Dal.C111_table | propext, Classical.choice, Quot.sound |
| Dal.C111_expired_partial | propext, Classical.choice, Quot.sound |
| Dal.C111_expired_violated | propext, Classical.choice, Quot.sound |
| Dal.C112_fields | propext, Classical.choice, Quot.sound |
| Dal.C112_value_partial | propext, Classical.choice, Quot.sound |
| Dal.C112_refused | propext, Classical.choice, Quot.sound |
| Dal.C112_refused_dates | propext, Classical.choice, Quot.sound |
| Dal.C112_missing_violated | propext, Classical.choice, Quot.sound |
| Dal.C112_missing_end_violated | propext, Classical.choice, Quot.sound |
| Dal.C112_outside_violated | propext, Classical.choice, Quot.sound |
| Dal.C112_missing_text_violated | propext, Classical.choice, Quot.sound |
| Dal.C112_extra_violated | propext, Classical.choice, Quot.sound |
| Dal.C112_late_violated | propext, Classical.choice, Quot.sound |
| Dal.C113_prepared | propext, Classical.choice, Quot.sound |
| Dal.C113_value | propext, Classical.choice, Quot.sound |
| Dal.C114_made | propext, Classical.choice, Quot.sound |
| Dal.C114_exact | propext, Classical.choice, Quot.sound |
| Dal.C114_smooth | propext, Classical.choice, Quot.sound |
| Dal.C114_average | propext, Classical.choice, Quot.sound |
| Dal.C114_far | propext, Classical.choice, Quot.sound |
| Dal.C114_report | propext, Classical.choice, Quot.sound |
| Dal.C115_absent | propext |
| Dal.C115_first | propext |
| Dal.C115_pieces | propext, Classical.choice, Quot.sound |
| Dal.C115_word | propext, Quot.sound |
| Dal.C115_letter | propext, Quot.sound |
| Dal.C115_macros_pieces | propext, Classical.choice, Quot.sound |
| Dal.C115_macros_absent | propext |
| Dal.C115_macros_word | propext, Quot.sound |
| Dal.C115_order_violated | propext, Classical.choice, Quot.sound |
| Dal.C115_inside_words_violated | propext, Classical.choice, Quot.sound |
| Dal.C115_barrier | propext, Classical.choice, Quot.sound |
| Dal.C115_barrier_value | propext, Classical.choice, Quot.sound |
| Dal.C115_snowball_period | propext, Classical.choice, Quot.sound |
| Dal.C115_snowball | propext, Classical.choice, Quot.sound |
| Dal.C115_snowball_value | propext, Classical.choice, Quot.sound |
| Dal.C116_simulation_violated | propext, Classical.choice, Quot.sound |
| Dal.C116_risks | propext, Classical.choice, Quot.sound |
| Dal.C116_spot_violated | propext, Classical.choice, Quot.sound |
| Dal.C116_simulation | propext, Classical.choice, Quot.sound |
| Dal.C116_table | propext, Classical.choice, Quot.sound |
| Dal.C116_gradient | propext, Classical.choice, Quot.sound |
| Dal.C116_seasoned | propext, Classical.choice, Quot.sound |
| Dal.C116_barrier | propext, Classical.choice, Quot.sound |
| Dal.C116_snowball | propext, Classical.choice, Quot.sound |
| Dal.C117_rows | propext, Classical.choice, Quot.sound |
| Dal.C117_simulation | propext, Classical.choice, Quot.sound |
| Dal.C117_benchmark | propext, Classical.choice, Quot.sound |
| Dal.C118_risks | propext, Classical.choice, Quot.sound |
| Dal.C118_exact | propext, Classical.choice, Quot.sound |
| Dal.C118_constants | propext, Classical.choice, Quot.sound |
| Dal.C118_script | propext, Classical.choice, Quot.sound |
| Dal.C118_barrier | propext, Classical.choice, Quot.sound |
| Dal.C119_simulation | propext, Classical.choice, Quot.sound |
| Dal.C119_exact | propext, Classical.choice, Quot.sound |
| Dal.C119_refused | propext, Classical.choice, Quot.sound |
| Dal.C119_script | propext, Classical.choice, Quot.sound |
| Dal.C119_barrier | propext, Classical.choice, Quot.sound |
| Dal.C120_rewind_partial | propext, Classical.choice, Quot.sound |
| Dal.C120_exact_partial | propext, Classical.choice, Quot.sound |
| Dal.C120_rewind_violated | propext, Classical.choice, Quot.sound |
| Dal.C120_example | propext, Classical.choice, Quot.sound |
| Dal.C120_put_violated | propext, Classical.choice, Quot.sound |
| Dal.C121_V1 | propext, Classical.choice, Quot.sound |
| Dal.C121_V3 | propext, Classical.choice, Quot.sound |
| Dal.C121_V5 | propext, Classical.choice, Quot.sound |
| Dal.C121_same_partial | propext, Classical.choice, Quot.sound |
| Dal.C121_product_partial | propext, Classical.choice, Quot.sound |
| Dal.C121_V2_violated | propext, Classical.choice, Quot.sound |
