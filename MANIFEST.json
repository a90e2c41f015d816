{
 "claims": [
  {
   "property": "C01",
   "status": "partial",
   "theorems": [
    "Dal.C01_ymd_of_every_date",
    "Dal.C01_ctor_roundtrip_partial",
    "Dal.C01_ctor_gap_is_one_day_early",
    "Dal.C01_violated",
    "Dal.C01_out_of_range_invalid",
    "Dal.C01_excel_roundtrip",
    "Dal.C01_rounding_immaterial"
   ],
   "note": "Year/Month/Day correct for all 65535 serials (and insensitive to rounding). The constructor is proved correct outside 2034-03-01..2100-02-28 and proved one day early inside (code defect in date.cpp:33)."
  },
  {
   "property": "C02",
   "status": "proved",
   "theorems": [
    "Dal.C02_order_is_calendar_order",
    "Dal.C02_ymd_determines_date",
    "Dal.C02_difference_counts_days",
    "Dal.C02_addDays",
    "Dal.C02_addDays_wraps"
   ],
   "note": "AddDays wraps modulo 2^16 outside the supported range (C02_addDays_wraps)."
  },
  {
   "property": "C03",
   "status": "proved",
   "theorems": [
    "Dal.C03_dayOfWeek",
    "Dal.C03_weekend"
   ],
   "note": ""
  },
  {
   "property": "C04",
   "status": "partial",
   "theorems": [
    "Dal.C04_daysInMonth_partial",
    "Dal.C04_violated",
    "Dal.C04_endOfMonth_partial",
    "Dal.C04_endOfMonth_violated"
   ],
   "note": "False for Feb 2034, Feb 2100, June 2149 on; proved elsewhere."
  },
  {
   "property": "C05",
   "status": "partial",
   "theorems": [
    "Dal.C05_addMonths_partial",
    "Dal.C05_violated"
   ],
   "note": "False when the target month is in the constructor's bad window; proved elsewhere."
  },
  {
   "property": "C06",
   "status": "partial",
   "theorems": [
    "Dal.C06_text_reads_as_ctor",
    "Dal.C06_roundtrip_partial",
    "Dal.C06_violated",
    "Dal.C06_us_format",
    "Dal.C06_rejects"
   ],
   "note": "Round trip proved outside the constructor's bad window, and proved one day early inside it (C06_violated)."
  },
  {
   "property": "C07",
   "status": "partial",
   "theorems": [
    "Dal.C07_order_and_difference_partial",
    "Dal.C07_violated",
    "Dal.C07_add",
    "Dal.C07_hms_roundtrip",
    "Dal.C07_msec_roundtrip"
   ],
   "note": "Fractions are exact rationals. Order and difference proved for times of day in [0,1); the constructor accepts negative fractions, for which the order is wrong (C07_violated)."
  },
  {
   "property": "C08",
   "status": "partial",
   "theorems": [
    "Dal.C08_imm_is_third_wednesday",
    "Dal.C08_cds_forward_partial",
    "Dal.C08_cds_backward_partial",
    "Dal.C08_cds_violated",
    "Dal.C08_imm_monthly",
    "Dal.C08_imm_quarterly_partial",
    "Dal.C08_imm_quarterly_violated",
    "Dal.C08_eom_backward",
    "Dal.C08_eom_forward_violated"
   ],
   "note": "Monthly IMM fully proved; CDS and quarterly IMM only from a quarter month (or past the day), the code stops in non-quarter months otherwise (C08_cds_violated, C08_imm_quarterly_violated); EOM forward does not move from a month end (C08_eom_forward_violated). Dates near the constructor's bad window excluded."
  },
  {
   "property": "C09",
   "status": "proved",
   "theorems": [
    "Dal.C09_isBus_iff",
    "Dal.C09_count_is_number_of_business_days",
    "Dal.C09_count_additive"
   ],
   "note": "Calendars are any list of registered centres; holiday lists strictly ascending as AddCenter enforces."
  },
  {
   "property": "C10",
   "status": "proved",
   "theorems": [
    "Dal.C10_nextBus_least",
    "Dal.C10_prevBus_greatest",
    "Dal.C10_idempotent",
    "Dal.C10_terminates_iff"
   ],
   "note": "Includes the exact condition under which the search terminates."
  },
  {
   "property": "C11",
   "status": "proved",
   "theorems": [
    "Dal.C11_steps_invert",
    "Dal.C11_libor_fix_start",
    "Dal.C11_not_inverse_off_business_days",
    "Dal.C11_libor_business_days"
   ],
   "note": "Inverse on business days; C11_not_inverse_off_business_days shows the restriction is needed."
  },
  {
   "property": "C12",
   "status": "partial",
   "theorems": [
    "Dal.C12_sequential_registration_partial",
    "Dal.C12_no_corruption",
    "Dal.C12_lost_update"
   ],
   "note": "Sequential registration proved; C12_lost_update exhibits an interleaving of two AddCenter calls that loses one centre, so the full claim is false."
  },
  {
   "property": "C13",
   "status": "partial",
   "theorems": [
    "Dal.C13_forward_partial",
    "Dal.C13_backward_partial",
    "Dal.C13_day_tenors_advance",
    "Dal.C13_month_tenors_advance",
    "Dal.C13_eom_does_not_terminate",
    "Dal.C13_makeSchedule"
   ],
   "note": "Termination, order and end points proved for every tenor that moves strictly; day/week/month tenors shown to; the EOM tenor makes generation run for ever (C13_eom_does_not_terminate)."
  },
  {
   "property": "C14",
   "status": "partial",
   "theorems": [
    "Dal.C14_act_fixed",
    "Dal.C14_actAct_is_daily_sum_partial",
    "Dal.C14_actAct_additive_partial",
    "Dal.C14_actAct_violated",
    "Dal.C14_actAct_not_antisymmetric",
    "Dal.C14_act365L_does_not_terminate",
    "Dal.C14_act365L_partial",
    "Dal.C14_bond_partial",
    "Dal.C14_bond_whole_months",
    "Dal.C14_bond_violated",
    "Dal.C14_act365L_year_partial",
    "Dal.C14_act365L_year_violated"
   ],
   "note": "ACT/360 and ACT/365F proved; ACT/ACT proved equal to the per-day sum outside the constructor's bad window; counterexamples: infinite recursion (C14_actAct_violated), no antisymmetry across years, ACT/365L search that does not return, 30/360 days not capped."
  },
  {
   "property": "C15",
   "status": "partial",
   "theorems": [
    "Dal.C15_eq_iff_fold",
    "Dal.C15_eq_ascii_partial",
    "Dal.C15_high_bytes_conflated",
    "Dal.C15_eq_equivalence",
    "Dal.C15_lt_total",
    "Dal.C15_lt_trans",
    "Dal.C15_lt_congr",
    "Dal.C15_map_keys_distinct",
    "Dal.C15_map_find_insert"
   ],
   "note": "Equality, order, and map-key uniqueness proved for all byte strings and for signed or unsigned char. Full claim (ASCII case only) fails for bytes above 127: 0xC1 and 0xE1 compare equal (C15_high_bytes_conflated); the exact relation is C15_eq_iff_fold."
  },
  {
   "property": "C16",
   "status": "proved",
   "theorems": [
    "Dal.C16_idempotent",
    "Dal.C16_condensed_spec",
    "Dal.C16_equivalent_iff",
    "Dal.C16_equivalent_condensed"
   ],
   "note": "Proved for all ASCII strings (toupper and the bitset index are undefined for negative char)."
  },
  {
   "property": "C17",
   "status": "proved",
   "theorems": [
    "Dal.C17_never_repeats",
    "Dal.C17_keeps_prefix"
   ],
   "note": "Proved for every byte string and every pair of step numbers, with case-insensitive comparison."
  },
  {
   "property": "C18",
   "status": "proved",
   "theorems": [
    "Dal.C18_join_spec",
    "Dal.C18_join_skip",
    "Dal.C18_split_join",
    "Dal.C18_split_join_trailing",
    "Dal.C18_split_join_drop",
    "Dal.C18_join_split"
   ],
   "note": "Proved for every alphabet, separator and piece list."
  },
  {
   "property": "C19",
   "status": "proved",
   "theorems": [
    "Dal.C19_roundtrip",
    "Dal.C19_comma_list",
    "Dal.C19_word_iff"
   ],
   "note": "Proved for all boolean vectors, and for comma separated words."
  },
  {
   "property": "C20",
   "status": "partial",
   "theorems": [
    "Dal.C20_lookup_after_insert",
    "Dal.C20_duplicate_rejected",
    "Dal.C20_text_roundtrip",
    "Dal.C20_int_survives",
    "Dal.C20_large_number_violated",
    "Dal.C20_date_survives_partial",
    "Dal.C20_date_violated",
    "Dal.C20_dateTime_survives_partial",
    "Dal.C20_string_survives_iff",
    "Dal.C20_bool_violated",
    "Dal.C20_blank_violated"
   ],
   "note": "Round trip reduces to survival of each value; survival decided for integers, dates, date-times, strings; booleans, blanks, numbers of 2147483647 or more, and strings that look like numbers/dates do not survive."
  },
  {
   "property": "C21",
   "status": "proved",
   "theorems": [
    "Dal.C21_iterate",
    "Dal.C21_collect",
    "Dal.C21_find",
    "Dal.C21_scoping"
   ],
   "note": "Iterators, Collect, Find and ENV_ADD/ENV_SEED blocks with exceptions modelled; environments are immutable while reachable so pointers are modelled by their targets."
  },
  {
   "property": "C22",
   "status": "partial",
   "theorems": [
    "Dal.C22_erase_by_start",
    "Dal.C22_invariant",
    "Dal.C22_add_then_fetch",
    "Dal.C22_add_erases_exactly_partial",
    "Dal.C22_tilde_violated",
    "Dal.C22_add_entries",
    "Dal.C22_erase_pattern",
    "Dal.C22_erase_object",
    "Dal.C22_find",
    "Dal.C22_concurrent_violated",
    "Dal.C22_store_get_set"
   ],
   "note": "Proved for names without '~'; a name containing '~' is erased by adding a prefix of it (C22_tilde_violated), and concurrent adds can leave duplicates (C22_concurrent_violated). Live objects are assumed to have distinct address texts; the regular expression is an arbitrary predicate on tags."
  },
  {
   "property": "C23",
   "status": "proved",
   "theorems": [
    "Dal.C23_overrides",
    "Dal.C23_restored",
    "Dal.C23_move_assign_violated"
   ],
   "note": "Holds for block-structured overrides including exceptions; move assignment onto a live override loses the saved date (C23_move_assign_violated)."
  },
  {
   "property": "C24",
   "status": "proved",
   "theorems": [
    "Dal.C24_store",
    "Dal.C24_always_chronological",
    "Dal.C24_find"
   ],
   "note": "The map of date-times and the store by index name are modelled; the store itself must have been installed (nothing in the library installs one)."
  },
  {
   "property": "C25",
   "status": "partial",
   "theorems": [
    "Dal.C25_splat_defined",
    "Dal.C25_roundtrip_partial",
    "Dal.C25_empty_value_violated",
    "Dal.C25_last_empty_value_violated",
    "Dal.C25_one_column_violated",
    "Dal.C25_blank_entry_violated",
    "Dal.C25_memberless_violated"
   ],
   "note": "Round trip proved for trees whose values are non-empty and whose vectors have no blank entries and whose matrices have at least two columns or are not last; each excluded case is shown to lose data or read/write out of bounds."
  },
  {
   "property": "C26",
   "status": "partial",
   "theorems": [
    "Dal.C26_number_survives_iff",
    "Dal.C26_number_error",
    "Dal.C26_int_violated",
    "Dal.C26_string_roundtrip_partial",
    "Dal.C26_string_violated",
    "Dal.C26_string_survives_iff",
    "Dal.C26_escape_violated",
    "Dal.C26_bool_roundtrip",
    "Dal.C26_date_roundtrip_partial",
    "Dal.C26_array",
    "Dal.C26_vectors_partial",
    "Dal.C26_int_vector_violated",
    "Dal.C26_matrix",
    "Dal.C26_number_matrix",
    "Dal.C26_cell_violated"
   ],
   "note": "Strings without quotes, backslashes or control characters, booleans, dates outside the constructor's bad window, numbers with at most six decimals, and vectors and matrices of them survive. Integers never survive (proved for all integers); quotes, backslashes, blank cells and date-like strings change."
  },
  {
   "property": "C27",
   "status": "proved",
   "theorems": [
    "Dal.C27_expression",
    "Dal.C27_event",
    "Dal.C27_unambiguous",
    "Dal.C27_unambiguous_event",
    "Dal.C27_stops",
    "Dal.C27_minimal_parentheses",
    "Dal.C27_all_parentheses",
    "Dal.C27_tokens",
    "Dal.C27_leftover_violated",
    "Dal.C27_parenthesis_comparison_violated",
    "Dal.C27_unfinished_if_violated",
    "Dal.C27_caret_violated",
    "Dal.C27_trailing_comma_violated"
   ],
   "note": "Tokenizer and recursive-descent parser of events modelled on token lists (script/parser.cpp, parser.hpp); every derivation of an independent grammar (four expression levels, conditions, statements, IF blocks) parses to its tree; unambiguity, termination on all inputs, minimal and full parenthesisation round trips and token round trip proved. DCF(...) and ToDouble are parameters. Found: leftovers in parentheses dropped, comparisons starting with a parenthesis refused, reading past the end for an unfinished IF, caret accepted as a name, trailing comma accepted."
  },
  {
   "property": "C28",
   "status": "proved",
   "theorems": [
    "Dal.C28_slots",
    "Dal.C28_slots_distinct",
    "Dal.C28_names_nodup",
    "Dal.C28_constant_values",
    "Dal.C28_payoff"
   ],
   "note": "VarIndexer_ as a map over events; the result is the program renamed by one function of names, with reported names in slot order. Names are compared with decidable equality (String_ equality is case-insensitive)."
  },
  {
   "property": "C29",
   "status": "partial",
   "theorems": [
    "Dal.C29_compiled_eq_interpreted_partial",
    "Dal.C29_no_else_partial",
    "Dal.C29_after_else_violated",
    "Dal.C29_deep_condition_violated",
    "Dal.C29_folded_violated"
   ],
   "note": "Streams with positions, constant indices, jump targets and the room of both stacks (128). Proved when no condition is tested after a taken IF..ELSE in the same event, no folded >= constant lies in (-EPSILON,0) and no expression or condition needs more than 128 cells; all three exceptions are proved to break the claim. Derivatives are not modelled here."
  },
  {
   "property": "C30",
   "status": "proved",
   "theorems": [
    "Dal.C30_marks_sound",
    "Dal.C30_varying_not_marked",
    "Dal.C30_marks_inert"
   ],
   "note": "Every marked expression reached by any execution has the marked value. Parsed products carry no marks before (FreshSs)."
  },
  {
   "property": "C31",
   "status": "partial",
   "theorems": [
    "Dal.C31_recorded_iff_written",
    "Dal.C31_complete_partial",
    "Dal.C31_max_nesting",
    "Dal.C31_constant_target_violated"
   ],
   "note": "Exact recorded sets proved for all products; completeness with respect to execution for scripts that do not assign to constant names (violation proved)."
  },
  {
   "property": "C32",
   "status": "partial",
   "theorems": [
    "Dal.C32_add_total",
    "Dal.C32_union",
    "Dal.C32_expression_partial",
    "Dal.C32_condition_partial",
    "Dal.C32_event_partial",
    "Dal.C32_product_partial",
    "Dal.C32_initial",
    "Dal.C32_discrete_bounds",
    "Dal.C32_log_violated",
    "Dal.C32_max_violated",
    "Dal.C32_expression_total",
    "Dal.C32_condition_total",
    "Dal.C32_statement_total",
    "Dal.C32_statements_total",
    "Dal.C32_total",
    "Dal.C32_divisor_violated"
   ],
   "note": "Interval arithmetic over an ordered field with infinite bounds, the set of intervals, the processor for expressions, conditions and statements. Proved: AddInterval terminates and is exact union; values stay in domains and marks are right on every run (past and simulated events), so removal of decided conditions preserves products; discrete bounds enclose no reachable value; the analysis never throws if divisors are numbers, constants or the spot (C32_total). Partial because the code is unsound for negative logarithms and for MAX/MIN with more than two arguments, and throws on a divisor that is zero for certain (violations proved)."
  },
  {
   "property": "C33",
   "status": "proved",
   "theorems": [
    "Dal.C33_removal_preserves",
    "Dal.C33_product",
    "Dal.C33_removal_complete",
    "Dal.C33_unmarked_condition"
   ],
   "note": "Marks right along the execution imply the processed event gives the same variables (any nesting, whole products); no marked condition is left. Truthfulness of the marks is C32."
  },
  {
   "property": "C34",
   "status": "partial",
   "theorems": [
    "Dal.C34_degree_range",
    "Dal.C34_degree_defined_partial",
    "Dal.C34_connectives",
    "Dal.C34_sharp_outside_bands_partial",
    "Dal.C34_blend",
    "Dal.C34_negation_violated",
    "Dal.C34_zero_width_violated"
   ],
   "note": "Range, connectives, blending (store-based evaluator refines the store-free average semantics) for all scripts; sharp equality and definedness for negation-free conditions. Violated: NOT (and !=) pops an empty Boolean stack (undefined behaviour); width 0 gives 0/0 at a tie."
  },
  {
   "property": "C35",
   "status": "proved",
   "theorems": [
    "Dal.C35_date_order",
    "Dal.C35_texts",
    "Dal.C35_same_date_order",
    "Dal.C35_order_irrelevant",
    "Dal.C35_macros_first"
   ],
   "note": "All rows, macros, schedules. Regular expressions, schedule reading and the parser are parameters."
  },
  {
   "property": "C36",
   "status": "proved",
   "theorems": [
    "Dal.C36_fifo",
    "Dal.C36_delivered",
    "Dal.C36_once",
    "Dal.C36_interrupt_wakes",
    "Dal.C36_interrupt_returns",
    "Dal.C36_no_lost_wakeup",
    "Dal.C36_no_deadlock",
    "Dal.C36_pop_gets",
    "Dal.C36_interrupt_hides_violated",
    "Dal.C36_clear_reset",
    "Dal.C36_each_call_answered"
   ],
   "note": "Step semantics with one action per critical section and per notification, any number of threads, any interleaving, spurious wake-ups included. ResetInterrupt and Clear take no lock and are not part of concurrent runs."
  },
  {
   "property": "C37",
   "status": "partial",
   "theorems": [
    "Dal.C37_started_once",
    "Dal.C37_done_once",
    "Dal.C37_returned_ready",
    "Dal.C37_terminates",
    "Dal.C37_no_deadlock",
    "Dal.C37_wait_ends",
    "Dal.C37_thread_numbers_partial",
    "Dal.C37_two_clients_violated",
    "Dal.C37_start",
    "Dal.C37_unknown_hardware_violated"
   ],
   "note": "Step semantics over queue operations; tasks are leaf tasks that end. At most once, FIFO start, no deadlock, bounded runs, wait ends. Thread numbers distinct only for one client (partial; two clients share number 0, proved). The unsynchronised flag interrupt_ (a data race in the C++ sense) is outside the model."
  },
  {
   "property": "C38",
   "status": "proved",
   "theorems": [
    "Dal.C38_cover",
    "Dal.C38_within",
    "Dal.C38_capacity",
    "Dal.C38_value",
    "Dal.C38_any_schedule",
    "Dal.C38_no_paths_violated",
    "Dal.C38_few_paths_violated"
   ],
   "note": "Loop, batch size, casts and reservation modelled exactly (int overflow undefined, casts modulo 2^32); sums in a commutative monoid instead of doubles. Below 2^31-1 paths everything holds; beyond, paths are lost (proved)."
  },
  {
   "property": "C39",
   "status": "partial",
   "theorems": [
    "Dal.C39_irn",
    "Dal.C39_irn_lagged",
    "Dal.C39_table",
    "Dal.C39_mrg",
    "Dal.C39_mrg_exact",
    "Dal.C39_rounding_harmless",
    "Dal.C39_fill_uniform_partial",
    "Dal.C39_longer_vector_violated"
   ],
   "note": "Both generators, from every seed, after every number of draws, keep within their tables and give numbers strictly inside (0,1); before shuffling the first is the lagged sequence with lags 55 and 31; intermediate values are exact in doubles and the one rounded division truncates to the same integer. FillUniform with antithetics: for vectors of one size; a longer vector after a shorter one gives exactly 1 (violation proved)."
  },
  {
   "property": "C40",
   "status": "partial",
   "theorems": [
    "Dal.C40_mrg_half_partial",
    "Dal.C40_mrg_continue_partial",
    "Dal.C40_mrg_uniform_even_partial",
    "Dal.C40_mrg_reuses_paths_violated",
    "Dal.C40_mrg_not_the_path_violated",
    "Dal.C40_irn_violated"
   ],
   "note": "SkipTo of MRG32k32a is proved to be the state after floor(n*NDim/2) draws (matrix powers modulo m, wraparound included): right for an even number of FillUniform calls, wrong for FillNormal, which the simulation uses, so batches reuse paths (violations proved). SkipTo of ShuffledIRN does nothing and never equals the skipped state unless the number of draws is a multiple of 55."
  },
  {
   "property": "C41",
   "status": "proved",
   "theorems": [
    "Dal.C41_construction",
    "Dal.C41_each_once",
    "Dal.C41_no_dimension_violated",
    "Dal.C41_sum_of_squares",
    "Dal.C41_linear",
    "Dal.C41_own_times"
   ],
   "note": "Construction proved in range for every size, each point once and between built neighbours; the transform is linear and preserves the sum of squares for arbitrary increasing times, with the square root as a parameter. Doubles are an ordered field. Zero dimensions index out of range."
  },
  {
   "property": "C42",
   "status": "partial",
   "theorems": [
    "Dal.C42_stays",
    "Dal.C42_rewind_to_mark",
    "Dal.C42_iteration_partial",
    "Dal.C42_iteration_full_violated",
    "Dal.C42_full_block_violated",
    "Dal.C42_find",
    "Dal.C42_too_long_violated",
    "Dal.C42_clear_mark_violated"
   ],
   "note": "Allocation, marks and rewinding of the block list are proved for every sequence of operations: earlier storage never moves, rewinding to the mark restores it. Going from Begin to End is right unless the last block is exactly full, where it leaves the list (proved); Clear leaves the mark dangling (proved)."
  },
  {
   "property": "C43",
   "status": "partial",
   "theorems": [
    "Dal.C43_gradient",
    "Dal.C43_gradient_exact",
    "Dal.C43_paths_accumulate",
    "Dal.C43_cutoff_violated",
    "Dal.C43_max_tie_violated",
    "Dal.C43_result_before_mark_violated"
   ],
   "note": "For every recorded program at regular points the adjoints are the partial derivatives, exactly without the cutoff and within eps times the sum of absolute derivatives with it; paths accumulate from a mark. Violated: derivatives lost to the cutoff, ties of max, results recorded before the mark. Reals stand for doubles; the multi-result mode is not modelled."
  },
  {
   "property": "C44",
   "status": "partial",
   "theorems": [
    "Dal.C44_observe",
    "Dal.C44_new",
    "Dal.C44_lifo",
    "Dal.C44_copy_move",
    "Dal.C44_top_and_pop_violated",
    "Dal.C44_push_after_clear_violated",
    "Dal.C44_assign_cleared_violated",
    "Dal.C44_static",
    "Dal.C44_static_overflow_violated"
   ],
   "note": "Refinement to a list for pushes, pops, resets, copies, moves and assignments across growth, for both stacks. Violated: TopAndPop of the growable stack reads above the top; pushing after Clear or a move writes through null."
  },
  {
   "property": "C45",
   "status": "partial",
   "theorems": [
    "Dal.C45_multiply",
    "Dal.C45_set",
    "Dal.C45_solve_then_multiply",
    "Dal.C45_multiply_then_solve",
    "Dal.C45_dominant_decomposes",
    "Dal.C45_zero_pivot_refused",
    "Dal.C45_multiply_in_place_violated"
   ],
   "note": "Multiplication, writing and solving are proved for every size over an ordered field; solving inverts multiplication whenever the decomposition succeeds, which diagonal dominance guarantees; a vanishing pivot is refused. The matrix' own multiplication is wrong when source and result are the same vector (proved)."
  },
  {
   "property": "C46",
   "status": "partial",
   "theorems": [
    "Dal.C46_multiply",
    "Dal.C46_write",
    "Dal.C46_lower_solve",
    "Dal.C46_lower_solve_succeeds",
    "Dal.C46_transposed_solve_violated",
    "Dal.C46_transposed_residual_partial",
    "Dal.C46_transposed_solve_partial",
    "Dal.C46_symmetric_check_violated",
    "Dal.C46_decomposition_fails_violated",
    "Dal.C46_never_decomposed_violated",
    "Dal.C46_accumulator_right_violated"
   ],
   "note": "Multiplication, writing and the lower triangular solve of banded matrices are proved for every size and band; the transposed solve only for diagonal ones (in general, its inner loop while it stays inside). Violated: no banded matrix with elements above and below is ever decomposed, the symmetry check and the transposed solve read outside, the accumulator's right solve is its left solve. Accumulator Add and QForm are not modelled."
  },
  {
   "property": "C47",
   "status": "partial",
   "theorems": [
    "Dal.C47_correlated_linear",
    "Dal.C47_covariance",
    "Dal.C47_multiply_solve",
    "Dal.C47_solve_multiply",
    "Dal.C47_solve_into_empty_violated",
    "Dal.C47_factor_partial",
    "Dal.C47_operator",
    "Dal.C47_zero_variance_violated"
   ],
   "note": "Solve and multiply are inverse to each other and the covariance of correlated samples is the multiplied operator, for every decomposition with nonzero diagonal. Without regularisation the operator of a positive definite matrix is that matrix (C47_factor_partial: the code always regularises); with regularisation the difference is given exactly. Ordered field with a square root. In place and out of place agree with the same statement."
  },
  {
   "property": "C48",
   "status": "partial",
   "theorems": [
    "Dal.C48_accepted",
    "Dal.C48_nodes",
    "Dal.C48_line",
    "Dal.C48_between",
    "Dal.C48_flat",
    "Dal.C48_monotone",
    "Dal.C48_antitone",
    "Dal.C48_repeated_violated",
    "Dal.C48_empty_violated",
    "Dal.C48_nodes2",
    "Dal.C48_between2",
    "Dal.C48_flat2",
    "Dal.C48_bilinear",
    "Dal.C48_monotone2_x",
    "Dal.C48_monotone2_y"
   ],
   "note": "One and two dimensions, halving search included, every accepted node set over an ordered field. Of repeated nodes, which the constructor accepts, only the first (in rows: the last) is reproduced, and no data at all are accepted but cannot be evaluated (both proved). Derivatives of the AAD version are not modelled."
  },
  {
   "property": "C49",
   "status": "proved",
   "theorems": [
    "Dal.C49_spline",
    "Dal.C49_accepted",
    "Dal.C49_bounds",
    "Dal.C49_natural"
   ],
   "note": "Over the reals, for every accepted node set and boundary condition of order 1, 2 or 3: values, differentiability twice with continuous curvature on the whole line, boundary conditions; and which inputs are accepted."
  },
  {
   "property": "C50",
   "status": "partial",
   "theorems": [
    "Dal.C50_minimal_partial",
    "Dal.C50_zero_penalty",
    "Dal.C50_constant",
    "Dal.C50_first_pair_violated",
    "Dal.C50_two_points_violated",
    "Dal.C50_zero_weight_violated"
   ],
   "note": "For every data set with positive weights over an ordered field: zero penalty and constant data as claimed; the values minimise the penalised sum of squares with the penalties the code uses, which are shifted by one pair. That the first pair is coupled is false (proved for every input, and with a witness of a smaller sum)."
  },
  {
   "property": "C51",
   "status": "proved",
   "theorems": [
    "Dal.C51_start",
    "Dal.C51_step",
    "Dal.C51_search",
    "Dal.C51_root",
    "Dal.C51_defined",
    "Dal.C51_both_zero_violated",
    "Dal.C51_hunt",
    "Dal.C51_hunt_accepted",
    "Dal.C51_converged"
   ],
   "note": "Every function over an ordered field, every number of steps: bracketing, nesting, halving under bisection, the hunt phase and the test of convergence; roots by the intermediate value theorem over the reals. Where the function vanishes at both ends the next place is 0/0 (proved)."
  },
  {
   "property": "C52",
   "status": "partial",
   "theorems": [
    "Dal.C52_new",
    "Dal.C52_rank_zero_violated",
    "Dal.C52_inside",
    "Dal.C52_distinct",
    "Dal.C52_goto",
    "Dal.C52_slice",
    "Dal.C52_resize_partial",
    "Dal.C52_origin_violated",
    "Dal.C52_grow_violated",
    "Dal.C52_empty_cube_violated",
    "Dal.C52_zero_size_violated",
    "Dal.C52_rank"
   ],
   "note": "Addressing, distinctness of elements, slices and access by three numbers are proved for every rank, shape and index. Resizing is proved only for shapes that need no more storage than before and for elements other than the one at the origin; the origin is lost by every resizing, growing leaves the storage at its old size, a shape with a zero size reads outside the storage and rank zero reads the first of no strides: these are proved as violations."
  },
  {
   "property": "C53",
   "status": "partial",
   "theorems": [
    "Dal.C53_cg",
    "Dal.C53_bcg",
    "Dal.C53_exact_guess_violated",
    "Dal.C53_exact_guess_bcg_violated",
    "Dal.C53_bcg_symmetric",
    "Dal.C53_defined",
    "Dal.C53_terminates"
   ],
   "note": "Every linear matrix, preconditioner, right-hand side, tolerance and number of iterations: what is returned has the residual asked for; for symmetric positive definite matrices and preconditioners as many iterations as rows are enough. The clause on an exact initial guess fails: it divides zero by zero, for every matrix (proved as a violation)."
  },
  {
   "property": "C54",
   "status": "partial",
   "theorems": [
    "Dal.C54_new",
    "Dal.C54_refused",
    "Dal.C54_sizes",
    "Dal.C54_setLoc",
    "Dal.C54_read",
    "Dal.C54_write",
    "Dal.C54_setAll",
    "Dal.C54_store",
    "Dal.C54_alias_violated",
    "Dal.C54_truncated_violated",
    "Dal.C54_same_name_violated"
   ],
   "note": "Proved for every shape, every valid address and every extension of the axes: reading what was written, leaving all else alone, one report value per cell. An address with an invalid location past the first axis reads another cell, a refused address truncates rows, and a repeated axis name makes setting by name write outside (proved as violations)."
  },
  {
   "property": "C55",
   "status": "proved",
   "theorems": [
    "Dal.C55_constant_value",
    "Dal.C55_constant_integral",
    "Dal.C55_constant_adds",
    "Dal.C55_linear_day",
    "Dal.C55_linear_knots",
    "Dal.C55_linear_between",
    "Dal.C55_positive",
    "Dal.C55_compose",
    "Dal.C55_decreasing",
    "Dal.C55_shift",
    "Dal.C55_empty_violated"
   ],
   "note": "Every strictly increasing set of knots and every rate over an ordered field (the discount factor over the reals): values, additivity of the integral, positivity, composition, monotonicity and shifts. A piecewise linear curve without knots reads outside (proved); the constructor does not check."
  },
  {
   "property": "C56",
   "status": "proved",
   "theorems": [
    "Dal.C56_ordered",
    "Dal.C56_latest",
    "Dal.C56_include",
    "Dal.C56_comm",
    "Dal.C56_assoc",
    "Dal.C56_idem",
    "Dal.C56_permutation"
   ],
   "note": "Every pair of requirements with keys and dates of any linear order: commutative, associative, idempotent, order of merging any list irrelevant, latest date kept, Include the same."
  },
  {
   "property": "C57",
   "status": "proved",
   "theorems": [
    "Dal.C57_format_writes_the_layout",
    "Dal.C57_transpose",
    "Dal.C57_invert",
    "Dal.C57_twice_same_output",
    "Dal.C57_linear",
    "Dal.C57_parse_digit",
    "Dal.C57_parse_parentheses",
    "Dal.C57_parse_suffix",
    "Dal.C57_parse_separators",
    "Dal.C57_missing_piece_violated"
   ],
   "note": "All format strings, argument lists and tables of any size. C57_format_writes_the_layout: every string that is understood writes exactly the declared table, no write outside, each cell as the layout has it; the grammar is characterised by C57_parse_*; transposing or inverting twice is the identity. C57_missing_piece_violated: empty pieces read the back of an empty string. int and size_t arithmetic on dimensions is unbounded."
  },
  {
   "property": "C58",
   "status": "partial",
   "theorems": [
    "Dal.C58_multiply",
    "Dal.C58_multiply_vector",
    "Dal.C58_vector_multiply",
    "Dal.C58_weighted_inner_product",
    "Dal.C58_add_j_squared",
    "Dal.C58_any_history",
    "Dal.C58_new",
    "Dal.C58_fill_scale_clear",
    "Dal.C58_put",
    "Dal.C58_copy",
    "Dal.C58_resize_keeps",
    "Dal.C58_resize_new_elements_partial",
    "Dal.C58_resize_new_elements_violated",
    "Dal.C58_transpose",
    "Dal.C58_transpose_twice",
    "Dal.C58_transpose_no_columns_violated",
    "Dal.C58_append",
    "Dal.C58_append_narrower_throws",
    "Dal.C58_toVectors",
    "Dal.C58_fromVectors_roundtrip",
    "Dal.C58_fromVectors_longer_violated"
   ],
   "note": "Container: any history of the operations keeps the storage consistent (C58_any_history); elements, resize, transpose, append, rows and columns as vectors; products, weighted inner product and J-squared accumulation equal the textbook sums, also when the result is an operand. Negations proved: resizing with unchanged columns exposes the spare row, transposing a matrix without columns is undefined, appending a narrower matrix throws after having resized, longer later vectors spill. Move construction and Swap not modelled; double is a field."
  },
  {
   "property": "C59",
   "status": "proved",
   "theorems": [
    "Dal.C59_payout",
    "Dal.C59_black",
    "Dal.C59_bachelier",
    "Dal.C59_black_bounds",
    "Dal.C59_bachelier_bounds"
   ],
   "note": "All forwards, strikes and volatilities over the reals, with erfc as defined by its integral. Prices are between payout and forward (Bachelier: within the ten standard deviations beyond which the code takes the density as 0)."
  },
  {
   "property": "C60",
   "status": "proved",
   "theorems": [
    "Dal.C60_derivatives_of_quadratics",
    "Dal.C60_small_grids_refused",
    "Dal.C60_theta_scheme",
    "Dal.C60_constants",
    "Dal.C60_step_made",
    "Dal.C60_bounds",
    "Dal.C60_edges_not_discounted",
    "Dal.C60_uniform_grid",
    "Dal.C60_uniform_refuses",
    "Dal.C60_concentrating_grid"
   ],
   "note": "Field arithmetic instead of doubles; grids of at least three points with strictly increasing nodes; the claims about one step hold wherever the linear system can be solved. Edge rows are never discounted (C60_edges_not_discounted)."
  },
  {
   "property": "C61",
   "status": "partial",
   "theorems": [
    "Dal.C61_equity_partial",
    "Dal.C61_equity_date_violated",
    "Dal.C61_equity_bracket_violated",
    "Dal.C61_equity_names_collide",
    "Dal.C61_equity_texts_partial",
    "Dal.C61_fx_parser",
    "Dal.C61_fx_violated",
    "Dal.C61_fx_registered"
   ],
   "note": "Violated in three ways that are proved: fx names never parse since the fx parser is not registered (C61_fx_violated), equity names with a closing bracket are cut, delivery dates from March 2034 to February 2100 come back a day early. The partial theorem covers every other equity index; the fx parser alone gives back every index."
  },
  {
   "property": "C62",
   "status": "partial",
   "theorems": [
    "Dal.C62_collar",
    "Dal.C62_no_fixing",
    "Dal.C62_probability",
    "Dal.C62_ramp",
    "Dal.C62_monotone",
    "Dal.C62_all",
    "Dal.C62_all_probability",
    "Dal.C62_interval",
    "Dal.C62_extremum_interval",
    "Dal.C62_extremum_violated",
    "Dal.C62_extremum_outside_violated"
   ],
   "note": "Every path, range, ramp and collar over an ordered field; monitoring over any archimedean field. The extremum of a path is not computed: it is the bound of the collar or 0 (proved as violations)."
  },
  {
   "property": "C63",
   "status": "partial",
   "theorems": [
    "Dal.C63_fill",
    "Dal.C63_fill_one_more",
    "Dal.C63_dupire_line",
    "Dal.C63_bs_line",
    "Dal.C63_paths",
    "Dal.C63_dupire_today_violated",
    "Dal.C63_gap_violated",
    "Dal.C63_bs_moments",
    "Dal.C63_script_line",
    "Dal.C63_preprocess_twice_violated"
   ],
   "note": "Exact arithmetic. The Dupire line keeps gaps at or below the maximum step times 1+EPSILON; the strict bound, today on the line for a first date within half a day, and processing a product twice fail and the negations are proved. Steps of the state are arbitrary, so the Dupire dynamics (local volatility interpolation) are covered only through that."
  },
  {
   "property": "C64",
   "status": "proved",
   "theorems": [
    "Dal.C64_period",
    "Dal.C64_roundtrip",
    "Dal.C64_future",
    "Dal.C64_inverse",
    "Dal.C64_refused"
   ],
   "note": "All rates, periods and clearing houses, decided over the whole of the finite types."
  },
  {
   "property": "C65",
   "status": "partial",
   "theorems": [
    "Dal.C65_split_partial",
    "Dal.C65_not_square_throws",
    "Dal.C65_correlations_bounded",
    "Dal.C65_small_variance_violated"
   ],
   "note": "C65_split_partial: for volatilities of at least EPSILON and a square symmetric matrix, correlations and volatilities recover the covariance, the diagonal is 1. C65_small_variance_violated: below EPSILON the diagonal is not 1. Real arithmetic."
  },
  {
   "property": "C66",
   "status": "proved",
   "theorems": [
    "Dal.C66_future_codes"
   ],
   "note": "Whole table."
  },
  {
   "property": "C67",
   "status": "partial",
   "theorems": [
    "Dal.C67_reads_iff",
    "Dal.C67_foreign",
    "Dal.C67_insensitive",
    "Dal.C67_roundtrip",
    "Dal.C67_print_injective",
    "Dal.C67_value",
    "Dal.C67_listed",
    "Dal.C67_register_keeps",
    "Dal.C67_register_new",
    "Dal.C67_register_refused",
    "Dal.C67_register_duplicate",
    "Dal.C67_register_partial_violated",
    "Dal.C67_ext_equal_violated"
   ],
   "note": "All fifteen generated enumerations, every text. A refused registration can leave names registered, and any two extensions compare equal (proved as violations)."
  },
  {
   "property": "C68",
   "status": "partial",
   "theorems": [
    "Dal.C68_black_delta",
    "Dal.C68_black_vega",
    "Dal.C68_bachelier",
    "Dal.C68_bachelier_sign_violated",
    "Dal.C68_zero_vol_violated"
   ],
   "note": "Proved over the reals wherever the formula applies, for moneyness within ten standard deviations. Fails for the Bachelier model when forward and strike differ in sign (the price ignores the volatility, the vega is positive), and at zero volatility there are prices but no greeks (proved as violations)."
  },
  {
   "property": "C69",
   "status": "proved",
   "theorems": [
    "Dal.C69_maps",
    "Dal.C69_slope_range",
    "Dal.C69_refused"
   ],
   "note": "Real arithmetic instead of doubles."
  },
  {
   "property": "C70",
   "status": "partial",
   "theorems": [
    "Dal.C70_days",
    "Dal.C70_months_partial",
    "Dal.C70_adjusted",
    "Dal.C70_ends_on_business_day",
    "Dal.C70_business_days",
    "Dal.C70_parse",
    "Dal.C70_parse_special",
    "Dal.C70_parse_compound",
    "Dal.C70_compound",
    "Dal.C70_nominal_maturity"
   ],
   "note": "Month and year steps are proved where the date constructor is right (before February 2034 and from March 2100); beyond it C05_violated applies. Holiday names are read by a parameter."
  },
  {
   "property": "C71",
   "status": "partial",
   "theorems": [
    "Dal.C71_accepts_iff",
    "Dal.C71_text_means_centres",
    "Dal.C71_equal_iff",
    "Dal.C71_name_roundtrip",
    "Dal.C71_count_with_cache",
    "Dal.C71_spaced_name_violated"
   ],
   "note": "Proved for every history of registrations, calendars and counters run by one thread; sorting is any function meeting the contract. A centre whose name contains a space cannot be named (C71_spaced_name_violated)."
  },
  {
   "property": "C72",
   "status": "partial",
   "theorems": [
    "Dal.C72_parameters_partial",
    "Dal.C72_fixing_not_last_violated",
    "Dal.C72_incomplete_last_ignored",
    "Dal.C72_periods",
    "Dal.C72_no_frequency_violated",
    "Dal.C72_defaults",
    "Dal.C72_short_date_violated"
   ],
   "note": "Proved when FIXING is absent or last; otherwise the schedule is refused (C72_fixing_not_last_violated). Without FREQ or with fewer than two tokens the behaviour is undefined (C72_no_frequency_violated), as with fewer than three tokens for a date (C72_short_date_violated). Calendars from text and pin dates are parameters (C71, C13)."
  },
  {
   "property": "C73",
   "status": "partial",
   "theorems": [
    "Dal.C73_diagonal_multiply",
    "Dal.C73_diagonal_solve",
    "Dal.C73_diagonal_into_empty_violated",
    "Dal.C73_diagonal_correlated",
    "Dal.C73_lower_solve_left",
    "Dal.C73_lower_solve_right",
    "Dal.C73_lower_multiply_right",
    "Dal.C73_lower_right_inverse",
    "Dal.C73_lower_multiply_left_partial",
    "Dal.C73_lower_left_violated"
   ],
   "note": "Proved except that a product by a diagonal matrix cannot be put into a new vector (C73_diagonal_into_empty_violated) and that multiplying a lower triangular matrix from the left leaves out its diagonal, so that it never undoes solving (C73_lower_left_violated)."
  },
  {
   "property": "C74",
   "status": "partial",
   "theorems": [
    "Dal.C74_tables",
    "Dal.C74_business_days",
    "Dal.C74_after_the_tables",
    "Dal.C74_init",
    "Dal.C74_half_initialised_violated",
    "Dal.C74_fact_history",
    "Dal.C74_register_all",
    "Dal.C74_other_currencies_violated",
    "Dal.C74_currencies_first"
   ],
   "note": "Proved except that a failed initialisation is never completed by a retry (C74_half_initialised_violated) and that no currency but the yuan has a fixing calendar, so that starting a rate is an exception for it (C74_other_currencies_violated)."
  },
  {
   "property": "C75",
   "status": "partial",
   "theorems": [
    "Dal.C75_find_within_tolerance",
    "Dal.C75_find_ends",
    "Dal.C75_find_regular",
    "Dal.C75_gradient_affine",
    "Dal.C75_secant",
    "Dal.C75_accepted_step",
    "Dal.C75_step",
    "Dal.C75_find_affine",
    "Dal.C75_backtrack_fraction_partial",
    "Dal.C75_good_step_rejected_violated",
    "Dal.C75_gives_up_violated",
    "Dal.C75_assertion_violated",
    "Dal.C75_approximate_ends",
    "Dal.C75_approx_step",
    "Dal.C75_approximate_affine_partial",
    "Dal.C75_approximate_few_violated",
    "Dal.C75_approximate_affine_violated"
   ],
   "note": "Over ordered fields; the solvers are parameters with their specification. Termination, tolerance, limits, secant updates and steps for all problems; answers for affine functions. The minimiser of the line search is right only in two special cases, good steps are rejected, a search gives up on a descent, a debug build can abort, and approximations of affine functions end in zeros over zeros or never leave the guess (violated theorems)."
  },
  {
   "property": "C76",
   "status": "proved",
   "theorems": [
    "Dal.C76_bag_roundtrip",
    "Dal.C76_bag_read",
    "Dal.C76_find",
    "Dal.C76_find_hidden",
    "Dal.C76_first_find_violated",
    "Dal.C76_audit",
    "Dal.C76_audit_violated",
    "Dal.C76_recall",
    "Dal.C76_audit_recall"
   ],
   "note": "Histories by induction, over the model of environments of C21; handles are identities. A passive or showing auditor turns every audit into an exception after telling the inner auditors, the first search of a process on an empty bag is undefined, and so is an auditor whose mode was never set (violated theorems)."
  },
  {
   "property": "C77",
   "status": "partial",
   "theorems": [
    "Dal.C77_flat_is_black_scholes",
    "Dal.C77_step_at_node",
    "Dal.C77_step_outside",
    "Dal.C77_dupire_mean",
    "Dal.C77_bs_mean",
    "Dal.C77_bs_gradient",
    "Dal.C77_same_values",
    "Dal.C77_dupire_gradient_partial",
    "Dal.C77_first_step_gradient",
    "Dal.C77_spot_derivative",
    "Dal.C77_spot_violated",
    "Dal.C77_vega_violated",
    "Dal.C77_scenario",
    "Dal.C77_forward_violated",
    "Dal.C77_no_forwards_violated",
    "Dal.C77_forwards",
    "Dal.C77_bs_fill",
    "Dal.C77_bs_scenario_any",
    "Dal.C77_bs_scenario"
   ],
   "note": "Proved: flat volatilities give Black\u2013Scholes, steps at nodes, means on any grid, gradients of Black\u2013Scholes and of Dupire for volatilities that do not vary with the spot, filling of scenarios. Missing because false in the code: derivatives when the volatility varies with the spot (C77_spot_violated, C77_vega_violated) and forwards (C77_forward_violated, C77_no_forwards_violated)."
  },
  {
   "property": "C78",
   "status": "proved",
   "theorems": [
    "Dal.C78_parameters",
    "Dal.C78_clone",
    "Dal.C78_write",
    "Dal.C78_create",
    "Dal.C78_slides_violated",
    "Dal.C78_result",
    "Dal.C78_unknown_name_violated",
    "Dal.C78_copy_violated",
    "Dal.C78_risk",
    "Dal.C78_report",
    "Dal.C78_name_clash_violated",
    "Dal.C78_label_clash_violated"
   ],
   "note": "Parameters, clones, writes, model data, results, risks over all schedules and the report proved; slides, copies, unknown names and name clashes are proved to fail."
  },
  {
   "property": "C79",
   "status": "partial",
   "theorems": [
    "Dal.C79_maturity",
    "Dal.C79_gap_violated",
    "Dal.C79_outside_violated",
    "Dal.C79_calibration",
    "Dal.C79_fresh_view",
    "Dal.C79_no_nodes_violated",
    "Dal.C79_bump",
    "Dal.C79_differences",
    "Dal.C79_total_variance",
    "Dal.C79_local_vol_partial",
    "Dal.C79_local_vol_violated",
    "Dal.C79_merton",
    "Dal.C79_no_jumps",
    "Dal.C79_forward_violated"
   ],
   "note": "Proved: the calibrated row and matrix, views and bumps, the Merton mixture. The local volatility is proved for equal rates (C79_local_vol_partial); for others the code is proved wrong (C79_local_vol_violated). Calibration outside the range and the truncated mixture are proved to fail."
  },
  {
   "property": "C80",
   "status": "partial",
   "theorems": [
    "Dal.C80_expression",
    "Dal.C80_condition",
    "Dal.C80_evaluate",
    "Dal.C80_chain",
    "Dal.C80_deep_violated",
    "Dal.C80_past_partial",
    "Dal.C80_past_violated"
   ],
   "note": "Exact for expressions: defined iff the room fits. Past events are the exception: each past payment leaves its amount on the stack, proved for any number up to the room (C80_past_partial) and proved to run outside it beyond (C80_past_violated). Compiled evaluation has the room in C29."
  },
  {
   "property": "C81",
   "status": "partial",
   "theorems": [
    "Dal.C81_int",
    "Dal.C81_single",
    "Dal.C81_kinds",
    "Dal.C81_cells",
    "Dal.C81_optional",
    "Dal.C81_vector",
    "Dal.C81_block",
    "Dal.C81_rectangle",
    "Dal.C81_matrix",
    "Dal.C81_extract",
    "Dal.C81_records",
    "Dal.C81_blank_record_violated",
    "Dal.C81_date",
    "Dal.C81_date_range_violated",
    "Dal.C81_missing_violated",
    "Dal.C81_dateTime_partial",
    "Dal.C81_dateTime_violated",
    "Dal.C81_dictionary",
    "Dal.C81_dictionary_read",
    "Dal.C81_defined",
    "Dal.C81_integer_cell_violated"
   ],
   "note": "Readers characterised exactly (C81_int, C81_kinds, C81_single, C81_vector, C81_matrix, C81_records, C81_dictionary, C81_date); the block read is the least closed one (C81_block) and whole rectangles are read (C81_rectangle); no reader leaves what is defined for what Excel passes (C81_defined). Fails: a missing optional date and a blank array of one cell (C81_missing_violated), numbers that are no dates (C81_date_range_violated), times at the end of a day (C81_dateTime_violated), one blank row counts as a record (C81_blank_record_violated), integer cells (C81_integer_cell_violated)."
  },
  {
   "property": "C82",
   "status": "partial",
   "theorems": [
    "Dal.C82_rows",
    "Dal.C82_layout",
    "Dal.C82_memory_partial",
    "Dal.C82_empty_vector_violated",
    "Dal.C82_vector_roundtrip",
    "Dal.C82_matrix_roundtrip",
    "Dal.C82_scalar_roundtrip",
    "Dal.C82_text_roundtrip",
    "Dal.C82_text_violated",
    "Dal.C82_date_roundtrip",
    "Dal.C82_dateTime_roundtrip_partial",
    "Dal.C82_number_roundtrip",
    "Dal.C82_blank_entry_violated"
   ],
   "note": "C82_layout gives every cell of the result, C82_rows the number of rows; round trips for vectors, matrices, single values, texts, dates, times and numbers. Fails: empty vectors alone announce cells without memory (C82_empty_vector_violated), texts with a zero (C82_text_violated), blank entries inside vectors cut them off on reading (C82_blank_entry_violated)."
  },
  {
   "property": "C83",
   "status": "partial",
   "theorems": [
    "Dal.C83_vector_arithmetic",
    "Dal.C83_vector_arithmetic_sizes_violated",
    "Dal.C83_scalar_arithmetic",
    "Dal.C83_equal",
    "Dal.C83_xrange",
    "Dal.C83_xrange_none_violated",
    "Dal.C83_unique",
    "Dal.C83_unique_order_violated",
    "Dal.C83_is_monotonic",
    "Dal.C83_zip",
    "Dal.C83_zip_to_map",
    "Dal.C83_zip_to_map_twice_violated",
    "Dal.C83_zip_to_multimap",
    "Dal.C83_nearest_int",
    "Dal.C83_as_int",
    "Dal.C83_as_int_difference",
    "Dal.C83_as_int_ends_violated",
    "Dal.C83_l1_normalized",
    "Dal.C83_l1_normalized_violated",
    "Dal.C83_l2_normalized",
    "Dal.C83_centralized",
    "Dal.C83_covariance",
    "Dal.C83_covariance_empty_violated",
    "Dal.C83_variance",
    "Dal.C83_correlation",
    "Dal.C83_self_correlation_violated"
   ],
   "note": "Elementwise arithmetic, equality, ranges, Unique, monotonicity, zipping, maps, conversions to integers and statistics are characterised for all inputs. Violated parts: sizes are not checked, XRange of no points, Unique with coarse orders, second values of keys, ends of int, norms below 1, covariance of nothing."
  },
  {
   "property": "C84",
   "status": "partial",
   "theorems": [
    "Dal.C84_notes",
    "Dal.C84_sound",
    "Dal.C84_temporary_violated",
    "Dal.C84_released",
    "Dal.C84_released_violated",
    "Dal.C84_plain"
   ],
   "note": "Global stack of notes refined to lexical notes for all block programs; violated: a note of a temporary (report.cpp) makes every throw read a dead value, and a throw without notes leaves an empty vector behind."
  },
  {
   "property": "C85",
   "status": "partial",
   "theorems": [
    "Dal.C85_date_of_cell",
    "Dal.C85_forward_start",
    "Dal.C85_fixed_time_violated",
    "Dal.C85_discount_dates",
    "Dal.C85_names",
    "Dal.C85_no_name_violated",
    "Dal.C85_empty_maturity_violated",
    "Dal.C85_forward_names_partial",
    "Dal.C85_same_names_violated",
    "Dal.C85_collateral_violated",
    "Dal.C85_parse_violated"
   ],
   "note": "Dates and names proved for all cells; violated: fixed times go through spot, day offsets have dates but no name, an empty text passes as maturity, the collateral is dropped, names collide and cannot be parsed."
  },
  {
   "property": "C86",
   "status": "partial",
   "theorems": [
    "Dal.C86_spline",
    "Dal.C86_precise",
    "Dal.C86_tail_violated",
    "Dal.C86_inverse_defined_partial",
    "Dal.C86_inverse_ends_violated",
    "Dal.C86_inverse_symmetric",
    "Dal.C86_inverse_increasing",
    "Dal.C86_polish_partial"
   ],
   "note": "Spline CDF strictly increasing, continuous, symmetric, through its table (exact rational fit checked by the kernel); inverse strictly increasing over (0,1) without polish, symmetric with and without. Violated: spline tail decays with twice the exponent; the inverse is NaN at 0 and 1. Polish: one-sided result only."
  },
  {
   "property": "C87",
   "status": "partial",
   "theorems": [
    "Dal.C87_debug",
    "Dal.C87_product",
    "Dal.C87_printed",
    "Dal.C87_determined_partial",
    "Dal.C87_digits_violated"
   ],
   "note": "proved: what the visitor prints for every tree and product, and that the text determines form, kinds, names without commas, indices and numbers up to six decimals; the numbers themselves are not determined (violated)"
  },
  {
   "property": "C88",
   "status": "partial",
   "theorems": [
    "Dal.C88_roundtrip_partial",
    "Dal.C88_unambiguous",
    "Dal.C88_library",
    "Dal.C88_bool_violated",
    "Dal.C88_untagged_violated",
    "Dal.C88_nonempty_violated",
    "Dal.C88_first_registered",
    "Dal.C88_register_violated"
   ],
   "note": "proved: writing and reading together build an isomorphic graph for every acyclic heap of values the format can store; the members of all classes of the library cannot be confused; the first registration wins. Violated: truth values do not come back, untagged objects are conflated, readers demand what writers do not, later registrations are dropped"
  },
  {
   "property": "C89",
   "status": "partial",
   "theorems": [
    "Dal.C89_lines",
    "Dal.C89_long_line_violated",
    "Dal.C89_fields",
    "Dal.C89_table",
    "Dal.C89_roundtrip_partial",
    "Dal.C89_int_plain",
    "Dal.C89_values_partial",
    "Dal.C89_digits_text_violated",
    "Dal.C89_bool_text_violated",
    "Dal.C89_equals_violated",
    "Dal.C89_comma_violated",
    "Dal.C89_missing_violated",
    "Dal.C89_small_numbers_violated"
   ],
   "note": "Proved for plain contents; long lines, texts that look like numbers or booleans, commas, = signs, small fractions and missing files violate the claim, each with a theorem. std::strtod and std::to_string of fractions are parameters"
  },
  {
   "property": "C90",
   "status": "partial",
   "theorems": [
    "Dal.C90_values",
    "Dal.C90_roundtrip_partial",
    "Dal.C90_library",
    "Dal.C90_generators_violated",
    "Dal.C90_reports_violated",
    "Dal.C90_names_violated"
   ],
   "note": "Partial: the round trip holds for the values that the format keeps. Generators and reports are written and never read, and names with quotes change or break the text; these are proved as violations."
  },
  {
   "property": "C91",
   "status": "partial",
   "theorems": [
    "Dal.C91_past_fixing",
    "Dal.C91_fixing",
    "Dal.C91_no_access",
    "Dal.C91_quiet_violated",
    "Dal.C91_agrees_with_history",
    "Dal.C91_innermost",
    "Dal.C91_case",
    "Dal.C91_keys",
    "Dal.C91_zip",
    "Dal.C91_members",
    "Dal.C91_json_partial",
    "Dal.C91_subsecond_violated",
    "Dal.C91_decimals_violated"
   ],
   "note": "Partial: quiet calls without an access object read a null pointer, and JSON loses fractions of seconds and of millionths; both are proved."
  },
  {
   "property": "C92",
   "status": "partial",
   "theorems": [
    "Dal.C92_chart",
    "Dal.C92_written",
    "Dal.C92_range",
    "Dal.C92_labels_violated",
    "Dal.C92_long_violated",
    "Dal.C92_apart",
    "Dal.C92_start",
    "Dal.C92_matrix",
    "Dal.C92_row_labels_violated",
    "Dal.C92_plain",
    "Dal.C92_vector",
    "Dal.C92_lines",
    "Dal.C92_names_violated",
    "Dal.C92_data_name"
   ],
   "note": "Proved for all inputs with enough labels and all sequences of calls. Fewer labels are undefined behaviour, longer functions leave the range and used names leave unnamed sheets (violations with proofs). Excel itself is reduced to cells, sheets, ranges and the rule of names."
  },
  {
   "property": "C93",
   "status": "partial",
   "theorems": [
    "Dal.C93_int",
    "Dal.C93_kinds",
    "Dal.C93_is_int",
    "Dal.C93_is_int_violated",
    "Dal.C93_convert",
    "Dal.C93_words_violated",
    "Dal.C93_settings",
    "Dal.C93_roundtrip",
    "Dal.C93_text_partial",
    "Dal.C93_text_violated",
    "Dal.C93_empty_violated",
    "Dal.C93_unlimited_violated",
    "Dal.C93_tries_violated"
   ],
   "note": "Kinds, settings and the round trip through dictionaries are proved for all inputs; the round trip through text for tolerances that survive (partial, with violations proved)."
  },
  {
   "property": "C94",
   "status": "partial",
   "theorems": [
    "Dal.C94_linear",
    "Dal.C94_linear_knots",
    "Dal.C94_linear_get",
    "Dal.C94_empty_violated",
    "Dal.C94_smoothed_exact",
    "Dal.C94_smoothed_constant",
    "Dal.C94_smoothed_partial",
    "Dal.C94_smoothed_violated",
    "Dal.C94_cubic",
    "Dal.C94_cubic_get",
    "Dal.C94_cubic_knots",
    "Dal.C94_two_points_violated",
    "Dal.C94_grid",
    "Dal.C94_grid_get",
    "Dal.C94_grid_knots",
    "Dal.C94_grid_empty_violated"
   ],
   "note": "Proved on top of the models of C48, C49 and C50; numbers are exact. The declared conditions are not enough: empty data are accepted and then read outside (C94_empty_violated, C94_grid_empty_violated), two points pass the conditions of a spline and are refused (C94_two_points_violated), and the first value is not smoothed (C94_smoothed_violated)."
  },
  {
   "property": "C95",
   "status": "partial",
   "theorems": [
    "Dal.C95_rows",
    "Dal.C95_split",
    "Dal.C95_names",
    "Dal.C95_own_name_violated",
    "Dal.C95_seed_violated",
    "Dal.C95_zero_seed_violated",
    "Dal.C95_clone",
    "Dal.C95_clone_violated",
    "Dal.C95_precise_violated",
    "Dal.C95_branch_violated",
    "Dal.C95_stored_violated",
    "Dal.C95_pure_violated"
   ],
   "note": "Proved on top of the generators of C39. Violations proved: C95_own_name_violated, C95_seed_violated, C95_zero_seed_violated, C95_clone_violated, C95_precise_violated, C95_branch_violated, C95_stored_violated, C95_pure_violated."
  },
  {
   "property": "C96",
   "status": "partial",
   "theorems": [
    "Dal.C96_risk",
    "Dal.C96_table",
    "Dal.C96_lookup",
    "Dal.C96_plain",
    "Dal.C96_model",
    "Dal.C96_clash_violated",
    "Dal.C96_no_paths_violated",
    "Dal.C96_dates",
    "Dal.C96_product",
    "Dal.C96_sizes",
    "Dal.C96_serial_violated",
    "Dal.C96_text_dates_violated",
    "Dal.C96_blank_violated",
    "Dal.C96_debug"
   ],
   "note": "Table, order, lookup by name and conversion of dates are proved; violated for names that differ in case only, no paths, serials out of range, dates as text and empty cells."
  },
  {
   "property": "C97",
   "status": "partial",
   "theorems": [
    "Dal.C97_black",
    "Dal.C97_black_small",
    "Dal.C97_black_certain",
    "Dal.C97_bachelier_partial",
    "Dal.C97_bachelier_tail_violated",
    "Dal.C97_bachelier_sign_violated",
    "Dal.C97_bs_law",
    "Dal.C97_bs",
    "Dal.C97_dupire_flat",
    "Dal.C97_script"
   ],
   "note": "Proved: C97_black, C97_black_small, C97_black_certain, C97_bs_law, C97_bs, C97_dupire_flat, C97_script. Partial: C97_bachelier_partial holds for forward and strike of the same sign at most ten deviations apart; C97_bachelier_sign_violated and C97_bachelier_tail_violated show the rest is false in the code."
  },
  {
   "property": "C98",
   "status": "partial",
   "theorems": [
    "Dal.C98_black",
    "Dal.C98_unique",
    "Dal.C98_recovers",
    "Dal.C98_guess",
    "Dal.C98_refuses",
    "Dal.C98_far_violated",
    "Dal.C98_tolerance_violated",
    "Dal.C98_bachelier",
    "Dal.C98_bachelier_log",
    "Dal.C98_bachelier_guess_violated",
    "Dal.C98_bachelier_sign_violated",
    "Dal.C98_between",
    "Dal.C98_model",
    "Dal.C98_model_guess",
    "Dal.C98_scholes",
    "Dal.C98_vol_vega",
    "Dal.C98_derivatives",
    "Dal.C98_names_violated"
   ],
   "note": "Partial because the code violates it: tolerance of places in units of the forward, far strikes, the guess and the signs in BachelierIV, and ParameterNames. Ending within thirty attempts is not claimed."
  },
  {
   "property": "C99",
   "status": "proved",
   "theorems": [
    "Dal.C99_values",
    "Dal.C99_gradient"
   ],
   "note": "The derivative of any script run with Number_ is the derivative of the script run with doubles, away from ties and singular points (C99_gradient); values always agree (C99_values)."
  },
  {
   "property": "C100",
   "status": "partial",
   "theorems": [
    "Dal.C100_date",
    "Dal.C100_greeks",
    "Dal.C100_script",
    "Dal.C100_digital_violated"
   ],
   "note": "Unbiased for calls and puts from script text to sensitivity (C100_date, C100_greeks, C100_script). Violated for payoffs that jump (C100_digital_violated)."
  },
  {
   "property": "C101",
   "status": "proved",
   "theorems": [
    "Dal.C101_gradient",
    "Dal.C101_digital",
    "Dal.C101_digital_narrow"
   ],
   "note": "C101_gradient for any script and widths; C101_digital and C101_digital_narrow for the means of the digital option. Negations are undefined in the code (C34)."
  },
  {
   "property": "C102",
   "status": "partial",
   "theorems": [
    "Dal.C102_put_partial",
    "Dal.C102_call_partial",
    "Dal.C102_greeks",
    "Dal.C102_unbiased",
    "Dal.C102_error_partial",
    "Dal.C102_confidence_partial",
    "Dal.C102_mrg",
    "Dal.C102_mrg_violated",
    "Dal.C102_irn",
    "Dal.C102_irn_one_thread",
    "Dal.C102_irn_violated",
    "Dal.C102_positions"
   ],
   "note": "C102_unbiased holds for all generators, schedules and modes; C102_error_partial, C102_confidence_partial, C102_put_partial, C102_call_partial for one task (up to 1024 paths or one thread). For several tasks the claim on the error is false for both generators: C102_mrg and C102_irn give the exact error, C102_mrg_violated and C102_irn_violated show it is larger; C102_irn_one_thread is the schedule under which it holds. The stream of independent normal numbers is the idealisation of the generator."
  },
  {
   "property": "C103",
   "status": "proved",
   "theorems": [
    "Dal.C103_law",
    "Dal.C103_mean",
    "Dal.C103_unbiased",
    "Dal.C103_error_one_task",
    "Dal.C103_option"
   ],
   "note": "The statement about errors is that of one task, as in C102, where several tasks reuse numbers."
  },
  {
   "property": "C104",
   "status": "proved",
   "theorems": [
    "Dal.C104_risks",
    "Dal.C104_exact",
    "Dal.C104_constants",
    "Dal.C104_option",
    "Dal.C104_option_mean",
    "Dal.C104_strike_violated",
    "Dal.C104_today_violated"
   ],
   "note": "Risks of the parameters are proved for every compiled program with dates after today; risks of constant variables are zero whatever the program (violated), and a payoff copied from today's spot leaves the tape (violated). One task; several tasks add their risks."
  },
  {
   "property": "C105",
   "status": "proved",
   "theorems": [
    "Dal.C105_risks",
    "Dal.C105_exact",
    "Dal.C105_tasks",
    "Dal.C105_gradient",
    "Dal.C105_option",
    "Dal.C105_option_mean",
    "Dal.C105_option_compiled",
    "Dal.C105_copy_violated",
    "Dal.C105_refused"
   ],
   "note": "One number source is given; dates after today; the cutoff bound B is existential. Failure for copies of constant variables proved (C105_copy_violated)."
  },
  {
   "property": "C106",
   "status": "proved",
   "theorems": [
    "Dal.C106_refused",
    "Dal.C106_report_refused",
    "Dal.C106_simulation",
    "Dal.C106_table",
    "Dal.C106_option",
    "Dal.C106_unbiased"
   ],
   "note": "The simulation, the table of any prepared product, the table of options and the means of all rows."
  },
  {
   "property": "C107",
   "status": "proved",
   "theorems": [
    "Dal.C107_call",
    "Dal.C107_black",
    "Dal.C107_price",
    "Dal.C107_error",
    "Dal.C107_smooth",
    "Dal.C107_crank"
   ],
   "note": "Loop bound over any ordered field, convergence over the reals; doubles are real numbers. The price read off the spline is proved to converge for every spot between the ends (C107_price). Lowest spot positive."
  },
  {
   "property": "C108",
   "status": "partial",
   "theorems": [
    "Dal.C108_gram_partial",
    "Dal.C108_frame",
    "Dal.C108_defined",
    "Dal.C108_solve_violated",
    "Dal.C108_dropped",
    "Dal.C108_gram_violated",
    "Dal.C108_cancel_violated"
   ],
   "note": "The code violates the claim: the rotation rescales the row instead of mixing in the vector, and the first row cannot be reached with offsets from zero. Proved: exactness in a free row, frame, definedness, and the negations."
  },
  {
   "property": "C109",
   "status": "partial",
   "theorems": [
    "Dal.C109_columns",
    "Dal.C109_gradient",
    "Dal.C109_gradient_exact",
    "Dal.C109_single_violated",
    "Dal.C109_mixed_violated",
    "Dal.C109_columns_violated",
    "Dal.C109_scope_partial",
    "Dal.C109_scope_violated"
   ],
   "note": "Gradients and columns proved for every program; the claims on single propagation in this mode, mixed recording, cutoff independence and nesting are violated."
  },
  {
   "property": "C110",
   "status": "proved",
   "theorems": [
    "Dal.C110_price",
    "Dal.C110_report",
    "Dal.C110_made",
    "Dal.C110_exact",
    "Dal.C110_smooth",
    "Dal.C110_parity",
    "Dal.C110_between",
    "Dal.C110_worthless",
    "Dal.C110_twice_violated"
   ],
   "note": "End to end from texts. C110_twice_violated records that smoothing is not idempotent on a date that occurs in the schedule and by itself, as in examples/uoc."
  },
  {
   "property": "C111",
   "status": "partial",
   "theorems": [
    "Dal.C111_no_events",
    "Dal.C111_barrier_made",
    "Dal.C111_barrier_partial",
    "Dal.C111_barrier_smooth",
    "Dal.C111_history_violated",
    "Dal.C111_dates",
    "Dal.C111_fresh",
    "Dal.C111_value_partial",
    "Dal.C111_blind",
    "Dal.C111_table",
    "Dal.C111_expired_partial",
    "Dal.C111_expired_violated"
   ],
   "note": "Full claim for past events that do not look at the spot (C111_blind); for the others proved with 30 for every past spot (C111_value_partial, C111_barrier_partial) and the full claim refuted (C111_history_violated). Expired options make no difference up to 127 of them (C111_expired_partial), refuted beyond (C111_expired_violated)."
  },
  {
   "property": "C112",
   "status": "partial",
   "theorems": [
    "Dal.C112_fields",
    "Dal.C112_value_partial",
    "Dal.C112_refused",
    "Dal.C112_refused_dates",
    "Dal.C112_missing_violated",
    "Dal.C112_missing_end_violated",
    "Dal.C112_outside_violated",
    "Dal.C112_missing_text_violated",
    "Dal.C112_extra_violated",
    "Dal.C112_late_violated"
   ],
   "note": "Proved for dates that can be read back and where the day basis itself is right (C06, C14); unknown names and texts that are no dates are refused. Missing fields are undefined behaviour, further fields are dropped, dates from 2034-03-01 to 2100-02-28 are a day short: negations."
  },
  {
   "property": "C113",
   "status": "proved",
   "theorems": [
    "Dal.C113_prepared",
    "Dal.C113_value"
   ],
   "note": "For all scripts of the syntactic class and all paths, through the models of indexer, IF processor, domain analysis, constant conditions and evaluator. Arithmetic is real arithmetic."
  },
  {
   "property": "C114",
   "status": "proved",
   "theorems": [
    "Dal.C114_made",
    "Dal.C114_exact",
    "Dal.C114_smooth",
    "Dal.C114_average",
    "Dal.C114_far",
    "Dal.C114_report"
   ],
   "note": "From text to value on any path, exact and smoothed, and to the table with its eight sensitivities; PeriodEnd is taken as already replaced (C115), constants as the parser reads them. Real arithmetic."
  },
  {
   "property": "C115",
   "status": "proved",
   "theorems": [
    "Dal.C115_absent",
    "Dal.C115_first",
    "Dal.C115_pieces",
    "Dal.C115_word",
    "Dal.C115_letter",
    "Dal.C115_macros_pieces",
    "Dal.C115_macros_absent",
    "Dal.C115_macros_word",
    "Dal.C115_order_violated",
    "Dal.C115_inside_words_violated",
    "Dal.C115_barrier",
    "Dal.C115_barrier_value",
    "Dal.C115_snowball_period",
    "Dal.C115_snowball",
    "Dal.C115_snowball_value"
   ],
   "note": "Proved for names of word characters and replacements without dollar signs; two violated expectations: macros are replaced inside words, and macros may refer to each other in one alphabetical direction only."
  },
  {
   "property": "C116",
   "status": "proved",
   "theorems": [
    "Dal.C116_simulation_violated",
    "Dal.C116_risks",
    "Dal.C116_spot_violated",
    "Dal.C116_simulation",
    "Dal.C116_table",
    "Dal.C116_gradient",
    "Dal.C116_seasoned",
    "Dal.C116_barrier",
    "Dal.C116_snowball"
   ],
   "note": "Positive spot; today's event must not assign the bare spot to the payoff variable (otherwise C116_spot_violated)."
  },
  {
   "property": "C117",
   "status": "proved",
   "theorems": [
    "Dal.C117_rows",
    "Dal.C117_simulation",
    "Dal.C117_benchmark"
   ],
   "note": "Reads, prepares and simulates the rows of the example (C117_rows, C117_simulation) and compares the means with the printed benchmark and its derivatives (C117_benchmark)."
  },
  {
   "property": "C118",
   "status": "proved",
   "theorems": [
    "Dal.C118_risks",
    "Dal.C118_exact",
    "Dal.C118_constants",
    "Dal.C118_script",
    "Dal.C118_barrier"
   ],
   "note": "C118_risks, C118_exact, C118_constants: C104 with or without today's date; C118_script: from a processed script, with the conditions of C29_no_else_partial; C118_barrier: the example, in the Black-Scholes model (the example uses Dupire with a constant volatility)."
  },
  {
   "property": "C119",
   "status": "proved",
   "theorems": [
    "Dal.C119_simulation",
    "Dal.C119_exact",
    "Dal.C119_refused",
    "Dal.C119_script",
    "Dal.C119_barrier"
   ],
   "note": "Black\u2013Scholes model, doubles as real numbers, tasks one after the other; scripts without ELSE (the conditions of C29_no_else_partial). Proved as stated."
  },
  {
   "property": "C120",
   "status": "partial",
   "theorems": [
    "Dal.C120_rewind_partial",
    "Dal.C120_exact_partial",
    "Dal.C120_rewind_violated",
    "Dal.C120_example",
    "Dal.C120_put_violated"
   ],
   "note": "Proved for programs that record no more nodes than they have inputs (C120_rewind_partial, C120_exact_partial), and for the example (C120_example). The full claim is false: with one node more the inputs are recorded over (C120_rewind_violated), and the formula with is_call false is minus the call (C120_put_violated)."
  },
  {
   "property": "C121",
   "status": "partial",
   "theorems": [
    "Dal.C121_V1",
    "Dal.C121_V3",
    "Dal.C121_V5",
    "Dal.C121_same_partial",
    "Dal.C121_product_partial",
    "Dal.C121_V2_violated"
   ],
   "note": "MultiV1, MultiV3, MultiV4 and MultiV5 are proved equal for all dimensions, arithmetics and interleavings, and equal to the matrix product. The claim is false for MultiV2 when the result is not square (C121_V2_violated); it is proved for it when it is (C121_same_partial, C121_product_partial)."
  }
 ]
}