# Axioms of each theorem

Printed by `#print axioms`, written by `tools/mkaxioms.py`.

## C01

- `Iode.C01_shift_distance`: propext, Quot.sound
- `Iode.C01_shift_add`: propext, Classical.choice, Quot.sound
- `Iode.C01_shift_by_difference`: propext, Classical.choice, Quot.sound
- `Iode.C01_difference_chain`: propext, Quot.sound
- `Iode.C01_difference_mixed`: propext
- `Iode.C01_make`: propext, Quot.sound
- `Iode.C01_make_wf`: propext, Quot.sound

## C02

- `Iode.C02_print_parse`: propext, Classical.choice, Quot.sound
- `Iode.C02_parse_accepts_partial`: propext, Classical.choice, Quot.sound
- `Iode.C02_bad_step_counterexample`: propext, Classical.choice, Quot.sound
- `Iode.C02_parse_stable`: propext, Classical.choice, Quot.sound

## C03

- `Iode.C03_sample_enumerates`: propext, Classical.choice, Quot.sound
- `Iode.C03_position_iff`: propext, Quot.sound
- `Iode.C03_overflow_counterexample`: none
- `Iode.C03_count_correct_iff`: propext, Classical.choice, Quot.sound

## C04

- `Iode.C04_intersection`: propext, Classical.choice, Quot.sound
- `Iode.C04_intersection_mixed`: propext

## C05

- `Iode.C05_finite_map_partial`: propext, Classical.choice, Quot.sound
- `Iode.C05_failed_calls_partial`: propext, Classical.choice, Quot.sound
- `Iode.C05_other_workspaces`: propext, Classical.choice, Quot.sound
- `Iode.C05_comments_counterexample`: propext, Classical.choice, Quot.sound
- `Iode.C05_duplicate_loses_object_counterexample`: propext, Classical.choice, Quot.sound

## C06

- `Iode.C06_same_object_partial`: propext, Classical.choice, Quot.sound
- `Iode.C06_every_subset_partial`: propext, Classical.choice, Quot.sound
- `Iode.C06_rename_overwrite_counterexample`: propext, Classical.choice, Quot.sound
- `Iode.C06_cleared_subset_counterexample`: propext, Classical.choice, Quot.sound
- `Iode.C06_comments_counterexample`: propext, Classical.choice, Quot.sound

## C07

- `Iode.C07_remove_partial`: propext, Classical.choice, Quot.sound
- `Iode.C07_rename_partial`: propext, Classical.choice, Quot.sound
- `Iode.C07_remove_self_partial`: propext, Classical.choice, Quot.sound
- `Iode.C07_comments_counterexample`: propext, Classical.choice, Quot.sound
- `Iode.C07_cleared_subset_counterexample`: propext, Classical.choice, Quot.sound

## C08

- `Iode.C08_check_iff_valid`: propext, Quot.sound
- `Iode.C08_names_valid`: propext, Classical.choice, Quot.sound
- `Iode.C08_invalid_rejected`: propext, Quot.sound

## C09

- `Iode.C09_copy_content_partial`: propext, Classical.choice, Quot.sound
- `Iode.C09_origin_unchanged_partial`: propext, Classical.choice, Quot.sound
- `Iode.C09_copy_unchanged_partial`: propext, Classical.choice, Quot.sound
- `Iode.C09_families_independent`: propext, Classical.choice, Quot.sound
- `Iode.C09_shallow_counterexample`: propext, Classical.choice, Quot.sound

## C10

- `Iode.C10_merge_partial`: propext, Classical.choice, Quot.sound
- `Iode.C10_own_subset_counterexample`: propext, Classical.choice, Quot.sound
- `Iode.C10_subset_of_target_counterexample`: propext, Classical.choice, Quot.sound

## C11

- `Iode.C11_lengths_partial`: propext, Classical.choice, Quot.sound
- `Iode.C11_subset_sample_partial`: propext, Classical.choice, Quot.sound
- `Iode.C11_no_out_of_bounds_partial`: propext, Classical.choice, Quot.sound
- `Iode.C11_cleared_subset_counterexample`: propext, Classical.choice, Quot.sound
- `Iode.C11_rename_counterexample`: propext, Classical.choice, Quot.sound
- `Iode.C11_overflow_counterexample`: propext, Classical.choice, Quot.sound

## C12

- `Iode.C12_set_sample_partial`: propext, Classical.choice, Quot.sound
- `Iode.C12_when_partial`: propext, Classical.choice, Quot.sound

## C13

- `Iode.C13_merge_partial`: propext, Classical.choice, Quot.sound
- `Iode.C13_merge_into_new_partial`: propext, Classical.choice, Quot.sound
- `Iode.C13_into_subset_counterexample`: propext, Classical.choice, Quot.sound
- `Iode.C13_no_sample_counterexample`: propext, Quot.sound

## C14

- `Iode.C14_read_back`: propext, Classical.choice, Quot.sound
- `Iode.C14_read_back_reachable`: propext, Classical.choice, Quot.sound
- `Iode.C14_reference`: propext, Classical.choice, Quot.sound
- `Iode.C14_reading`: propext, Classical.choice, Quot.sound
- `Iode.C14_frame_partial`: propext, Classical.choice, Quot.sound

## C15

- `Iode.C15_extrapolate_partial`: propext, Classical.choice, Quot.sound
- `Iode.C15_numbers_kept`: propext, Classical.choice, Quot.sound

## C16

- `Iode.C16_pack`: propext, Classical.choice, Quot.sound

## C17

- `Iode.BinFile.C17_save_load`: propext, Classical.choice, Quot.sound
- `Iode.BinFile.C17_empty`: propext

## C18

- `Iode.BinFile.C18_select_partial`: propext, Classical.choice, Quot.sound
- `Iode.BinFile.C18_absent_counterexample`: propext, Classical.choice, Quot.sound
- `Iode.BinFile.C18_order_counterexample`: propext, Classical.choice, Quot.sound
- `Iode.BinFile.C18_compressed_counterexample`: propext, Classical.choice, Quot.sound

## C19

- `Iode.BinFile.C19_sample_partial`: propext, Classical.choice, Quot.sound
- `Iode.BinFile.C19_room`: propext, Quot.sound
- `Iode.BinFile.C19_none`: propext
- `Iode.BinFile.C19_lost`: propext, Classical.choice, Quot.sound
- `Iode.BinFile.C19_counterexample`: propext, Classical.choice, Quot.sound

## C20

- `Iode.Disk.C20_histories`: propext, Quot.sound
- `Iode.Disk.C20_one_save`: propext, Quot.sound
- `Iode.Disk.C20_second_crash_counterexample`: propext
- `Iode.Disk.C20_copy_failure_counterexample`: propext

## C21

- `Iode.Lists.C21_expand_unique`: none
- `Iode.Lists.C21_expand_sound`: propext, Classical.choice, Quot.sound
- `Iode.Lists.C21_expand_total`: propext, Quot.sound
- `Iode.Lists.C21_chunks_partial`: propext, Classical.choice, Quot.sound
- `Iode.Lists.C21_single`: propext, Classical.choice, Quot.sound
- `Iode.Lists.C21_frame`: propext, Classical.choice, Quot.sound
- `Iode.Lists.C21_empty_undefined`: propext, Classical.choice, Quot.sound
- `Iode.Lists.C21_overlap_counterexample`: propext, Classical.choice, Quot.sound
- `Iode.Lists.C21_long_name_counterexample`: propext, Classical.choice, Quot.sound
- `Iode.Lists.C21_cycle_counterexample`: propext, Classical.choice, Quot.sound

## C22

- `Iode.C22_copy_from_partial`: propext, Classical.choice, Quot.sound
- `Iode.C22_stops`: propext, Classical.choice, Quot.sound
- `Iode.C22_later_file_counterexample`: propext, Classical.choice, Quot.sound
- `Iode.C22_variables_counterexample`: propext, Classical.choice, Quot.sound

## C23

- `Iode.Grep.C23_grep_partial`: propext, Classical.choice, Quot.sound
- `Iode.Grep.C23_grep_total`: propext, Quot.sound
- `Iode.Grep.C23_simple_partial`: propext, Classical.choice, Quot.sound
- `Iode.Grep.C23_names_partial`: propext, Classical.choice, Quot.sound
- `Iode.Grep.C23_expand_partial`: propext, Classical.choice, Quot.sound
- `Iode.Grep.C23_double_star_counterexample`: propext
- `Iode.Grep.C23_star_edge_counterexample`: propext
- `Iode.Grep.C23_double_edge_counterexample`: propext
- `Iode.Grep.C23_star_start_counterexample`: propext
- `Iode.Grep.C23_other_end_undefined`: propext
- `Iode.Grep.C23_backslash_counterexample`: propext

## C24

- `Iode.Lec.C24_unambiguous`: propext, Classical.choice, Quot.sound
- `Iode.Lec.C24_every_tree_has_a_text`: propext, Classical.choice, Quot.sound
- `Iode.Lec.C24_value_partial`: propext, Classical.choice, Quot.sound
- `Iode.Lec.C24_simple_value`: propext, Classical.choice, Quot.sound
- `Iode.Lec.C24_basic_value`: propext, Classical.choice, Quot.sound
- `Iode.Lec.C24_lcount_counterexample`: propext, Quot.sound
- `Iode.Lec.C24_time_function_of_call_counterexample`: propext, Quot.sound
- `Iode.Lec.C24_na_below_counterexample`: propext, Quot.sound
- `Iode.Lec.C24_lag_sign_counterexample`: propext, Quot.sound
- `Iode.Lec.C24_mtfn_in_tfn_counterexample`: propext
- `Iode.Lec.C24_na_coefficient_counterexample`: propext, Quot.sound

## C25

- `Iode.Lec.C25_accepts_exactly_the_grammar`: propext, Classical.choice, Quot.sound
- `Iode.Lec.C25_missing_piece_rejected`: propext
- `Iode.Lec.C25_unbalanced_rejected`: propext, Classical.choice, Quot.sound
- `Iode.Lec.C25_empty_call_rejected`: propext, Classical.choice, Quot.sound
- `Iode.Lec.C25_undefined_exactly`: propext, Classical.choice, Quot.sound
- `Iode.Lec.C25_always_defined`: propext, Classical.choice, Quot.sound
- `Iode.Lec.C25_one_value_partial`: propext, Classical.choice, Quot.sound
- `Iode.Lec.C25_leftover_counterexample`: propext
- `Iode.Lec.C25_leftover_parenthesis_counterexample`: propext
- `Iode.Lec.C25_leftover_wrong_value_counterexample`: propext
- `Iode.Lec.C25_undefined_counterexample`: propext
- `Iode.Lec.C25_semicolon_counterexample`: propext
- `Iode.Lec.C25_lcount_counterexample`: propext

## C26

- `Iode.Lec.C26_missing_value_propagates`: propext, Classical.choice, Quot.sound
- `Iode.Lec.C26_outside_sample`: propext, Quot.sound
- `Iode.Lec.C26_missing_result_has_cause`: propext, Classical.choice, Quot.sound
- `Iode.Lec.C26_division_by_zero`: propext
- `Iode.Lec.C26_accepting_functions_counterexample`: propext

## C27

- `Iode.Lec.C27_lag_is_past_partial`: propext, Classical.choice, Quot.sound
- `Iode.Lec.C27_date_is_that_period_partial`: propext, Classical.choice, Quot.sound
- `Iode.Lec.C27_lags_add`: propext, Quot.sound
- `Iode.Lec.C27_date_absorbs`: propext, Quot.sound
- `Iode.Lec.C27_t_counterexample`: propext
- `Iode.Lec.C27_sum_counterexample`: propext
- `Iode.Lec.C27_call_counterexample`: propext
- `Iode.Lec.C27_dated_difference_counterexample`: propext

## C28

- `Iode.Lec.C28_functions_partial`: propext, Classical.choice, Quot.sound
- `Iode.Lec.C28_isan_missing`: propext, Classical.choice, Quot.sound
- `Iode.Lec.C28_lag_functions`: propext, Classical.choice, Quot.sound
- `Iode.Lec.C28_range_functions`: propext, Classical.choice, Quot.sound
- `Iode.Lec.C28_stderr`: propext, Classical.choice, Quot.sound
- `Iode.Lec.C28_lstderr`: propext, Classical.choice, Quot.sound
- `Iode.Lec.C28_operators_partial`: propext, Classical.choice, Quot.sound
- `Iode.Lec.C28_domains`: propext, Classical.choice, Quot.sound
- `Iode.Lec.C28_if_chooses_by_last`: propext, Classical.choice, Quot.sound
- `Iode.Lec.C28_if_counterexample`: propext, Classical.choice, Quot.sound
- `Iode.Lec.C28_div0_is_reversed`: propext, Classical.choice, Quot.sound
- `Iode.Lec.C28_div0_counterexample`: propext, Classical.choice, Quot.sound
- `Iode.Lec.C28_log_is_inverted`: propext, Classical.choice, Quot.sound
- `Iode.Lec.C28_log_counterexample`: propext, Classical.choice, Quot.sound

## C29

- `Iode.Lec.C29_names_are_those_written`: propext, Quot.sound
- `Iode.Lec.C29_link_succeeds_iff`: propext, Quot.sound
- `Iode.Lec.C29_link_succeeds_iff_written`: propext, Classical.choice, Quot.sound
- `Iode.Lec.C29_linked_value`: propext, Classical.choice, Quot.sound
- `Iode.Lec.C29_depends_only_on_its_names`: propext, Classical.choice, Quot.sound
- `Iode.Lec.C29_other_variables_do_not_matter`: propext, Classical.choice, Quot.sound
- `Iode.Lec.C29_stale_link_counterexample`: propext

## C30

- `Iode.Lec.C30_solution_is_a_root_partial`: propext, Classical.choice, Quot.sound
- `Iode.Lec.C30_solution_is_the_root_partial`: propext, Classical.choice, Quot.sound
- `Iode.Lec.C30_solved`: propext, Classical.choice, Quot.sound
- `Iode.Lec.C30_duplicated`: propext, Classical.choice, Quot.sound
- `Iode.Lec.C30_absent_refused`: propext, Classical.choice, Quot.sound
- `Iode.Lec.C30_no_inverse_refused`: propext, Classical.choice, Quot.sound
- `Iode.Lec.C30_exponent_counterexample`: propext, Classical.choice, Quot.sound
- `Iode.Lec.C30_exp_base_counterexample`: propext, Classical.choice, Quot.sound
- `Iode.Lec.C30_call_behind_counterexample`: propext, Classical.choice, Quot.sound
- `Iode.Lec.C30_dated_counterexample`: propext, Classical.choice, Quot.sound
- `Iode.Lec.C30_malformed_counterexample`: propext, Classical.choice, Quot.sound

## C31

- `Iode.Sim.C31_newton_root`: propext, Quot.sound
- `Iode.Sim.C31_newton_failure_restores`: propext, Quot.sound
- `Iode.Sim.C31_newton_frame`: propext, Quot.sound
- `Iode.Sim.C31_secant_partial`: propext, Quot.sound
- `Iode.Sim.C31_zero_partial`: propext, Quot.sound
- `Iode.Sim.C31_secant_counterexample`: propext, Classical.choice, Quot.sound
- `Iode.Sim.C31_secant_missing_counterexample`: propext, Classical.choice, Quot.sound
- `Iode.Sim.C31_secant_uninitialised_counterexample`: propext, Classical.choice, Quot.sound
- `Iode.Sim.C31_newton_restore_counterexample`: propext, Classical.choice, Quot.sound

## C32

- `Iode.Sim.C32_order_is_a_permutation`: propext, Classical.choice, Quot.sound
- `Iode.Sim.C32_unsorted_partial`: propext, Quot.sound
- `Iode.Sim.C32_triangulation_stays_in_block`: propext, Classical.choice, Quot.sound
- `Iode.Sim.C32_unsorted_counterexample`: propext, Classical.choice, Quot.sound
- `Iode.Sim.C32_unsorted_short_counterexample`: propext, Quot.sound

## C33

- `Iode.Sim.C33_prolog_needs_earlier_only`: propext, Classical.choice, Quot.sound
- `Iode.Sim.C33_prolog_complete_partial`: propext, Classical.choice, Quot.sound
- `Iode.Sim.C33_tables_without_exchange`: propext, Quot.sound
- `Iode.Sim.C33_prolog_complete_counterexample`: propext, Quot.sound

## C34

- `Iode.Sim.C34_epilog_feeds_nobody_before`: propext, Classical.choice, Quot.sound

## C35

- `Iode.Sim.C35_solved_equations_hold_partial`: propext, Classical.choice, Quot.sound
- `Iode.Sim.C35_threshold_zero_partial`: propext, Classical.choice, Quot.sound
- `Iode.Sim.C35_successive_counterexample`: propext, Classical.choice, Quot.sound
- `Iode.Sim.C35_large_threshold_counterexample`: propext, Classical.choice, Quot.sound
- `Iode.Sim.C35_lead_counterexample`: propext, Classical.choice, Quot.sound

## C36

- `Iode.Sim.C36_only_endogenous_at_simulated_periods`: propext, Quot.sound
- `Iode.Sim.C36_failure_keeps_the_solved_periods`: propext, Quot.sound
- `Iode.Sim.C36_failure_leaves_later_periods`: propext, Quot.sound
- `Iode.Sim.C36_exchange_counterexample`: propext, Classical.choice, Quot.sound

## C37

- `Iode.Sim.C37_exchange_swaps_partial`: propext, Classical.choice, Quot.sound
- `Iode.Sim.C37_target_becomes_exogenous_partial`: propext, Classical.choice, Quot.sound
- `Iode.Sim.C37_exchange_possible_iff`: propext, Classical.choice, Quot.sound
- `Iode.Sim.C37_target_is_kept`: propext, Quot.sound
- `Iode.Sim.C37_success_means_exchanged`: propext, Quot.sound
- `Iode.Sim.C37_target_still_solved_counterexample`: propext, Quot.sound
- `Iode.Sim.C37_second_exchange_counterexample`: propext, Quot.sound

## C38

- `Iode.Idt.C38_order_is_valid`: propext, Classical.choice, Quot.sound
- `Iode.Idt.C38_circular_rejected`: propext, Classical.choice, Quot.sound
- `Iode.Idt.C38_passes_suffice`: propext, Classical.choice, Quot.sound
- `Iode.Idt.C38_alphabetic_accepted`: propext, Classical.choice, Quot.sound
- `Iode.Idt.C38_accepted_iff_alphabetic_partial`: propext, Classical.choice, Quot.sound
- `Iode.Idt.C38_acyclic_rejected_counterexample`: propext, Quot.sound

## C39

- `Iode.Idt.C39_scalars_are_never_read`: propext, Classical.choice, Quot.sound
- `Iode.Idt.C39_execution_partial`: propext, Classical.choice, Quot.sound
- `Iode.Idt.C39_identities_hold_partial`: propext, Classical.choice, Quot.sound
- `Iode.Idt.C39_no_self`: propext, Classical.choice, Quot.sound
- `Iode.Idt.C39_lagged_self`: propext, Classical.choice, Quot.sound
- `Iode.Idt.C39_reads_itself_counterexample`: propext, Quot.sound
- `Iode.Idt.C39_scalar_counterexample`: propext, Quot.sound

## C40

- `Iode.Convert.C40_series_partial`: propext, Classical.choice, Quot.sound
- `Iode.Convert.C40_workspace_partial`: propext, Classical.choice, Quot.sound
- `Iode.Convert.C40_missing`: propext, Classical.choice, Quot.sound
- `Iode.Convert.C40_exact`: propext, Classical.choice, Quot.sound
- `Iode.Convert.C40_misdated_counterexample`: propext
- `Iode.Convert.C40_overflow_counterexample`: propext
- `Iode.Convert.C40_days_to_weeks_counterexample`: propext
- `Iode.Convert.C40_error_counterexample`: propext
- `Iode.Convert.C40_monthly_counterexample`: propext

## C41

- `Iode.Convert.C41_spread_partial`: propext, Classical.choice, Quot.sound
- `Iode.Convert.C41_back_partial`: propext, Classical.choice, Quot.sound
- `Iode.Convert.C41_stock_last_partial`: propext, Classical.choice, Quot.sound
- `Iode.Convert.C41_round_trip_partial`: propext, Classical.choice, Quot.sound
- `Iode.Convert.C41_workspace_partial`: propext, Classical.choice, Quot.sound
- `Iode.Convert.C41_linear_stock_counterexample`: propext, Classical.choice, Quot.sound
- `Iode.Convert.C41_linear_flow_partial`: propext, Classical.choice, Quot.sound
- `Iode.Convert.C41_linear_flow_counterexample`: propext
- `Iode.Convert.C41_misdated_counterexample`: propext

## C42

- `Iode.Ras.C42_rows`: propext, Classical.choice, Quot.sound
- `Iode.Ras.C42_columns`: propext, Classical.choice, Quot.sound
- `Iode.Ras.C42_columns_nonneg`: propext, Classical.choice, Quot.sound
- `Iode.Ras.C42_zero_rows`: propext, Classical.choice, Quot.sound
- `Iode.Ras.C42_biproportional`: propext, Classical.choice, Quot.sound
- `Iode.Ras.C42_zero_cells`: propext, Classical.choice, Quot.sound
- `Iode.Ras.C42_balanced_unchanged`: propext, Classical.choice, Quot.sound
- `Iode.Ras.C42_command_partial`: propext, Classical.choice, Quot.sound
- `Iode.Ras.C42_no_half_result`: propext, Classical.choice, Quot.sound
- `Iode.Ras.C42_zero_target_counterexample`: propext, Classical.choice, Quot.sound

## C43

- `Iode.GSample.C43_compiles_partial`: propext, Classical.choice, Quot.sound
- `Iode.GSample.C43_group_partial`: propext, Classical.choice, Quot.sound
- `Iode.GSample.C43_shift_right_partial`: propext, Classical.choice, Quot.sound
- `Iode.GSample.C43_valid`: propext, Classical.choice, Quot.sound
- `Iode.GSample.C43_left_counterexample`: propext
- `Iode.GSample.C43_documented_counterexample`: propext
- `Iode.GSample.C43_end_of_year_counterexample`: propext
- `Iode.GSample.C43_files_counterexample`: propext
- `Iode.GSample.C43_parentheses_counterexample`: propext

## C44

- `Iode.Macros.C44_save_restore`: propext, Classical.choice, Quot.sound
- `Iode.Macros.C44_report_partial`: propext, Classical.choice, Quot.sound
- `Iode.Macros.C44_loop_variable_partial`: propext, Classical.choice, Quot.sound
- `Iode.Macros.C44_terminates_partial`: propext, Classical.choice, Quot.sound
- `Iode.Macros.C44_undef_list_counterexample`: propext, Classical.choice, Quot.sound
- `Iode.Macros.C44_same_variable_counterexample`: propext, Classical.choice, Quot.sound
- `Iode.Macros.C44_undef_in_loop_counterexample`: propext, Classical.choice, Quot.sound
- `Iode.Macros.C44_return_in_loop_counterexample`: propext, Classical.choice, Quot.sound
- `Iode.Macros.C44_nested_name_counterexample`: propext, Classical.choice, Quot.sound
- `Iode.Macros.C44_no_parameter_counterexample`: propext, Classical.choice, Quot.sound
- `Iode.Macros.C44_long_name_counterexample`: propext, Classical.choice, Quot.sound

## C45

- `Iode.Obj.C45_file`: propext, Classical.choice, Quot.sound
- `Iode.Obj.C45_texts`: propext, Classical.choice, Quot.sound
- `Iode.Obj.C45_identities`: propext, Classical.choice, Quot.sound
- `Iode.Obj.C45_identity_empty`: propext, Quot.sound
- `Iode.Obj.C45_scalars`: propext, Classical.choice, Quot.sound
- `Iode.Obj.C45_variables`: propext, Classical.choice, Quot.sound
- `Iode.Obj.C45_equations_partial`: propext, Classical.choice, Quot.sound
- `Iode.Obj.C45_equation_sample_lost`: propext, Classical.choice, Quot.sound
- `Iode.Obj.C45_equation_comment_counterexample`: propext, Classical.choice, Quot.sound
- `Iode.Obj.C45_equation_comment_loaded`: propext, Quot.sound

## C46

- `Iode.Tbl.C46_pack`: propext, Classical.choice, Quot.sound
- `Iode.Tbl.C46_tables_partial`: propext, Classical.choice, Quot.sound
- `Iode.Tbl.C46_equal_iff`: propext, Quot.sound
- `Iode.Tbl.C46_equal_sound`: propext
- `Iode.Tbl.C46_bad_formula_counterexample`: propext, Classical.choice, Quot.sound
- `Iode.Tbl.C46_line_settings_counterexample`: propext, Classical.choice, Quot.sound
- `Iode.Tbl.C46_quotes_counterexample`: propext, Classical.choice, Quot.sound
- `Iode.Tbl.C46_lone_quote`: propext

## C47

- `Iode.Lec.C47_tokens`: propext, Classical.choice, Quot.sound
- `Iode.Lec.C47_unambiguous`: propext, Classical.choice, Quot.sound
- `Iode.Lec.C47_value`: propext, Classical.choice, Quot.sound
- `Iode.Lec.C47_lists`: propext, Classical.choice, Quot.sound
- `Iode.Lec.C47_lists_kept`: propext, Classical.choice, Quot.sound
- `Iode.Lec.C47_foreign`: propext, Classical.choice, Quot.sound
- `Iode.Lec.C47_no_period`: propext, Classical.choice, Quot.sound
- `Iode.Lec.C47_patterns`: propext, Classical.choice, Quot.sound
- `Iode.Lec.C47_list_changed_counterexample`: propext, Classical.choice, Quot.sound
- `Iode.Lec.C47_single_partial`: propext, Classical.choice, Quot.sound
- `Iode.Lec.C47_long_name_counterexample`: propext, Classical.choice, Quot.sound
- `Iode.Lec.C47_names_counterexample`: propext, Classical.choice, Quot.sound
- `Iode.Lec.C47_hash_counterexample`: propext, Classical.choice, Quot.sound
- `Iode.Lec.C47_keyword_counterexample`: propext, Classical.choice, Quot.sound
- `Iode.Lec.C47_comment_counterexample`: propext, Classical.choice, Quot.sound
- `Iode.Lec.C47_endless_counterexample`: propext, Classical.choice, Quot.sound
- `Iode.Lec.C47_long_number_counterexample`: propext, Classical.choice, Quot.sound

## C48

- `Iode.Asc.C48_load`: propext, Classical.choice, Quot.sound
- `Iode.Asc.C48_roundtrip`: propext, Classical.choice, Quot.sound
- `Iode.Asc.C48_exact`: propext, Classical.choice, Quot.sound
- `Iode.Asc.C48_stable`: propext, Classical.choice, Quot.sound
- `Iode.Asc.C48_exponent`: propext, Classical.choice, Quot.sound
- `Iode.Asc.C48_ties`: propext, Classical.choice, Quot.sound
- `Iode.Asc.C48_ends`: propext, Classical.choice, Quot.sound
- `Iode.Asc.C48_hash_counterexample`: propext, Classical.choice, Quot.sound
- `Iode.Asc.C48_reserved_counterexample`: propext, Classical.choice, Quot.sound
- `Iode.Asc.C48_infinity_counterexample`: propext, Classical.choice, Quot.sound
- `Iode.Asc.C48_digits_counterexample`: propext, Classical.choice, Quot.sound
- `Iode.Asc.C48_largest_counterexample`: propext, Classical.choice, Quot.sound
- `Iode.Asc.C48_long_number_counterexample`: propext, Classical.choice, Quot.sound
- `Iode.Asc.C48_bold_counterexample`: propext, Classical.choice, Quot.sound
- `Iode.Asc.C48_periods_counterexample`: propext, Classical.choice, Quot.sound

## C49

- `Iode.Asc.Texts.C49_lines`: propext, Classical.choice, Quot.sound
- `Iode.Asc.Texts.C49_ink`: propext, Classical.choice, Quot.sound
- `Iode.Asc.Texts.C49_line_length`: propext, Quot.sound
- `Iode.Asc.Texts.C49_line_end`: propext
- `Iode.Asc.Texts.C49_short`: propext, Quot.sound
- `Iode.Asc.Texts.C49_load`: propext, Classical.choice, Quot.sound
- `Iode.Asc.Texts.C49_load_identities`: propext, Classical.choice, Quot.sound
- `Iode.Asc.Texts.C49_roundtrip`: propext, Classical.choice, Quot.sound
- `Iode.Asc.Texts.C49_roundtrip_identities`: propext, Classical.choice, Quot.sound
- `Iode.Asc.Texts.C49_exact`: propext, Classical.choice, Quot.sound
- `Iode.Asc.Texts.C49_exact_identities`: propext, Classical.choice, Quot.sound
- `Iode.Asc.Texts.C49_stable`: propext, Classical.choice, Quot.sound
- `Iode.Asc.Texts.C49_stable_identities`: propext, Classical.choice, Quot.sound
- `Iode.Asc.Texts.C49_ink_kept`: propext, Classical.choice, Quot.sound
- `Iode.Asc.Texts.C49_ends`: propext, Classical.choice, Quot.sound
- `Iode.Asc.Texts.C49_caret_counterexample`: propext, Classical.choice, Quot.sound
- `Iode.Asc.Texts.C49_power_counterexample`: propext, Classical.choice, Quot.sound
- `Iode.Asc.Texts.C49_grow_counterexample`: propext, Classical.choice, Quot.sound
- `Iode.Asc.Texts.C49_newline_counterexample`: propext, Classical.choice, Quot.sound
- `Iode.Asc.Texts.C49_word_counterexample`: propext, Classical.choice, Quot.sound
- `Iode.Asc.Texts.C49_tab_counterexample`: propext, Classical.choice, Quot.sound
- `Iode.Asc.Texts.C49_hash_counterexample`: propext, Classical.choice, Quot.sound
- `Iode.Asc.Texts.C49_convert_counterexample`: propext, Classical.choice, Quot.sound
- `Iode.Asc.Texts.C49_quote_counterexample`: propext, Classical.choice, Quot.sound
- `Iode.Asc.Texts.C49_number_counterexample`: propext, Classical.choice, Quot.sound

## C50

- `Iode.Asc.Scalars.C50_load`: propext, Classical.choice, Quot.sound
- `Iode.Asc.Scalars.C50_roundtrip`: propext, Classical.choice, Quot.sound
- `Iode.Asc.Scalars.C50_exact`: propext, Classical.choice, Quot.sound
- `Iode.Asc.Scalars.C50_stable`: propext, Classical.choice, Quot.sound
- `Iode.Asc.Scalars.C50_ends`: propext, Classical.choice, Quot.sound
- `Iode.Asc.Scalars.C50_missing_counterexample`: propext, Classical.choice, Quot.sound
- `Iode.Asc.Scalars.C50_digits_counterexample`: propext, Classical.choice, Quot.sound
- `Iode.Asc.Scalars.C50_infinity_counterexample`: propext, Classical.choice, Quot.sound
- `Iode.Asc.Scalars.C50_hash_counterexample`: propext, Classical.choice, Quot.sound
- `Iode.Asc.Scalars.C50_na_counterexample`: propext, Classical.choice, Quot.sound
- `Iode.Asc.Scalars.C50_long_number_counterexample`: propext, Classical.choice, Quot.sound

## C51

- `Iode.Asc.Equations.C51_load`: propext, Classical.choice, Quot.sound
- `Iode.Asc.Equations.C51_roundtrip`: propext, Classical.choice, Quot.sound
- `Iode.Asc.Equations.C51_exact`: propext, Classical.choice, Quot.sound
- `Iode.Asc.Equations.C51_stable`: propext, Classical.choice, Quot.sound
- `Iode.Asc.Equations.C51_ends`: propext, Classical.choice, Quot.sound
- `Iode.Asc.Equations.C51_block_counterexample`: propext, Classical.choice, Quot.sound
- `Iode.Asc.Equations.C51_formula_counterexample`: propext, Classical.choice, Quot.sound
- `Iode.Asc.Equations.C51_sample_counterexample`: propext, Classical.choice, Quot.sound
- `Iode.Asc.Equations.C51_tests_counterexample`: propext, Classical.choice, Quot.sound
- `Iode.Asc.Equations.C51_infinity_counterexample`: propext, Classical.choice, Quot.sound
- `Iode.Asc.Equations.C51_digits_counterexample`: propext, Classical.choice, Quot.sound
- `Iode.Asc.Equations.C51_method_counterexample`: propext, Classical.choice, Quot.sound
- `Iode.Asc.Equations.C51_power_counterexample`: propext, Classical.choice, Quot.sound
- `Iode.Asc.Equations.C51_quote_counterexample`: propext, Classical.choice, Quot.sound
- `Iode.Asc.Equations.C51_string_counterexample`: propext, Classical.choice, Quot.sound
- `Iode.Asc.Equations.C51_empty_counterexample`: propext, Classical.choice, Quot.sound
- `Iode.Asc.Equations.C51_comment_counterexample`: propext, Classical.choice, Quot.sound
- `Iode.Asc.Equations.C51_hash_counterexample`: propext, Classical.choice, Quot.sound

## C52

- `Iode.Asc.Tables.C52_load`: propext, Classical.choice, Quot.sound
- `Iode.Asc.Tables.C52_failed`: propext, Classical.choice, Quot.sound
- `Iode.Asc.Tables.C52_roundtrip`: propext, Classical.choice, Quot.sound
- `Iode.Asc.Tables.C52_axis`: propext, Classical.choice, Quot.sound
- `Iode.Asc.Tables.C52_exact`: propext, Classical.choice, Quot.sound
- `Iode.Asc.Tables.C52_stable`: propext, Classical.choice, Quot.sound
- `Iode.Asc.Tables.C52_lost_counterexample`: propext, Classical.choice, Quot.sound
- `Iode.Asc.Tables.C52_endless_counterexample`: propext, Classical.choice, Quot.sound
- `Iode.Asc.Tables.C52_name_counterexample`: propext, Classical.choice, Quot.sound
- `Iode.Asc.Tables.C52_sign_counterexample`: propext, Classical.choice, Quot.sound
- `Iode.Asc.Tables.C52_quotes_counterexample`: propext, Classical.choice, Quot.sound
- `Iode.Asc.Tables.C52_bold_counterexample`: propext, Classical.choice, Quot.sound
- `Iode.Asc.Tables.C52_infinity_counterexample`: propext, Classical.choice, Quot.sound
- `Iode.Asc.Tables.C52_title_counterexample`: propext, Classical.choice, Quot.sound
- `Iode.Asc.Tables.C52_order_counterexample`: propext, Classical.choice, Quot.sound
- `Iode.Asc.Tables.C52_thrown_counterexample`: propext, Classical.choice, Quot.sound
- `Iode.Asc.Tables.C52_stray_counterexample`: propext, Classical.choice, Quot.sound

## C53

- `Iode.Hodrick.C53.C53_level`: propext, Classical.choice, Quot.sound
- `Iode.Hodrick.C53.C53_log`: propext, Classical.choice, Quot.sound
- `Iode.Hodrick.C53.C53_log_none`: propext, Quot.sound
- `Iode.Hodrick.C53.C53_short`: propext, Quot.sound
- `Iode.Hodrick.C53.C53_formula`: propext, Classical.choice, Quot.sound
- `Iode.Hodrick.C53.C53_moments`: propext, Classical.choice, Quot.sound
- `Iode.Hodrick.C53.C53_straight`: propext, Classical.choice, Quot.sound
- `Iode.Hodrick.C53.C53_zero`: propext, Classical.choice, Quot.sound
- `Iode.Hodrick.C53.C53_gap_counterexample`: propext, Classical.choice, Quot.sound
- `Iode.Hodrick.C53.C53_small_counterexample`: propext, Classical.choice, Quot.sound
- `Iode.Hodrick.C53.C53_negative_counterexample`: propext, Classical.choice, Quot.sound
- `Iode.Hodrick.C53.C53_four_counterexample`: propext, Classical.choice, Quot.sound

## C54

- `Iode.Lin.C54.C54_exact`: propext, Classical.choice, Quot.sound
- `Iode.Lin.C54.C54_solve_partial`: propext, Classical.choice, Quot.sound
- `Iode.Lin.C54.C54_inverse`: propext, Classical.choice, Quot.sound
- `Iode.Lin.C54.C54_inverse_solves`: propext, Classical.choice, Quot.sound
- `Iode.Lin.C54.C54_inverse_none`: propext, Classical.choice, Quot.sound
- `Iode.Lin.C54.C54_positive`: propext, Classical.choice, Quot.sound
- `Iode.Lin.C54.C54_small_counterexample`: propext, Classical.choice, Quot.sound
- `Iode.Lin.C54.C54_skipped_counterexample`: propext, Classical.choice, Quot.sound
- `Iode.Lin.C54.C54_pivot_counterexample`: propext, Classical.choice, Quot.sound

## C55

- `Iode.Estim.C55.C55_lsq_partial`: propext, Classical.choice, Quot.sound
- `Iode.Estim.C55.C55_covariance_partial`: propext, Classical.choice, Quot.sound
- `Iode.Estim.C55.C55_iv_partial`: propext, Classical.choice, Quot.sound
- `Iode.Estim.C55.C55_zellner_partial`: propext, Classical.choice, Quot.sound
- `Iode.Estim.C55.C55_stages_partial`: propext, Classical.choice, Quot.sound
- `Iode.Estim.C55.C55_orthogonal`: propext, Classical.choice, Quot.sound
- `Iode.Estim.C55.C55_unique`: propext, Classical.choice, Quot.sound
- `Iode.Estim.C55.C55_singular_partial`: propext, Classical.choice, Quot.sound
- `Iode.Estim.C55.C55_dependent_partial`: propext, Classical.choice, Quot.sound
- `Iode.Estim.C55.C55_one_instrument`: propext, Classical.choice, Quot.sound
- `Iode.Estim.C55.C55_perfect_counterexample`: propext, Classical.choice, Quot.sound
- `Iode.Estim.C55.C55_last_iteration_counterexample`: propext, Classical.choice, Quot.sound
- `Iode.Estim.C55.C55_rounds`: propext, Quot.sound
- `Iode.Estim.C55.C55_zero_counterexample`: propext, Classical.choice, Quot.sound
- `Iode.Estim.C55.C55_small_start_counterexample`: propext, Classical.choice, Quot.sound
- `Iode.Estim.C55.C55_negative_counterexample`: propext, Classical.choice, Quot.sound
- `Iode.Estim.C55.C55_one_instrument_counterexample`: propext, Classical.choice, Quot.sound

## C56

- `Iode.Estim.C56.C56_residuals`: propext, Classical.choice, Quot.sound
- `Iode.Estim.C56.C56_estimated`: propext, Classical.choice, Quot.sound
- `Iode.Estim.C56.C56_stderr`: propext, Classical.choice, Quot.sound
- `Iode.Estim.C56.C56_dependent`: propext, Classical.choice, Quot.sound
- `Iode.Estim.C56.C56_rsquare`: propext, Classical.choice, Quot.sound
- `Iode.Estim.C56.C56_adjusted`: propext, Classical.choice, Quot.sound
- `Iode.Estim.C56.C56_rsquare_nonneg_partial`: propext, Classical.choice, Quot.sound
- `Iode.Estim.C56.C56_fstat`: propext, Classical.choice, Quot.sound
- `Iode.Estim.C56.C56_durbin`: propext, Classical.choice, Quot.sound
- `Iode.Estim.C56.C56_residual_correlations`: propext, Classical.choice, Quot.sound
- `Iode.Estim.C56.C56_coefficient_correlations`: propext, Classical.choice, Quot.sound
- `Iode.Estim.C56.C56_coefficient_error`: propext, Classical.choice, Quot.sound
- `Iode.Estim.C56.C56_degrees`: propext, Classical.choice, Quot.sound
- `Iode.Estim.C56.C56_ols_error_partial`: propext, Classical.choice, Quot.sound
- `Iode.Estim.C56.C56_likelihood`: propext, Classical.choice, Quot.sound
- `Iode.Estim.C56.C56_likelihood_one`: propext, Classical.choice, Quot.sound
- `Iode.Estim.C56.C56_constant_counterexample`: propext, Classical.choice, Quot.sound
- `Iode.Estim.C56.C56_negative_counterexample`: propext, Classical.choice, Quot.sound
- `Iode.Estim.C56.C56_one_coefficient_counterexample`: propext, Classical.choice, Quot.sound
- `Iode.Estim.C56.C56_degrees_counterexample`: propext, Classical.choice, Quot.sound

## C57

- `Iode.EstPrep.C57.C57_scalars`: propext, Quot.sound
- `Iode.EstPrep.C57.C57_position`: propext, Classical.choice, Quot.sound
- `Iode.EstPrep.C57.C57_coefficients_partial`: propext, Classical.choice, Quot.sound
- `Iode.EstPrep.C57.C57_in_equation_partial`: propext, Classical.choice, Quot.sound
- `Iode.EstPrep.C57.C57_counts_partial`: propext, Classical.choice, Quot.sound
- `Iode.EstPrep.C57.C57_value_partial`: propext, Classical.choice, Quot.sound
- `Iode.EstPrep.C57.C57_accepted_partial`: propext, Classical.choice, Quot.sound
- `Iode.EstPrep.C57.C57_known`: propext, Quot.sound
- `Iode.EstPrep.C57.C57_single`: propext, Quot.sound
- `Iode.EstPrep.C57.C57_again`: propext, Quot.sound
- `Iode.EstPrep.C57.C57_lost_counterexample`: propext, Classical.choice, Quot.sound
- `Iode.EstPrep.C57.C57_value_counterexample`: propext, Classical.choice, Quot.sound

## C58

- `Iode.StepWise.C58.C58_best_partial`: propext, Classical.choice, Quot.sound
- `Iode.StepWise.C58.C58_none_partial`: propext, Classical.choice, Quot.sound
- `Iode.StepWise.C58.C58_missing`: propext, Quot.sound
- `Iode.StepWise.C58.C58_many_counterexample`: propext, Quot.sound
- `Iode.StepWise.C58.C58_one_counterexample`: propext, Classical.choice, Quot.sound
- `Iode.StepWise.C58.C58_failed_counterexample`: propext, Classical.choice, Quot.sound
- `Iode.StepWise.C58.C58_buffer_counterexample`: propext, Classical.choice, Quot.sound

## C59

- `Iode.TblCalc.C59_column`: propext, Classical.choice, Quot.sound
- `Iode.TblCalc.C59_files`: propext, Classical.choice, Quot.sound
- `Iode.TblCalc.C59_total`: propext, Quot.sound
- `Iode.TblCalc.C59_line`: propext, Classical.choice, Quot.sound
- `Iode.TblCalc.C59_opposite_counterexample`: propext, Classical.choice, Quot.sound
- `Iode.TblCalc.C59_divisor_counterexample`: propext, Classical.choice, Quot.sound
- `Iode.TblCalc.C59_number_counterexample`: propext, Classical.choice, Quot.sound

## C60

- `Iode.TblEdit.C60_shows_partial`: propext, Classical.choice, Quot.sound
- `Iode.TblEdit.C60_changes`: propext, Classical.choice, Quot.sound
- `Iode.TblEdit.C60_twice_refused`: propext, Classical.choice, Quot.sound
- `Iode.TblEdit.C60_lagged_refused`: propext, Classical.choice, Quot.sound
- `Iode.TblEdit.C60_plain`: propext, Classical.choice, Quot.sound
- `Iode.TblEdit.C60_sum_divisor_counterexample`: propext, Classical.choice, Quot.sound
- `Iode.TblEdit.C60_small_counterexample`: propext, Classical.choice, Quot.sound
- `Iode.TblEdit.C60_editable_counterexample`: propext, Classical.choice, Quot.sound
- `Iode.TblEdit.C60_stack_counterexample`: propext

## C61

- `Iode.Aggr.C61_sum`: propext, Classical.choice, Quot.sound
- `Iode.Aggr.C61_product_partial`: propext, Classical.choice, Quot.sound
- `Iode.Aggr.C61_mean_partial`: propext, Classical.choice, Quot.sound
- `Iode.Aggr.C61_refused`: propext, Classical.choice, Quot.sound
- `Iode.Aggr.C61_underscore`: propext, Classical.choice, Quot.sound
- `Iode.Aggr.C61_workspace`: propext, Classical.choice, Quot.sound
- `Iode.Aggr.C61_mean_counterexample`: propext, Classical.choice, Quot.sound
- `Iode.Aggr.C61_mean_counter_counterexample`: propext, Classical.choice, Quot.sound
- `Iode.Aggr.C61_product_missing_counterexample`: propext, Classical.choice, Quot.sound
- `Iode.Aggr.C61_nochar_counterexample`: propext, Classical.choice, Quot.sound
- `Iode.Aggr.C61_blank_counterexample`: propext, Classical.choice, Quot.sound
- `Iode.Aggr.C61_nosample_counterexample`: propext, Classical.choice, Quot.sound

## C62

- `Iode.Expand.C62_words`: propext, Classical.choice, Quot.sound
- `Iode.Expand.C62_quoted`: propext, Quot.sound
- `Iode.Expand.C62_line`: propext, Classical.choice, Quot.sound
- `Iode.Expand.C62_escape`: propext, Classical.choice, Quot.sound
- `Iode.Expand.C62_plain`: propext, Classical.choice, Quot.sound
- `Iode.Expand.C62_call`: propext, Classical.choice, Quot.sound
- `Iode.Expand.C62_args`: propext, Classical.choice, Quot.sound
- `Iode.Expand.C62_end_counterexample`: propext, Classical.choice, Quot.sound
- `Iode.Expand.C62_open_counterexample`: propext, Classical.choice, Quot.sound
- `Iode.Expand.C62_percent_counterexample`: propext, Classical.choice, Quot.sound
- `Iode.Expand.C62_noname_counterexample`: propext, Classical.choice, Quot.sound
- `Iode.Expand.C62_unshift_counterexample`: propext, Classical.choice, Quot.sound
- `Iode.Expand.C62_shift_counterexample`: propext, Classical.choice, Quot.sound
- `Iode.Expand.C62_flag_counterexample`: propext, Classical.choice, Quot.sound
- `Iode.Expand.C62_all_counterexample`: propext, Classical.choice, Quot.sound

## C63

- `Iode.Report.C63_unique`: propext, Classical.choice, Quot.sound
- `Iode.Report.C63_text`: propext, Classical.choice, Quot.sound
- `Iode.Report.C63_note`: propext, Classical.choice, Quot.sound
- `Iode.Report.C63_end`: propext, Classical.choice, Quot.sound
- `Iode.Report.C63_command`: propext, Classical.choice, Quot.sound
- `Iode.Report.C63_error`: propext, Classical.choice, Quot.sound
- `Iode.Report.C63_return`: propext, Classical.choice, Quot.sound
- `Iode.Report.C63_abort`: propext, Classical.choice, Quot.sound
- `Iode.Report.C63_label`: propext, Classical.choice, Quot.sound
- `Iode.Report.C63_shift`: propext, Classical.choice, Quot.sound
- `Iode.Report.C63_call`: propext, Classical.choice, Quot.sound
- `Iode.Report.C63_onerror`: propext, Classical.choice, Quot.sound
- `Iode.Report.C63_goto`: propext, Classical.choice, Quot.sound
- `Iode.Report.C63_goto_if`: propext, Classical.choice, Quot.sound
- `Iode.Report.C63_codes`: propext, Classical.choice, Quot.sound
- `Iode.Report.C63_restored`: propext, Classical.choice, Quot.sound
- `Iode.Report.C63_multiline`: propext, Classical.choice, Quot.sound
- `Iode.Report.C63_replace`: propext, Quot.sound
- `Iode.Report.C63_repeat`: propext, Classical.choice, Quot.sound
- `Iode.Report.C63_loop`: propext, Classical.choice, Quot.sound
- `Iode.Report.C63_goto_minus_counterexample`: propext, Classical.choice, Quot.sound
- `Iode.Report.C63_goto_value_counterexample`: propext, Classical.choice, Quot.sound
- `Iode.Report.C63_goto_written_counterexample`: propext, Classical.choice, Quot.sound
- `Iode.Report.C63_quit_counterexample`: propext, Classical.choice, Quot.sound
- `Iode.Report.C63_reaction_counterexample`: propext, Classical.choice, Quot.sound
- `Iode.Report.C63_abort_counterexample`: propext, Classical.choice, Quot.sound
- `Iode.Report.C63_long_counterexample`: propext, Classical.choice, Quot.sound
- `Iode.Report.C63_repeat_counterexample`: propext, Classical.choice, Quot.sound
- `Iode.Report.C63_room_counterexample`: propext, Classical.choice, Quot.sound
- `Iode.Report.C63_code_counterexample`: propext, Classical.choice, Quot.sound

## C64

- `Iode.Args.C64_words`: propext, Quot.sound
- `Iode.Args.C64_arguments`: propext, Classical.choice, Quot.sound
- `Iode.Args.C64_exact`: propext, Classical.choice, Quot.sound
- `Iode.Args.C64_unknown`: propext, Classical.choice, Quot.sound
- `Iode.Args.C64_replaced`: propext, Classical.choice, Quot.sound
- `Iode.Args.C64_quoted`: propext, Quot.sound
- `Iode.Args.C64_empty_quotes_counterexample`: propext, Classical.choice, Quot.sound
- `Iode.Args.C64_inner_quote_counterexample`: propext, Classical.choice, Quot.sound
- `Iode.Args.C64_quoted_list_counterexample`: propext, Classical.choice, Quot.sound
- `Iode.Args.C64_list_quotes_counterexample`: propext, Classical.choice, Quot.sound
- `Iode.Args.C64_cycle_counterexample`: propext, Classical.choice, Quot.sound
- `Iode.Args.C64_missing_file_counterexample`: propext, Classical.choice, Quot.sound
- `Iode.Args.C64_long_word_counterexample`: propext, Classical.choice, Quot.sound
- `Iode.Args.C64_long_quoted_counterexample`: propext, Classical.choice, Quot.sound
- `Iode.Args.C64_message_counterexample`: propext, Classical.choice, Quot.sound

## C65

- `Iode.LstCalc.C65_unique`: propext, Classical.choice, Quot.sound
- `Iode.LstCalc.C65_calc`: propext, Classical.choice, Quot.sound
- `Iode.LstCalc.C65_refused`: propext, Classical.choice, Quot.sound
- `Iode.LstCalc.C65_sort`: propext, Classical.choice, Quot.sound
- `Iode.LstCalc.C65_count`: propext, Classical.choice, Quot.sound
- `Iode.LstCalc.C65_pattern`: propext, Classical.choice, Quot.sound
- `Iode.LstCalc.C65_unknown_counterexample`: propext, Classical.choice, Quot.sound
- `Iode.LstCalc.C65_twice_counterexample`: propext, Classical.choice, Quot.sound
- `Iode.LstCalc.C65_operation_counterexample`: propext, Classical.choice, Quot.sound
- `Iode.LstCalc.C65_count_counterexample`: propext, Classical.choice, Quot.sound
- `Iode.LstCalc.C65_pattern_kept_counterexample`: propext, Classical.choice, Quot.sound
- `Iode.LstCalc.C65_pattern_one_counterexample`: propext, Classical.choice, Quot.sound
- `Iode.LstCalc.C65_pattern_long_counterexample`: propext, Classical.choice, Quot.sound

## C66

- `Iode.Compare.C66_value`: propext, Classical.choice, Quot.sound
- `Iode.Compare.C66_eps`: propext, Classical.choice, Quot.sound
- `Iode.Compare.C66_variable`: propext, Classical.choice, Quot.sound
- `Iode.Compare.C66_variable_self`: propext, Classical.choice, Quot.sound
- `Iode.Compare.C66_scalar`: propext
- `Iode.Compare.C66_equation`: propext
- `Iode.Compare.C66_table`: propext, Classical.choice, Quot.sound
- `Iode.Compare.C66_four`: propext, Classical.choice, Quot.sound
- `Iode.Compare.C66_lists`: propext, Classical.choice, Quot.sound
- `Iode.Compare.C66_symmetric_counterexample`: propext, Classical.choice, Quot.sound
- `Iode.Compare.C66_sample_counterexample`: propext, Classical.choice, Quot.sound
- `Iode.Compare.C66_empty_counterexample`: propext, Classical.choice, Quot.sound
- `Iode.Compare.C66_names_counterexample`: propext, Classical.choice, Quot.sound
- `Iode.Compare.C66_equation_counterexample`: propext
- `Iode.Compare.C66_table_counterexample`: propext
- `Iode.Compare.C66_title_counterexample`: propext

## C67

- `Iode.Mtfn.C67_covar`: propext, Classical.choice, Quot.sound
- `Iode.Mtfn.C67_covar0`: propext, Classical.choice, Quot.sound
- `Iode.Mtfn.C67_missing`: propext, Classical.choice, Quot.sound
- `Iode.Mtfn.C67_var_nonneg`: propext, Classical.choice, Quot.sound
- `Iode.Mtfn.C67_products`: propext, Classical.choice, Quot.sound
- `Iode.Mtfn.C67_index`: propext, Classical.choice, Quot.sound
- `Iode.Mtfn.C67_acf`: propext, Classical.choice, Quot.sound
- `Iode.Mtfn.C67_acf_degree`: propext, Quot.sound
- `Iode.Mtfn.C67_acf_bound`: propext, Classical.choice, Quot.sound
- `Iode.Mtfn.C67_stddev`: propext, Classical.choice, Quot.sound
- `Iode.Mtfn.C67_corr`: propext, Classical.choice, Quot.sound
- `Iode.Mtfn.C67_corr_bound`: propext, Classical.choice, Quot.sound
- `Iode.Mtfn.C67_kept`: propext, Quot.sound
- `Iode.Mtfn.C67_interpol`: propext, Classical.choice, Quot.sound
- `Iode.Mtfn.C67_interpol_last`: propext, Classical.choice, Quot.sound
- `Iode.Mtfn.C67_interpol_first`: propext, Classical.choice, Quot.sound
- `Iode.Mtfn.C67_interpol_one`: propext, Quot.sound
- `Iode.Mtfn.C67_nothing`: propext, Classical.choice, Quot.sound
- `Iode.Mtfn.C67_dapp`: propext, Classical.choice, Quot.sound
- `Iode.Mtfn.C67_dapp_last`: propext, Quot.sound
- `Iode.Mtfn.C67_dapp_first`: propext, Quot.sound
- `Iode.Mtfn.C67_app_last`: propext, Quot.sound
- `Iode.Mtfn.C67_app_first`: propext, Quot.sound
- `Iode.Mtfn.C67_app_none`: propext, Quot.sound
- `Iode.Mtfn.C67_app`: propext, Classical.choice, Quot.sound
- `Iode.Mtfn.C67_covar0_counterexample`: propext, Classical.choice, Quot.sound
- `Iode.Mtfn.C67_constant_counterexample`: propext, Classical.choice, Quot.sound
- `Iode.Mtfn.C67_zero_counterexample`: propext, Classical.choice, Quot.sound
- `Iode.Mtfn.C67_only_zeros_counterexample`: propext, Classical.choice, Quot.sound

## C68

- `Iode.Scan.C68_scan`: propext, Classical.choice, Quot.sound
- `Iode.Scan.C68_unique`: propext, Classical.choice, Quot.sound
- `Iode.Scan.C68_refused`: propext, Classical.choice, Quot.sound
- `Iode.Scan.C68_word`: propext, Quot.sound
- `Iode.Scan.C68_equations`: propext, Classical.choice, Quot.sound
- `Iode.Scan.C68_tables`: propext, Classical.choice, Quot.sound
- `Iode.Scan.C68_all_counterexample`: propext, Classical.choice, Quot.sound
- `Iode.Scan.C68_empty_cell_counterexample`: propext, Classical.choice, Quot.sound

## C69

- `Iode.RepFn.C69_number`: propext, Classical.choice, Quot.sound
- `Iode.RepFn.C69_take`: propext, Classical.choice, Quot.sound
- `Iode.RepFn.C69_drop`: propext, Quot.sound
- `Iode.RepFn.C69_parts`: propext, Classical.choice, Quot.sound
- `Iode.RepFn.C69_take_counterexample`: propext, Classical.choice, Quot.sound
- `Iode.RepFn.C69_replace`: propext, Classical.choice, Quot.sound
- `Iode.RepFn.C69_replace_none`: propext, Classical.choice, Quot.sound
- `Iode.RepFn.C69_blanks`: propext, Quot.sound
- `Iode.RepFn.C69_case`: propext, Quot.sound
- `Iode.RepFn.C69_equal`: propext, Quot.sound
- `Iode.RepFn.C69_fmt`: propext, Classical.choice, Quot.sound
- `Iode.RepFn.C69_fmt_counterexample`: propext, Classical.choice, Quot.sound
- `Iode.RepFn.C69_index`: propext, Quot.sound
- `Iode.RepFn.C69_vtake`: propext, Quot.sound
- `Iode.RepFn.C69_vdrop`: propext, Quot.sound
- `Iode.RepFn.C69_vcount`: propext, Quot.sound
- `Iode.RepFn.C69_loop`: propext, Classical.choice, Quot.sound
- `Iode.RepFn.C69_vtake_counterexample`: propext, Classical.choice, Quot.sound
- `Iode.RepFn.C69_names`: propext, Classical.choice, Quot.sound
- `Iode.RepFn.C69_names_once`: none
- `Iode.RepFn.C69_line`: propext, Classical.choice, Quot.sound
- `Iode.RepFn.C69_empty_counterexample`: propext, Classical.choice, Quot.sound

## C70

- `Iode.DynAdj.C70_adjusted`: propext, Classical.choice, Quot.sound
- `Iode.DynAdj.C70_corrected`: propext, Classical.choice, Quot.sound
- `Iode.DynAdj.C70_adjusted_value`: propext, Classical.choice, Quot.sound
- `Iode.DynAdj.C70_corrected_value`: propext, Quot.sound
- `Iode.DynAdj.C70_read`: propext, Classical.choice, Quot.sound
- `Iode.DynAdj.C70_refused`: propext, Classical.choice, Quot.sound
- `Iode.DynAdj.C70_priority_counterexample`: propext, Classical.choice, Quot.sound
- `Iode.DynAdj.C70_text_counterexample`: propext, Classical.choice, Quot.sound

## C71

- `Iode.Scc.C71_lists`: propext, Classical.choice, Quot.sound
- `Iode.Scc.C71_report`: propext, Classical.choice, Quot.sound
- `Iode.Scc.C71_api`: propext, Classical.choice, Quot.sound
- `Iode.Scc.C71_same`: propext, Classical.choice, Quot.sound
- `Iode.Scc.C71_empty_undefined`: propext, Quot.sound
- `Iode.Scc.C71_refused`: propext, Quot.sound
- `Iode.Scc.C71_missing`: propext, Quot.sound
- `Iode.Scc.C71_names_counterexample`: propext, Classical.choice, Quot.sound
- `Iode.Scc.C71_stale_counterexample`: propext, Classical.choice, Quot.sound

## C72

- `Iode.Imp.C72_rules_partial`: propext, Classical.choice, Quot.sound
- `Iode.Imp.C72_blank_undefined`: propext, Classical.choice, Quot.sound
- `Iode.Imp.C72_import_partial`: propext, Classical.choice, Quot.sound
- `Iode.Imp.C72_refused_partial`: propext, Classical.choice, Quot.sound
- `Iode.Imp.C72_periods`: propext, Classical.choice, Quot.sound
- `Iode.Imp.C72_default`: propext, Classical.choice, Quot.sound
- `Iode.Imp.C72_load`: propext, Classical.choice, Quot.sound
- `Iode.Imp.C72_periods_counterexample`: propext, Classical.choice, Quot.sound
- `Iode.Imp.C72_header_undefined`: propext, Classical.choice, Quot.sound
- `Iode.Imp.C72_comments_partial`: propext, Classical.choice, Quot.sound
- `Iode.Imp.C72_rotated_counterexample`: propext, Classical.choice, Quot.sound
- `Iode.Imp.C72_formats_undefined`: propext
- `Iode.Imp.C72_api_counterexample`: propext, Classical.choice, Quot.sound

## C73

- `Iode.Exp.C73_csv_partial`: propext, Classical.choice, Quot.sound
- `Iode.Exp.C73_rotated_partial`: propext, Classical.choice, Quot.sound
- `Iode.Exp.C73_dif_partial`: propext, Classical.choice, Quot.sound
- `Iode.Exp.C73_sample_partial`: propext, Classical.choice, Quot.sound
- `Iode.Exp.C73_default_partial`: propext, Classical.choice, Quot.sound
- `Iode.Exp.C73_precision`: propext, Classical.choice, Quot.sound
- `Iode.Exp.C73_tab_counterexample`: propext, Classical.choice, Quot.sound
- `Iode.Exp.C73_dif_counterexample`: propext, Classical.choice, Quot.sound
- `Iode.Exp.C73_file_undefined`: propext, Classical.choice, Quot.sound
- `Iode.Exp.C73_api_undefined`: propext, Classical.choice, Quot.sound
- `Iode.Exp.C73_api`: propext, Classical.choice, Quot.sound
- `Iode.Exp.C73_refused_partial`: propext, Classical.choice, Quot.sound
- `Iode.Exp.C73_create_counterexample`: propext, Classical.choice, Quot.sound
- `Iode.Exp.C73_save_partial`: propext, Classical.choice, Quot.sound
- `Iode.Exp.C73_save_default_undefined`: propext, Classical.choice, Quot.sound
- `Iode.Exp.C73_save_sample_counterexample`: propext, Classical.choice, Quot.sound
- `Iode.Exp.C73_save_behind_undefined`: propext, Classical.choice, Quot.sound
- `Iode.Exp.C73_digits_counterexample`: propext, Classical.choice, Quot.sound
- `Iode.Exp.C73_limit_counterexample`: propext, Classical.choice, Quot.sound
- `Iode.Exp.C73_comment_counterexample`: propext, Classical.choice, Quot.sound

## C74

- `Iode.DataCmd.C74_create`: propext, Classical.choice, Quot.sound
- `Iode.DataCmd.C74_create_exists`: propext, Classical.choice, Quot.sound
- `Iode.DataCmd.C74_create_variables`: propext, Classical.choice, Quot.sound
- `Iode.DataCmd.C74_delete`: propext, Classical.choice, Quot.sound
- `Iode.DataCmd.C74_delete_unknown`: propext, Classical.choice, Quot.sound
- `Iode.DataCmd.C74_delete_pattern_partial`: propext, Classical.choice, Quot.sound
- `Iode.DataCmd.C74_delete_twice_counterexample`: propext, Classical.choice, Quot.sound
- `Iode.DataCmd.C74_rename`: propext, Classical.choice, Quot.sound
- `Iode.DataCmd.C74_rename_refused`: propext, Classical.choice, Quot.sound
- `Iode.DataCmd.C74_duplicate`: propext, Classical.choice, Quot.sound
- `Iode.DataCmd.C74_duplicate_counterexample`: propext, Classical.choice, Quot.sound
- `Iode.DataCmd.C74_exist`: propext, Quot.sound
- `Iode.DataCmd.C74_update_text`: propext, Classical.choice, Quot.sound
- `Iode.DataCmd.C74_append`: propext, Classical.choice, Quot.sound
- `Iode.DataCmd.C74_update_scl`: propext, Classical.choice, Quot.sound
- `Iode.DataCmd.C74_update_scl_refused`: propext, Classical.choice, Quot.sound
- `Iode.DataCmd.C74_update_var`: propext, Classical.choice, Quot.sound
- `Iode.DataCmd.C74_update_before`: propext, Classical.choice, Quot.sound
- `Iode.DataCmd.C74_update_no_sample`: propext, Classical.choice, Quot.sound
- `Iode.DataCmd.C74_list_partial`: propext, Classical.choice, Quot.sound
- `Iode.DataCmd.C74_search_partial`: propext, Classical.choice, Quot.sound
- `Iode.DataCmd.C74_bad_period_counterexample`: propext, Classical.choice, Quot.sound
- `Iode.DataCmd.C74_no_period_undefined`: propext, Classical.choice, Quot.sound
- `Iode.DataCmd.C74_nothing_undefined`: propext, Classical.choice, Quot.sound
- `Iode.DataCmd.C74_long_name_counterexample`: propext, Classical.choice, Quot.sound
- `Iode.DataCmd.C74_sign_counterexample`: propext, Classical.choice, Quot.sound
- `Iode.DataCmd.C74_long_equation_undefined`: propext, Classical.choice, Quot.sound
- `Iode.DataCmd.C74_bad_name_counterexample`: propext, Classical.choice, Quot.sound

## C75

- `Iode.VarOps.C75_scalar`: propext, Classical.choice, Quot.sound
- `Iode.VarOps.C75_scalar_refused`: propext, Classical.choice, Quot.sound
- `Iode.VarOps.C75_period`: propext, Classical.choice, Quot.sound
- `Iode.VarOps.C75_period_zero`: propext, Classical.choice, Quot.sound
- `Iode.VarOps.C75_period_refused`: propext, Classical.choice, Quot.sound
- `Iode.VarOps.C75_one_var`: propext, Classical.choice, Quot.sound
- `Iode.VarOps.C75_one_var_zero`: propext, Classical.choice, Quot.sound
- `Iode.VarOps.C75_one_var_short_undefined`: propext, Classical.choice, Quot.sound
- `Iode.VarOps.C75_one_var_refused`: propext, Classical.choice, Quot.sound
- `Iode.VarOps.C75_two_vars`: propext, Classical.choice, Quot.sound
- `Iode.VarOps.C75_copy`: propext, Classical.choice, Quot.sound
- `Iode.VarOps.C75_two_refused`: propext, Classical.choice, Quot.sound
- `Iode.VarOps.C75_add`: propext, Classical.choice, Quot.sound
- `Iode.VarOps.C75_add_empty`: propext, Classical.choice, Quot.sound
- `Iode.VarOps.C75_overlap_counterexample`: propext, Classical.choice, Quot.sound
- `Iode.VarOps.C75_add_first_counterexample`: propext, Classical.choice, Quot.sound
- `Iode.VarOps.C75_missing_counterexample`: propext, Classical.choice, Quot.sound
- `Iode.VarOps.C75_missing_add`: propext, Classical.choice, Quot.sound

## C76

- `Iode.EqsCmd.C76_sample`: propext, Quot.sound
- `Iode.EqsCmd.C76_sample_unknown`: propext, Quot.sound
- `Iode.EqsCmd.C76_sample_refused`: propext
- `Iode.EqsCmd.C76_block`: propext, Classical.choice, Quot.sound
- `Iode.EqsCmd.C76_block_unknown`: propext, Classical.choice, Quot.sound
- `Iode.EqsCmd.C76_method`: propext, Classical.choice, Quot.sound
- `Iode.EqsCmd.C76_comment`: propext, Classical.choice, Quot.sound
- `Iode.EqsCmd.C76_instruments`: propext, Classical.choice, Quot.sound
- `Iode.EqsCmd.C76_text_unknown`: propext, Classical.choice, Quot.sound
- `Iode.EqsCmd.C76_long_name_undefined`: propext, Classical.choice, Quot.sound
- `Iode.EqsCmd.C76_blanks_counterexample`: propext, Classical.choice, Quot.sound
- `Iode.EqsCmd.C76_method_counterexample`: propext, Classical.choice, Quot.sound
- `Iode.EqsCmd.C76_nothing_undefined`: propext, Classical.choice, Quot.sound

## C77

- `Iode.EstSave.C77_saved`: propext, Classical.choice, Quot.sound
- `Iode.EstSave.C77_failed`: propext, Classical.choice, Quot.sound
- `Iode.EstSave.C77_kept`: propext, Classical.choice, Quot.sound
- `Iode.EstSave.C77_all`: propext, Classical.choice, Quot.sound
- `Iode.EstSave.C77_unknown`: propext, Classical.choice, Quot.sound
- `Iode.EstSave.C77_member_undefined`: propext, Classical.choice, Quot.sound
- `Iode.EstSave.C77_member_counterexample`: propext, Classical.choice, Quot.sound
- `Iode.EstSave.C77_number_counterexample`: propext, Classical.choice, Quot.sound
- `Iode.EstSave.C77_rest_counterexample`: propext, Classical.choice, Quot.sound
- `Iode.EstSave.C77_own_counterexample`: propext, Classical.choice, Quot.sound

## C78

- `Iode.DfTest.C78_result`: propext, Classical.choice, Quot.sound
- `Iode.DfTest.C78_refused`: propext, Classical.choice, Quot.sound
- `Iode.DfTest.C78_failed`: propext, Classical.choice, Quot.sound
- `Iode.DfTest.C78_no_exception`: propext, Classical.choice, Quot.sound
- `Iode.DfTest.C78_order_undefined`: propext, Classical.choice, Quot.sound
- `Iode.DfTest.C78_scalars`: propext, Classical.choice, Quot.sound
- `Iode.DfTest.C78_equation`: propext, Classical.choice, Quot.sound
- `Iode.DfTest.C78_arguments`: propext, Classical.choice, Quot.sound
- `Iode.DfTest.C78_comma_counterexample`: propext, Classical.choice, Quot.sound
- `Iode.DfTest.C78_names_counterexample`: propext, Classical.choice, Quot.sound
- `Iode.DfTest.C78_zero_counterexample`: propext, Classical.choice, Quot.sound
- `Iode.DfTest.C78_no_error_undefined`: propext

## C79

- `Iode.EstEdit.C79_block`: propext, Classical.choice, Quot.sound
- `Iode.EstEdit.C79_block_refused`: propext, Classical.choice, Quot.sound
- `Iode.EstEdit.C79_invariant`: propext, Classical.choice, Quot.sound
- `Iode.EstEdit.C79_begin`: propext, Quot.sound
- `Iode.EstEdit.C79_scalars`: propext, Classical.choice, Quot.sound
- `Iode.EstEdit.C79_current`: propext, Quot.sound
- `Iode.EstEdit.C79_unsaved`: propext, Classical.choice, Quot.sound
- `Iode.EstEdit.C79_estimated`: propext, Classical.choice, Quot.sound
- `Iode.EstEdit.C79_new_undefined`: propext, Classical.choice, Quot.sound
- `Iode.EstEdit.C79_save`: propext, Quot.sound
- `Iode.EstEdit.C79_save_refused`: propext, Quot.sound
- `Iode.EstEdit.C79_saved_first`: propext, Classical.choice, Quot.sound
- `Iode.EstEdit.C79_edit_counterexample`: propext, Classical.choice, Quot.sound
- `Iode.EstEdit.C79_done_counterexample`: propext, Classical.choice, Quot.sound
- `Iode.EstEdit.C79_shared_counterexample`: propext, Classical.choice, Quot.sound
- `Iode.EstEdit.C79_alias_counterexample`: propext, Classical.choice, Quot.sound
- `Iode.EstEdit.C79_unused_counterexample`: propext, Classical.choice, Quot.sound

## C80

- `Iode.Spline.C80_natural_exists`: propext, Classical.choice, Quot.sound
- `Iode.Spline.C80_natural_unique`: propext, Classical.choice, Quot.sound
- `Iode.Spline.C80_defined`: propext, Classical.choice, Quot.sound
- `Iode.Spline.C80_flow_missing`: propext, Classical.choice, Quot.sound
- `Iode.Spline.C80_stock_missing`: propext, Classical.choice, Quot.sound
- `Iode.Spline.C80_flow_sum_partial`: propext, Classical.choice, Quot.sound
- `Iode.Spline.C80_flow_first`: propext, Classical.choice, Quot.sound
- `Iode.Spline.C80_stock_value_partial`: propext, Classical.choice, Quot.sound
- `Iode.Spline.C80_stock_end`: propext, Classical.choice, Quot.sound
- `Iode.Spline.C80_stock_curve`: propext, Classical.choice, Quot.sound
- `Iode.Spline.C80_flow_curve`: propext, Classical.choice, Quot.sound
- `Iode.Spline.C80_flow_counterexample`: propext, Classical.choice, Quot.sound
- `Iode.Spline.C80_stock_counterexample`: propext, Classical.choice, Quot.sound
- `Iode.Spline.C80_gap_counterexample`: propext, Classical.choice, Quot.sound

## C81

- `Iode.Season.C81_units`: propext, Classical.choice, Quot.sound
- `Iode.Season.C81_outside`: propext, Classical.choice, Quot.sound
- `Iode.Season.C81_defined`: propext, Classical.choice, Quot.sound
- `Iode.Season.C81_unchanged_partial`: propext, Classical.choice, Quot.sound
- `Iode.Season.C81_product`: propext, Classical.choice, Quot.sound
- `Iode.Season.C81_season`: propext, Classical.choice, Quot.sound
- `Iode.Season.C81_negative_counterexample`: propext, Classical.choice, Quot.sound
- `Iode.Season.C81_short_counterexample`: propext, Classical.choice, Quot.sound
- `Iode.Season.C81_constant_counterexample`: propext, Classical.choice, Quot.sound
- `Iode.Season.C81_two_years_undefined`: propext, Classical.choice, Quot.sound
- `Iode.Season.C81_outlier_counterexample`: propext, Quot.sound

## C82

- `Iode.Dif.C82_one_period`: propext, Classical.choice, Quot.sound
- `Iode.Dif.C82_import_partial`: propext, Classical.choice, Quot.sound
- `Iode.Dif.C82_refused_partial`: propext, Classical.choice, Quot.sound
- `Iode.Dif.C82_periods_undefined`: propext, Classical.choice, Quot.sound
- `Iode.Dif.C82_heading_refused`: propext, Classical.choice, Quot.sound
- `Iode.Dif.C82_rows_undefined`: propext, Classical.choice, Quot.sound
- `Iode.Dif.C82_text_undefined`: propext, Classical.choice, Quot.sound
- `Iode.Dif.C82_export_counterexample`: propext, Classical.choice, Quot.sound

## C83

- `Iode.FileCmd.C83_file_copy_partial`: propext, Classical.choice, Quot.sound
- `Iode.FileCmd.C83_database_undefined`: propext, Classical.choice, Quot.sound
- `Iode.FileCmd.C83_file_rename`: propext, Classical.choice, Quot.sound
- `Iode.FileCmd.C83_file_delete_partial`: propext, Classical.choice, Quot.sound
- `Iode.FileCmd.C83_file_delete_counterexample`: propext, Classical.choice, Quot.sound
- `Iode.FileCmd.C83_move`: propext, Classical.choice, Quot.sound
- `Iode.FileCmd.C83_move_back`: propext, Classical.choice, Quot.sound
- `Iode.FileCmd.C83_move_taken`: propext, Classical.choice, Quot.sound
- `Iode.FileCmd.C83_copy_partial`: propext, Classical.choice, Quot.sound
- `Iode.FileCmd.C83_copy_itself_counterexample`: propext, Classical.choice, Quot.sound
- `Iode.FileCmd.C83_append`: propext, Classical.choice, Quot.sound
- `Iode.FileCmd.C83_delete`: propext, Classical.choice, Quot.sound
- `Iode.FileCmd.C83_others`: propext, Classical.choice, Quot.sound
- `Iode.FileCmd.C83_sequence`: propext, Classical.choice, Quot.sound
- `Iode.FileCmd.C83_failed_partial`: propext, Classical.choice, Quot.sound
- `Iode.FileCmd.C83_failed_counterexample`: propext, Classical.choice, Quot.sound
- `Iode.FileCmd.C83_suffix_undefined`: propext, Classical.choice, Quot.sound

## C84

- `Iode.FileCmd.C84_oem_utf8_partial`: propext, Classical.choice, Quot.sound
- `Iode.FileCmd.C84_ansi_utf8_partial`: propext, Classical.choice, Quot.sound
- `Iode.FileCmd.C84_oem_ansi_partial`: propext, Classical.choice, Quot.sound
- `Iode.FileCmd.C84_ansi_oem_partial`: propext, Classical.choice, Quot.sound
- `Iode.FileCmd.C84_ansi_oem_counterexample`: propext, Classical.choice, Quot.sound
- `Iode.FileCmd.C84_ansi_oem_undefined`: propext, Classical.choice, Quot.sound
- `Iode.FileCmd.C84_oem_back_partial`: propext, Classical.choice, Quot.sound
- `Iode.FileCmd.C84_ansi_back_partial`: propext, Classical.choice, Quot.sound
- `Iode.FileCmd.C84_back_counterexample`: propext, Classical.choice, Quot.sound
- `Iode.FileCmd.C84_ascii`: propext, Classical.choice, Quot.sound
- `Iode.FileCmd.C84_euro_counterexample`: propext, Classical.choice, Quot.sound
- `Iode.FileCmd.C84_bullet_counterexample`: propext, Classical.choice, Quot.sound
- `Iode.FileCmd.C84_oem_utf8_counterexample`: propext, Classical.choice, Quot.sound
- `Iode.FileCmd.C84_itself_counterexample`: propext, Classical.choice, Quot.sound

## C85

- `Iode.ObjVers.C85_pieces`: propext, Classical.choice, Quot.sound
- `Iode.ObjVers.C85_text`: propext, Classical.choice, Quot.sound
- `Iode.ObjVers.C85_comment`: propext, Classical.choice, Quot.sound
- `Iode.ObjVers.C85_identity`: propext, Classical.choice, Quot.sound
- `Iode.ObjVers.C85_variable_same`: propext, Classical.choice, Quot.sound
- `Iode.ObjVers.C85_variable`: propext, Classical.choice, Quot.sound
- `Iode.ObjVers.C85_scalar_same`: propext, Classical.choice, Quot.sound
- `Iode.ObjVers.C85_scalar`: propext, Classical.choice, Quot.sound
- `Iode.ObjVers.C85_cell_counterexample`: propext, Classical.choice, Quot.sound
- `Iode.ObjVers.C85_file`: propext, Quot.sound
- `Iode.ObjVers.C85_texts`: propext, Classical.choice, Quot.sound

## C86

- `Iode.DataCmd.C86_only_the_variable`: propext, Classical.choice, Quot.sound
- `Iode.DataCmd.C86_values`: propext, Classical.choice, Quot.sound
- `Iode.DataCmd.C86_values_of_others`: propext, Classical.choice, Quot.sound
- `Iode.DataCmd.C86_recurrence`: propext, Classical.choice, Quot.sound
- `Iode.DataCmd.C86_failure`: propext, Classical.choice, Quot.sound
- `Iode.DataCmd.C86_unknown_name`: propext, Quot.sound
- `Iode.DataCmd.C86_name_alone_undefined`: propext, Quot.sound
- `Iode.DataCmd.C86_itself_counterexample`: propext, Classical.choice, Quot.sound
- `Iode.DataCmd.C86_left_behind_counterexample`: propext, Classical.choice, Quot.sound
- `Iode.DataCmd.C86_long_name_counterexample`: propext, Classical.choice, Quot.sound

## C87

- `Iode.WsCmd.C87_sample_partial`: propext, Classical.choice, Quot.sound
- `Iode.WsCmd.C87_sample_refused`: propext, Classical.choice, Quot.sound
- `Iode.WsCmd.C87_extrapolate_partial`: propext, Classical.choice, Quot.sound
- `Iode.WsCmd.C87_one_period_undefined`: propext
- `Iode.WsCmd.C87_short_year_counterexample`: propext, Classical.choice, Quot.sound
- `Iode.WsCmd.C87_copy_sample`: propext, Classical.choice, Quot.sound
- `Iode.WsCmd.C87_copy_names`: propext, Quot.sound
- `Iode.WsCmd.C87_copy_name`: propext, Quot.sound
- `Iode.WsCmd.C87_two_blanks_counterexample`: propext, Classical.choice, Quot.sound

## C88

- `Iode.ModelCmd.C88_simulate`: propext, Classical.choice, Quot.sound
- `Iode.ModelCmd.C88_identities_partial`: propext, Classical.choice, Quot.sound
- `Iode.ModelCmd.C88_unknown_list_counterexample`: propext, Classical.choice, Quot.sound
- `Iode.ModelCmd.C88_empty_list_counterexample`: propext, Classical.choice, Quot.sound
- `Iode.ModelCmd.C88_simulate_scc`: propext, Classical.choice, Quot.sound
- `Iode.ModelCmd.C88_calc_scc`: propext, Classical.choice, Quot.sound
- `Iode.ModelCmd.C88_calc_scc_refused`: propext, Classical.choice, Quot.sound
- `Iode.ModelCmd.C88_parameters`: propext, Classical.choice, Quot.sound
- `Iode.ModelCmd.C88_parameters_refused`: propext, Classical.choice, Quot.sound
- `Iode.ModelCmd.C88_wrong_words_counterexample`: propext, Classical.choice, Quot.sound
- `Iode.ModelCmd.C88_comma_counterexample`: propext, Classical.choice, Quot.sound
- `Iode.ModelCmd.C88_long_name_counterexample`: propext, Classical.choice, Quot.sound

## C89

- `Iode.ConvCmd.C89_high_to_low_partial`: propext, Classical.choice, Quot.sound
- `Iode.ConvCmd.C89_low_to_high_partial`: propext, Classical.choice, Quot.sound
- `Iode.ConvCmd.C89_method`: propext, Classical.choice, Quot.sound
- `Iode.ConvCmd.C89_no_names_undefined`: propext, Classical.choice, Quot.sound
- `Iode.ConvCmd.C89_no_sample_undefined`: propext
- `Iode.ConvCmd.C89_no_file_undefined`: propext, Quot.sound
- `Iode.ConvCmd.C89_method_counterexample`: propext, Quot.sound
- `Iode.ConvCmd.C89_ascii_counterexample`: propext, Classical.choice, Quot.sound
- `Iode.ConvCmd.C89_ascii_run_counterexample`: propext, Classical.choice, Quot.sound

## C90

- `Iode.Graph.C90_sample`: propext, Classical.choice, Quot.sound
- `Iode.Graph.C90_mixed_refused`: propext, Quot.sound
- `Iode.Graph.C90_series_partial`: propext, Classical.choice, Quot.sound
- `Iode.Graph.C90_names`: propext, Quot.sound
- `Iode.Graph.C90_range_refused`: propext
- `Iode.Graph.C90_same_period_counterexample`: propext
- `Iode.Graph.C90_same_name_counterexample`: propext
- `Iode.Graph.C90_no_title_counterexample`: propext

## C91

- `Iode.ImpCmd.C91_variables_partial`: propext, Classical.choice, Quot.sound
- `Iode.ImpCmd.C91_variables_refused`: propext, Classical.choice, Quot.sound
- `Iode.ImpCmd.C91_comments_partial`: propext, Classical.choice, Quot.sound
- `Iode.ImpCmd.C91_comments_refused`: propext, Classical.choice, Quot.sound
- `Iode.ImpCmd.C91_bistel_counterexample`: propext, Quot.sound
- `Iode.ImpCmd.C91_unknown_format_counterexample`: propext, Quot.sound
- `Iode.ImpCmd.C91_not_saved_counterexample`: propext, Classical.choice, Quot.sound
- `Iode.ImpCmd.C91_trace_open_counterexample`: propext, Classical.choice, Quot.sound
- `Iode.ImpCmd.C91_extra_word_counterexample`: propext, Classical.choice, Quot.sound
- `Iode.ImpCmd.C91_periods_counterexample`: propext, Classical.choice, Quot.sound

## C92

- `Iode.Tsp.C92_lines`: propext, Classical.choice, Quot.sound
- `Iode.Tsp.C92_text`: propext, Classical.choice, Quot.sound
- `Iode.Tsp.C92_variable_partial`: propext, Classical.choice, Quot.sound
- `Iode.Tsp.C92_header_partial`: propext, Classical.choice, Quot.sound
- `Iode.Tsp.C92_other_counterexample`: propext, Classical.choice, Quot.sound
- `Iode.Tsp.C92_file`: propext, Classical.choice, Quot.sound
