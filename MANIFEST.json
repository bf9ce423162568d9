{
 "claims": [
  {
   "property": "C01",
   "status": "proved",
   "theorems": [
    "Iode.C01_shift_distance",
    "Iode.C01_shift_add",
    "Iode.C01_shift_by_difference",
    "Iode.C01_difference_chain",
    "Iode.C01_difference_mixed",
    "Iode.C01_make",
    "Iode.C01_make_wf"
   ],
   "note": "All four clauses for every existing period and every integer shift."
  },
  {
   "property": "C02",
   "status": "partial",
   "theorems": [
    "Iode.C02_print_parse",
    "Iode.C02_parse_accepts_partial",
    "Iode.C02_bad_step_counterexample",
    "Iode.C02_parse_stable"
   ],
   "note": "Print/parse round trip proved for years 1000..9999; the claim that only existing periods are accepted is false of the code (step 0 or negative accepted), negation proved."
  },
  {
   "property": "C03",
   "status": "partial",
   "theorems": [
    "Iode.C03_sample_enumerates",
    "Iode.C03_position_iff",
    "Iode.C03_overflow_counterexample",
    "Iode.C03_count_correct_iff"
   ],
   "note": "Proved for samples of at most 32767 periods; beyond, the 16-bit counter breaks the claim (counter-example and exact boundary proved)."
  },
  {
   "property": "C04",
   "status": "proved",
   "theorems": [
    "Iode.C04_intersection",
    "Iode.C04_intersection_mixed"
   ],
   "note": "Intersection is exactly the common periods, error exactly when there is none or periodicities differ."
  },
  {
   "property": "C05",
   "status": "partial",
   "theorems": [
    "Iode.C05_finite_map_partial",
    "Iode.C05_failed_calls_partial",
    "Iode.C05_other_workspaces",
    "Iode.C05_comments_counterexample",
    "Iode.C05_duplicate_loses_object_counterexample"
   ],
   "note": "All histories, every workspace that is not a subset, all types but comments (false for comments: counter-example proved). Answers and contents equal those of a finite map."
  },
  {
   "property": "C06",
   "status": "partial",
   "theorems": [
    "Iode.C06_same_object_partial",
    "Iode.C06_every_subset_partial",
    "Iode.C06_rename_overwrite_counterexample",
    "Iode.C06_cleared_subset_counterexample",
    "Iode.C06_comments_counterexample"
   ],
   "note": "Proved over all histories for all types but comments, for histories without rename onto a used name (first clause) / without clearing a subset (second clause). Each excluded case is a proved counter-example."
  },
  {
   "property": "C07",
   "status": "partial",
   "theorems": [
    "Iode.C07_remove_partial",
    "Iode.C07_rename_partial",
    "Iode.C07_remove_self_partial",
    "Iode.C07_comments_counterexample",
    "Iode.C07_cleared_subset_counterexample"
   ],
   "note": "All types but comments, in the whole family of registered subsets; comments and cleared subsets are proved counter-examples."
  },
  {
   "property": "C08",
   "status": "proved",
   "theorems": [
    "Iode.C08_check_iff_valid",
    "Iode.C08_names_valid",
    "Iode.C08_invalid_rejected"
   ],
   "note": "All histories of the modelled operations, all object types. Loading a binary file does not check names and is outside this statement."
  },
  {
   "property": "C09",
   "status": "partial",
   "theorems": [
    "Iode.C09_copy_content_partial",
    "Iode.C09_origin_unchanged_partial",
    "Iode.C09_copy_unchanged_partial",
    "Iode.C09_families_independent",
    "Iode.C09_shallow_counterexample"
   ],
   "note": "All types but comments; content of the copy and independence in both directions over all later histories; the general independence of families holds for all types."
  },
  {
   "property": "C10",
   "status": "partial",
   "theorems": [
    "Iode.C10_merge_partial",
    "Iode.C10_own_subset_counterexample",
    "Iode.C10_subset_of_target_counterexample"
   ],
   "note": "Pointwise content after merge for a top-level target and a source of another family, all types but comments; merging a subset into its own parent is a proved counter-example."
  },
  {
   "property": "C11",
   "status": "partial",
   "theorems": [
    "Iode.C11_lengths_partial",
    "Iode.C11_subset_sample_partial",
    "Iode.C11_no_out_of_bounds_partial",
    "Iode.C11_cleared_subset_counterexample",
    "Iode.C11_rename_counterexample",
    "Iode.C11_overflow_counterexample"
   ],
   "note": "All histories of the modelled operations except three excluded operation kinds (rename onto a used name, clear of a subset, unfair samples), each excluded one shown necessary by a counterexample."
  },
  {
   "property": "C12",
   "status": "partial",
   "theorems": [
    "Iode.C12_set_sample_partial",
    "Iode.C12_when_partial"
   ],
   "note": "Pointwise specification of set_sample and exact success condition in every state reached by a regular history; histories excluded by C11's counterexamples are missing."
  },
  {
   "property": "C13",
   "status": "partial",
   "theorems": [
    "Iode.C13_merge_partial",
    "Iode.C13_merge_into_new_partial",
    "Iode.C13_into_subset_counterexample",
    "Iode.C13_no_sample_counterexample"
   ],
   "note": "Receiving workspace top-level, giving workspace of another family with a sample: pointwise specification, exact failure condition. Missing: same family (counterexample: merging into a subset destroys data) and no giving sample (counterexample: null pointer)."
  },
  {
   "property": "C14",
   "status": "proved",
   "theorems": [
    "Iode.C14_read_back",
    "Iode.C14_read_back_reachable",
    "Iode.C14_reference",
    "Iode.C14_reading",
    "Iode.C14_frame_partial"
   ],
   "note": "Exact arithmetic over any field of characteristic zero; rounding of doubles is not modelled. The frame theorem is for states reached by regular histories."
  },
  {
   "property": "C15",
   "status": "partial",
   "theorems": [
    "Iode.C15_extrapolate_partial",
    "Iode.C15_numbers_kept"
   ],
   "note": "Every state reached by a regular history, every method, sample and set of names; irregular histories (C11) and the wildcard selection are missing."
  },
  {
   "property": "C16",
   "status": "proved",
   "theorems": [
    "Iode.C16_pack"
   ],
   "note": "Pack layout proved for word sizes 4 and 8 and total size below 2^31: every element added is given back, in order, byte for byte, with its length, and the element count is right."
  },
  {
   "property": "C17",
   "status": "proved",
   "theorems": [
    "Iode.BinFile.C17_save_load",
    "Iode.BinFile.C17_empty"
   ],
   "note": "For every non-empty workspace of packs (first word = own length, which C16 gives), every lossless compressor, compressed or not: save then load gives the same map. Header modelled field by field, not byte by byte."
  },
  {
   "property": "C18",
   "status": "partial",
   "theorems": [
    "Iode.BinFile.C18_select_partial",
    "Iode.BinFile.C18_absent_counterexample",
    "Iode.BinFile.C18_order_counterexample",
    "Iode.BinFile.C18_compressed_counterexample"
   ],
   "note": "False in general: three counterexamples (absent name gets its neighbour's object, other order gets other objects, compressed file gives compressed bytes). Proved for uncompressed files and strictly increasing lists whose names are present or beyond the last one."
  },
  {
   "property": "C19",
   "status": "partial",
   "theorems": [
    "Iode.BinFile.C19_sample_partial",
    "Iode.BinFile.C19_room",
    "Iode.BinFile.C19_none",
    "Iode.BinFile.C19_lost",
    "Iode.BinFile.C19_counterexample"
   ],
   "note": "False for start years that are multiples of 256 (C19_lost, C19_counterexample); proved for every other sample, both word sizes."
  },
  {
   "property": "C20",
   "status": "proved",
   "theorems": [
    "Iode.Disk.C20_histories",
    "Iode.Disk.C20_one_save",
    "Iode.Disk.C20_second_crash_counterexample",
    "Iode.Disk.C20_copy_failure_counterexample"
   ],
   "note": "One save stopped anywhere, and any history of saves stopped anywhere. Process stop, not machine stop. After a crash the next save destroys the backup (counterexample); a failed copy is ignored (counterexample)."
  },
  {
   "property": "C21",
   "status": "partial",
   "theorems": [
    "Iode.Lists.C21_expand_unique",
    "Iode.Lists.C21_expand_sound",
    "Iode.Lists.C21_expand_total",
    "Iode.Lists.C21_chunks_partial",
    "Iode.Lists.C21_single",
    "Iode.Lists.C21_frame",
    "Iode.Lists.C21_empty_undefined",
    "Iode.Lists.C21_overlap_counterexample",
    "Iode.Lists.C21_long_name_counterexample",
    "Iode.Lists.C21_cycle_counterexample"
   ],
   "note": "Round trip proved for chunks up to c*c words and names short enough not to be cut; soundness of expansion for every text and workspace; empty list, overlap, long name and cycle are counterexamples"
  },
  {
   "property": "C22",
   "status": "partial",
   "theorems": [
    "Iode.C22_copy_from_partial",
    "Iode.C22_stops",
    "Iode.C22_later_file_counterexample",
    "Iode.C22_variables_counterexample"
   ],
   "note": "Priority of the first file proved when every file has a requested name, for all types but comments and variables; stop at the first other file proved; counterexamples for a name only in a later file and for variables"
  },
  {
   "property": "C23",
   "status": "partial",
   "theorems": [
    "Iode.Grep.C23_grep_partial",
    "Iode.Grep.C23_grep_total",
    "Iode.Grep.C23_simple_partial",
    "Iode.Grep.C23_names_partial",
    "Iode.Grep.C23_expand_partial",
    "Iode.Grep.C23_double_star_counterexample",
    "Iode.Grep.C23_star_edge_counterexample",
    "Iode.Grep.C23_double_edge_counterexample",
    "Iode.Grep.C23_star_start_counterexample",
    "Iode.Grep.C23_other_end_undefined",
    "Iode.Grep.C23_backslash_counterexample"
   ],
   "note": "Pattern matching: SCR_grep_1 answers exactly the specification for every pattern and string, except patterns ending with several '*', '*' followed only by '!'/'|', doubled '!'/'|', a lone final backslash, and '&' at the end of the string (undefined); each exception is refuted or shown undefined."
  },
  {
   "property": "C24",
   "status": "partial",
   "theorems": [
    "Iode.Lec.C24_unambiguous",
    "Iode.Lec.C24_every_tree_has_a_text",
    "Iode.Lec.C24_value_partial",
    "Iode.Lec.C24_simple_value",
    "Iode.Lec.C24_basic_value",
    "Iode.Lec.C24_lcount_counterexample",
    "Iode.Lec.C24_time_function_of_call_counterexample",
    "Iode.Lec.C24_na_below_counterexample",
    "Iode.Lec.C24_lag_sign_counterexample",
    "Iode.Lec.C24_mtfn_in_tfn_counterexample",
    "Iode.Lec.C24_na_coefficient_counterexample"
   ],
   "note": "Any text of the documented grammar compiles and, if it contains no lcount, no function of several expressions, no time function in front of an unparenthesised call, and no ordinary call among the arguments of NA-accepting functions or in the lag of a time function, its value is the value of its tree, for every arithmetic. The grammar is unambiguous and every tree has a text. Counterexamples proved for each exception."
  },
  {
   "property": "C25",
   "status": "partial",
   "theorems": [
    "Iode.Lec.C25_accepts_exactly_the_grammar",
    "Iode.Lec.C25_missing_piece_rejected",
    "Iode.Lec.C25_unbalanced_rejected",
    "Iode.Lec.C25_empty_call_rejected",
    "Iode.Lec.C25_undefined_exactly",
    "Iode.Lec.C25_always_defined",
    "Iode.Lec.C25_one_value_partial",
    "Iode.Lec.C25_leftover_counterexample",
    "Iode.Lec.C25_leftover_parenthesis_counterexample",
    "Iode.Lec.C25_leftover_wrong_value_counterexample",
    "Iode.Lec.C25_undefined_counterexample",
    "Iode.Lec.C25_semicolon_counterexample",
    "Iode.Lec.C25_lcount_counterexample"
   ],
   "note": "From an empty operator stack exactly the grammar is accepted; missing pieces are rejected from any state; unbalanced texts rejected; undefined behaviour characterised; accepted code leaves one value. False after a rejected formula (operator stack never cleared), for () and (A,B), lcount: counterexamples proved."
  },
  {
   "property": "C26",
   "status": "partial",
   "theorems": [
    "Iode.Lec.C26_missing_value_propagates",
    "Iode.Lec.C26_outside_sample",
    "Iode.Lec.C26_missing_result_has_cause",
    "Iode.Lec.C26_division_by_zero",
    "Iode.Lec.C26_accepting_functions_counterexample"
   ],
   "note": "Proved for formulas made of constants, variables, coefficients, operators and functions that do not accept missing arguments, at the level of texts. if, isan, lmean, lstderr and lcount accept missing values by design (counterexample given); time functions are covered by the value theorems of C24 only."
  },
  {
   "property": "C27",
   "status": "partial",
   "theorems": [
    "Iode.Lec.C27_lag_is_past_partial",
    "Iode.Lec.C27_date_is_that_period_partial",
    "Iode.Lec.C27_lags_add",
    "Iode.Lec.C27_date_absorbs",
    "Iode.Lec.C27_t_counterexample",
    "Iode.Lec.C27_sum_counterexample",
    "Iode.Lec.C27_call_counterexample",
    "Iode.Lec.C27_dated_difference_counterexample"
   ],
   "note": "Proved for formulas without t, i and range functions (lag) and without time functions (date), at the level of texts. Counterexamples: t[-1], (sum(A))[-1], max(A,B)[-1], (d(A))[p]."
  },
  {
   "property": "C28",
   "status": "partial",
   "theorems": [
    "Iode.Lec.C28_functions_partial",
    "Iode.Lec.C28_isan_missing",
    "Iode.Lec.C28_lag_functions",
    "Iode.Lec.C28_range_functions",
    "Iode.Lec.C28_stderr",
    "Iode.Lec.C28_lstderr",
    "Iode.Lec.C28_operators_partial",
    "Iode.Lec.C28_domains",
    "Iode.Lec.C28_if_chooses_by_last",
    "Iode.Lec.C28_if_counterexample",
    "Iode.Lec.C28_div0_is_reversed",
    "Iode.Lec.C28_div0_counterexample",
    "Iode.Lec.C28_log_is_inverted",
    "Iode.Lec.C28_log_counterexample"
   ],
   "note": "In exact arithmetic all listed functions except four have the manual's value, at the level of texts. if takes its last argument as condition, log(b,x) is inverted, div0 is reversed, lcount leaves its arguments on the stack (C24/C25): counterexamples and theorems saying what is computed. The functions of two expressions (corr, covar, ...) are the subject of C67."
  },
  {
   "property": "C29",
   "status": "proved",
   "theorems": [
    "Iode.Lec.C29_names_are_those_written",
    "Iode.Lec.C29_link_succeeds_iff",
    "Iode.Lec.C29_link_succeeds_iff_written",
    "Iode.Lec.C29_linked_value",
    "Iode.Lec.C29_depends_only_on_its_names",
    "Iode.Lec.C29_other_variables_do_not_matter",
    "Iode.Lec.C29_stale_link_counterexample"
   ],
   "note": "Including linking by position and failing links. Texts are token lists as the lexer delivers them (names classified as variable or coefficient). That evaluation leaves the workspaces alone is visible in the model: the executor only reads them. A linked formula executed after names were added reads other variables (counterexample)."
  },
  {
   "property": "C30",
   "status": "partial",
   "theorems": [
    "Iode.Lec.C30_solution_is_a_root_partial",
    "Iode.Lec.C30_solution_is_the_root_partial",
    "Iode.Lec.C30_solved",
    "Iode.Lec.C30_duplicated",
    "Iode.Lec.C30_absent_refused",
    "Iode.Lec.C30_no_inverse_refused",
    "Iode.Lec.C30_exponent_counterexample",
    "Iode.Lec.C30_exp_base_counterexample",
    "Iode.Lec.C30_call_behind_counterexample",
    "Iode.Lec.C30_dated_counterexample",
    "Iode.Lec.C30_malformed_counterexample"
   ],
   "note": "Proved over exact real numbers for equations in which the variable occurs once at the current period under parentheses, the four operations, the base of a power, ln/exp/signs/trigonometric functions and d/dln/grt/r; several occurrences give lhs-rhs; functions without inverse are refused. Counterexamples: exponents, exp with a base, a call with several arguments behind the variable, a date equal to the current period, a malformed side (undefined behaviour)."
  },
  {
   "property": "C31",
   "status": "partial",
   "theorems": [
    "Iode.Sim.C31_newton_root",
    "Iode.Sim.C31_newton_failure_restores",
    "Iode.Sim.C31_newton_frame",
    "Iode.Sim.C31_secant_partial",
    "Iode.Sim.C31_zero_partial",
    "Iode.Sim.C31_secant_counterexample",
    "Iode.Sim.C31_secant_missing_counterexample",
    "Iode.Sim.C31_secant_uninitialised_counterexample",
    "Iode.Sim.C31_newton_restore_counterexample"
   ],
   "note": "Newton: the answer is a stored root within the tolerance, failure restores the variable (if the formula is missing where the unknown is; otherwise counterexample), nothing else is touched. False for the secant method used when Newton fails: it may answer with a value whose residual is not small (counterexamples: jump, missing values taken for negative residuals, uninitialised bound); proved there: store untouched and a sign change next to the answer."
  },
  {
   "property": "C32",
   "status": "partial",
   "theorems": [
    "Iode.Sim.C32_order_is_a_permutation",
    "Iode.Sim.C32_unsorted_partial",
    "Iode.Sim.C32_triangulation_stays_in_block",
    "Iode.Sim.C32_unsorted_counterexample",
    "Iode.Sim.C32_unsorted_short_counterexample"
   ],
   "note": "For the sorted modes the order is a permutation of the equations. For SORT_NONE with a caller's list this holds under the hypothesis that the list names every equation once; counterexamples show a duplicate list leaves equations unsolved and a short list is undefined behaviour."
  },
  {
   "property": "C33",
   "status": "partial",
   "theorems": [
    "Iode.Sim.C33_prolog_needs_earlier_only",
    "Iode.Sim.C33_prolog_complete_partial",
    "Iode.Sim.C33_tables_without_exchange",
    "Iode.Sim.C33_prolog_complete_counterexample"
   ],
   "note": "Soundness of the prolog is proved. Completeness is proved for models without coefficients in equations; with coefficients a counterexample shows equations left in the simultaneous block."
  },
  {
   "property": "C34",
   "status": "proved",
   "theorems": [
    "Iode.Sim.C34_epilog_feeds_nobody_before"
   ],
   "note": "Every equation of the epilog is used only by later epilog equations."
  },
  {
   "property": "C35",
   "status": "partial",
   "theorems": [
    "Iode.Sim.C35_solved_equations_hold_partial",
    "Iode.Sim.C35_threshold_zero_partial",
    "Iode.Sim.C35_successive_counterexample",
    "Iode.Sim.C35_large_threshold_counterexample",
    "Iode.Sim.C35_lead_counterexample"
   ],
   "note": "Proved for every model of equations computed directly (own variable, no leads), thresholds below 10: prolog and epilog hold exactly, simultaneous updates within threshold/relaxation, successive updates nearby; exact with threshold 0. Counterexamples for successive updates, thresholds from 10, leads. Equations solved numerically are the subject of C31."
  },
  {
   "property": "C36",
   "status": "partial",
   "theorems": [
    "Iode.Sim.C36_only_endogenous_at_simulated_periods",
    "Iode.Sim.C36_failure_keeps_the_solved_periods",
    "Iode.Sim.C36_failure_leaves_later_periods",
    "Iode.Sim.C36_exchange_counterexample"
   ],
   "note": "Frame and failure behaviour proved for every model and option; with goal seeking the exchanged variables are excluded, because a counterexample shows their later values are overwritten."
  },
  {
   "property": "C37",
   "status": "partial",
   "theorems": [
    "Iode.Sim.C37_exchange_swaps_partial",
    "Iode.Sim.C37_target_becomes_exogenous_partial",
    "Iode.Sim.C37_exchange_possible_iff",
    "Iode.Sim.C37_target_is_kept",
    "Iode.Sim.C37_success_means_exchanged",
    "Iode.Sim.C37_target_still_solved_counterexample",
    "Iode.Sim.C37_second_exchange_counterexample"
   ],
   "note": "Search proved total, complete and sound (possible iff a chain of equations exists) on a model without earlier exchanges; the swap is right whenever the target ends up unsolved, in particular when the target's equation contains the exogenous variable or no other equation contains the target. Counterexamples: the target may remain solved for; a second exchange may throw."
  },
  {
   "property": "C38",
   "status": "partial",
   "theorems": [
    "Iode.Idt.C38_order_is_valid",
    "Iode.Idt.C38_circular_rejected",
    "Iode.Idt.C38_passes_suffice",
    "Iode.Idt.C38_alphabetic_accepted",
    "Iode.Idt.C38_accepted_iff_alphabetic_partial",
    "Iode.Idt.C38_acyclic_rejected_counterexample"
   ],
   "note": "Proved: an accepted set is executed in a valid order (all identities once, each after those its formula mentions), circular sets are rejected, sets for which the order of names is valid are accepted. The converse is false of the code: after the first pass placed identities stop the scan (continue without i++), so sets that are not circular are rejected (C38_acyclic_rejected_counterexample); when the first identity uses no other one, accepted sets are exactly those for which the order of names is valid."
  },
  {
   "property": "C39",
   "status": "partial",
   "theorems": [
    "Iode.Idt.C39_scalars_are_never_read",
    "Iode.Idt.C39_execution_partial",
    "Iode.Idt.C39_identities_hold_partial",
    "Iode.Idt.C39_no_self",
    "Iode.Idt.C39_lagged_self",
    "Iode.Idt.C39_reads_itself_counterexample",
    "Iode.Idt.C39_scalar_counterexample"
   ],
   "note": "Full for sets without scalars whose formulas read the defined variable at former periods only (sufficient criteria proved: no mention of itself, or negative lags only). Restriction needed: C39_reads_itself_counterexample (A = A + 1); identities with scalars can never be executed (C39_scalars_are_never_read). With files as sources the identities hold in the databases of the computation (first source having the series); reading the files themselves is C16-C20."
  },
  {
   "property": "C40",
   "status": "partial",
   "theorems": [
    "Iode.Convert.C40_series_partial",
    "Iode.Convert.C40_workspace_partial",
    "Iode.Convert.C40_missing",
    "Iode.Convert.C40_exact",
    "Iode.Convert.C40_misdated_counterexample",
    "Iode.Convert.C40_overflow_counterexample",
    "Iode.Convert.C40_days_to_weeks_counterexample",
    "Iode.Convert.C40_error_counterexample",
    "Iode.Convert.C40_monthly_counterexample"
   ],
   "note": "C40_series_partial and C40_workspace_partial: after the command every target period that is entirely in the file holds the aggregate (sum, mean, last) of exactly its sub-periods, every other target period up to the end of the last year is NA, other variables and periods keep their values; C40_exact gives the real sum and mean for exact arithmetic; C40_missing: one missing sub-period makes sum and mean missing. Partial: requires the number of periods per year to divide, and a yearly target or a source that starts with a target period; otherwise C40_misdated_counterexample (values stored in wrong periods), C40_overflow_counterexample and C40_days_to_weeks_counterexample (write behind the vector), C40_error_counterexample and C40_monthly_counterexample (null pointer on the error path)."
  },
  {
   "property": "C41",
   "status": "partial",
   "theorems": [
    "Iode.Convert.C41_spread_partial",
    "Iode.Convert.C41_back_partial",
    "Iode.Convert.C41_stock_last_partial",
    "Iode.Convert.C41_round_trip_partial",
    "Iode.Convert.C41_workspace_partial",
    "Iode.Convert.C41_linear_stock_counterexample",
    "Iode.Convert.C41_linear_flow_partial",
    "Iode.Convert.C41_linear_flow_counterexample",
    "Iode.Convert.C41_misdated_counterexample"
   ],
   "note": "C41_round_trip_partial: with exact arithmetic, spreading by steps and aggregating (flow/sum, stock/last, stock/mean) gives back the value of every period, gaps included, and restores the whole series if it ends with a year; C41_stock_last_partial holds for any arithmetic; C41_spread_partial and C41_workspace_partial: every sub-period gets the share of the period it is part of, nothing else changes. Partial: the series must start with a year, the numbers of periods per year must divide, the target must have at most 32767 periods; exactness of rounded division is not claimed. C41_misdated_counterexample (start inside a year), C41_linear_stock_counterexample (out of bounds read for every series ending with two numbers), C41_linear_flow_counterexample (last value lost). Cubic splines are not modelled."
  },
  {
   "property": "C42",
   "status": "partial",
   "theorems": [
    "Iode.Ras.C42_rows",
    "Iode.Ras.C42_columns",
    "Iode.Ras.C42_columns_nonneg",
    "Iode.Ras.C42_zero_rows",
    "Iode.Ras.C42_biproportional",
    "Iode.Ras.C42_zero_cells",
    "Iode.Ras.C42_balanced_unchanged",
    "Iode.Ras.C42_command_partial",
    "Iode.Ras.C42_no_half_result",
    "Iode.Ras.C42_zero_target_counterexample"
   ],
   "note": "For exact arithmetic and every matrix: C42_rows (rows meet their targets exactly), C42_columns (columns within eps/(1-eps) of the absolute column sum), C42_columns_nonneg (within eps relatively, and non-negativity kept), C42_zero_rows, C42_biproportional (the result is the matrix with rows and columns multiplied by factors), C42_zero_cells, C42_balanced_unchanged; C42_command_partial: the command fills only missing cells of the current period and the totals of the workspace are met; C42_no_half_result: a failing command writes nothing. Partial: rounding is not modelled, eps < 1, names given by an injective function; targets 0 are skipped by the code, C42_zero_target_counterexample."
  },
  {
   "property": "C43",
   "status": "partial",
   "theorems": [
    "Iode.GSample.C43_compiles_partial",
    "Iode.GSample.C43_group_partial",
    "Iode.GSample.C43_shift_right_partial",
    "Iode.GSample.C43_valid",
    "Iode.GSample.C43_left_counterexample",
    "Iode.GSample.C43_documented_counterexample",
    "Iode.GSample.C43_end_of_year_counterexample",
    "Iode.GSample.C43_files_counterexample",
    "Iode.GSample.C43_parentheses_counterexample"
   ],
   "note": "On token lists (lexer, PER and SUB left out): every well written sample with any nesting compiles to the columns it stands for, a repeated group to n*k*f columns in their places, a shift to the right moves all the periods alike, and whatever compiles has valid first periods and files. Left shifts of groups of several columns move columns in both directions (counterexample)."
  },
  {
   "property": "C44",
   "status": "partial",
   "theorems": [
    "Iode.Macros.C44_save_restore",
    "Iode.Macros.C44_report_partial",
    "Iode.Macros.C44_loop_variable_partial",
    "Iode.Macros.C44_terminates_partial",
    "Iode.Macros.C44_undef_list_counterexample",
    "Iode.Macros.C44_same_variable_counterexample",
    "Iode.Macros.C44_undef_in_loop_counterexample",
    "Iode.Macros.C44_return_in_loop_counterexample",
    "Iode.Macros.C44_nested_name_counterexample",
    "Iode.Macros.C44_no_parameter_counterexample",
    "Iode.Macros.C44_long_name_counterexample"
   ],
   "note": "Save/redefine/restore proved for every macro database without foreign saved names. Every structured report (nested loops, procedures) run by the line engine prints and defines what its scoped meaning says. Missing, each with a counterexample: loop directly inside a loop over the same variable (never ends), loop variable undefined in the body, return out of a loop, long loop names (endless or exception), arguments for a procedure without parameters (undefined). $goto, $if and values with special characters are not modelled."
  },
  {
   "property": "C45",
   "status": "partial",
   "theorems": [
    "Iode.Obj.C45_file",
    "Iode.Obj.C45_texts",
    "Iode.Obj.C45_identities",
    "Iode.Obj.C45_identity_empty",
    "Iode.Obj.C45_scalars",
    "Iode.Obj.C45_variables",
    "Iode.Obj.C45_equations_partial",
    "Iode.Obj.C45_equation_sample_lost",
    "Iode.Obj.C45_equation_comment_counterexample",
    "Iode.Obj.C45_equation_comment_loaded"
   ],
   "note": "Proved end to end (object to pack to file and back) for comments, lists, identities, scalars and variables. Equations: all but those with a non-ASCII comment, which cannot be saved (counterexample), and those whose sample starts in a year that is a multiple of 256, whose sample is lost (C45_equation_sample_lost)."
  },
  {
   "property": "C46",
   "status": "partial",
   "theorems": [
    "Iode.Tbl.C46_pack",
    "Iode.Tbl.C46_tables_partial",
    "Iode.Tbl.C46_equal_iff",
    "Iode.Tbl.C46_equal_sound",
    "Iode.Tbl.C46_bad_formula_counterexample",
    "Iode.Tbl.C46_line_settings_counterexample",
    "Iode.Tbl.C46_quotes_counterexample",
    "Iode.Tbl.C46_lone_quote"
   ],
   "note": "Proved for all tables whose cells have formulas that compile and texts without enclosing double quotes (one table: C46_pack, up to the settings of separator, mode, files and date lines; workspace file: C46_tables_partial). False for other cells and those settings (counterexamples). Comparison: a table equals itself iff both grids are the same (C46_equal_iff)."
  },
  {
   "property": "C47",
   "status": "partial",
   "theorems": [
    "Iode.Lec.C47_tokens",
    "Iode.Lec.C47_unambiguous",
    "Iode.Lec.C47_value",
    "Iode.Lec.C47_lists",
    "Iode.Lec.C47_lists_kept",
    "Iode.Lec.C47_foreign",
    "Iode.Lec.C47_no_period",
    "Iode.Lec.C47_patterns",
    "Iode.Lec.C47_list_changed_counterexample",
    "Iode.Lec.C47_single_partial",
    "Iode.Lec.C47_long_name_counterexample",
    "Iode.Lec.C47_names_counterexample",
    "Iode.Lec.C47_hash_counterexample",
    "Iode.Lec.C47_keyword_counterexample",
    "Iode.Lec.C47_comment_counterexample",
    "Iode.Lec.C47_endless_counterexample",
    "Iode.Lec.C47_long_number_counterexample"
   ],
   "note": "Texts made of tokens, white space, comments and list references are read as these tokens, in one way only, up to the value of the formula. False of the code as a whole: reading a list reference changes the list, decimal numbers are rounded to single precision, long names are cut, some valid names cannot be used, comments before list references are errors, self-referring lists never end, long numbers overflow an array."
  },
  {
   "property": "C48",
   "status": "partial",
   "theorems": [
    "Iode.Asc.C48_load",
    "Iode.Asc.C48_roundtrip",
    "Iode.Asc.C48_exact",
    "Iode.Asc.C48_stable",
    "Iode.Asc.C48_exponent",
    "Iode.Asc.C48_ties",
    "Iode.Asc.C48_ends",
    "Iode.Asc.C48_hash_counterexample",
    "Iode.Asc.C48_reserved_counterexample",
    "Iode.Asc.C48_infinity_counterexample",
    "Iode.Asc.C48_digits_counterexample",
    "Iode.Asc.C48_largest_counterexample",
    "Iode.Asc.C48_long_number_counterexample",
    "Iode.Asc.C48_bold_counterexample",
    "Iode.Asc.C48_periods_counterexample"
   ],
   "note": "Proved for all texts laid out in the format, and for all databases whose names are neither reserved nor contain '#', with values of at most 1e308: sample and names are restored, values are rounded to 15 digits and then to the nearest double, exactly if they have 15 digits, and only once. Loading always ends. False of the code for the rest: names with '#', names that are key words of tables, infinity, the largest doubles, more than 15 digits, numbers of 255 characters."
  },
  {
   "property": "C49",
   "status": "partial",
   "theorems": [
    "Iode.Asc.Texts.C49_lines",
    "Iode.Asc.Texts.C49_ink",
    "Iode.Asc.Texts.C49_line_length",
    "Iode.Asc.Texts.C49_line_end",
    "Iode.Asc.Texts.C49_short",
    "Iode.Asc.Texts.C49_load",
    "Iode.Asc.Texts.C49_load_identities",
    "Iode.Asc.Texts.C49_roundtrip",
    "Iode.Asc.Texts.C49_roundtrip_identities",
    "Iode.Asc.Texts.C49_exact",
    "Iode.Asc.Texts.C49_exact_identities",
    "Iode.Asc.Texts.C49_stable",
    "Iode.Asc.Texts.C49_stable_identities",
    "Iode.Asc.Texts.C49_ink_kept",
    "Iode.Asc.Texts.C49_ends",
    "Iode.Asc.Texts.C49_caret_counterexample",
    "Iode.Asc.Texts.C49_power_counterexample",
    "Iode.Asc.Texts.C49_grow_counterexample",
    "Iode.Asc.Texts.C49_newline_counterexample",
    "Iode.Asc.Texts.C49_word_counterexample",
    "Iode.Asc.Texts.C49_tab_counterexample",
    "Iode.Asc.Texts.C49_hash_counterexample",
    "Iode.Asc.Texts.C49_convert_counterexample",
    "Iode.Asc.Texts.C49_quote_counterexample",
    "Iode.Asc.Texts.C49_number_counterexample"
   ],
   "note": "Proved for all texts laid out in the format, and for all databases whose names do not contain '#' and whose texts have no tab, no '^' in front of a letter and (identities) no quotes: names are restored, texts are cut into lines, short texts and lists of several lines are restored exactly, a second save and load changes nothing (lists, identities), visible characters are kept. Loading always ends. False of the code for the rest: '^' and a letter, tabs, leading blanks, lines of comments, long words, names with '#', quotes in formulas, texts that cannot be converted."
  },
  {
   "property": "C50",
   "status": "partial",
   "theorems": [
    "Iode.Asc.Scalars.C50_load",
    "Iode.Asc.Scalars.C50_roundtrip",
    "Iode.Asc.Scalars.C50_exact",
    "Iode.Asc.Scalars.C50_stable",
    "Iode.Asc.Scalars.C50_ends",
    "Iode.Asc.Scalars.C50_missing_counterexample",
    "Iode.Asc.Scalars.C50_digits_counterexample",
    "Iode.Asc.Scalars.C50_infinity_counterexample",
    "Iode.Asc.Scalars.C50_hash_counterexample",
    "Iode.Asc.Scalars.C50_na_counterexample",
    "Iode.Asc.Scalars.C50_long_number_counterexample"
   ],
   "note": "Proved for numbers up to 1e308 and names without #. A missing value and a missing relaxation parameter come back as 0.9 and 1, more than 14 digits are lost, infinity becomes a name: see the counterexamples."
  },
  {
   "property": "C51",
   "status": "partial",
   "theorems": [
    "Iode.Asc.Equations.C51_load",
    "Iode.Asc.Equations.C51_roundtrip",
    "Iode.Asc.Equations.C51_exact",
    "Iode.Asc.Equations.C51_stable",
    "Iode.Asc.Equations.C51_ends",
    "Iode.Asc.Equations.C51_block_counterexample",
    "Iode.Asc.Equations.C51_formula_counterexample",
    "Iode.Asc.Equations.C51_sample_counterexample",
    "Iode.Asc.Equations.C51_tests_counterexample",
    "Iode.Asc.Equations.C51_infinity_counterexample",
    "Iode.Asc.Equations.C51_digits_counterexample",
    "Iode.Asc.Equations.C51_method_counterexample",
    "Iode.Asc.Equations.C51_power_counterexample",
    "Iode.Asc.Equations.C51_quote_counterexample",
    "Iode.Asc.Equations.C51_string_counterexample",
    "Iode.Asc.Equations.C51_empty_counterexample",
    "Iode.Asc.Equations.C51_comment_counterexample",
    "Iode.Asc.Equations.C51_hash_counterexample"
   ],
   "note": "Proved for equations with a block that is not empty, formulas without quotes, and names without #. Tests at places that are not written, dates without a sample and comments with accents are lost or changed: see the counterexamples."
  },
  {
   "property": "C52",
   "status": "partial",
   "theorems": [
    "Iode.Asc.Tables.C52_load",
    "Iode.Asc.Tables.C52_failed",
    "Iode.Asc.Tables.C52_roundtrip",
    "Iode.Asc.Tables.C52_axis",
    "Iode.Asc.Tables.C52_exact",
    "Iode.Asc.Tables.C52_stable",
    "Iode.Asc.Tables.C52_lost_counterexample",
    "Iode.Asc.Tables.C52_endless_counterexample",
    "Iode.Asc.Tables.C52_name_counterexample",
    "Iode.Asc.Tables.C52_sign_counterexample",
    "Iode.Asc.Tables.C52_quotes_counterexample",
    "Iode.Asc.Tables.C52_bold_counterexample",
    "Iode.Asc.Tables.C52_infinity_counterexample",
    "Iode.Asc.Tables.C52_title_counterexample",
    "Iode.Asc.Tables.C52_order_counterexample",
    "Iode.Asc.Tables.C52_thrown_counterexample",
    "Iode.Asc.Tables.C52_stray_counterexample"
   ],
   "note": "Proved for every layout (C52_load) and for tables with names that are not key words, settings from 0 to 127, finite bounds and titles that are texts. What is not written, lost, undefined or read forever is in the counterexamples."
  },
  {
   "property": "C53",
   "status": "partial",
   "theorems": [
    "Iode.Hodrick.C53.C53_level",
    "Iode.Hodrick.C53.C53_log",
    "Iode.Hodrick.C53.C53_log_none",
    "Iode.Hodrick.C53.C53_short",
    "Iode.Hodrick.C53.C53_formula",
    "Iode.Hodrick.C53.C53_moments",
    "Iode.Hodrick.C53.C53_straight",
    "Iode.Hodrick.C53.C53_zero",
    "Iode.Hodrick.C53.C53_gap_counterexample",
    "Iode.Hodrick.C53.C53_small_counterexample",
    "Iode.Hodrick.C53.C53_negative_counterexample",
    "Iode.Hodrick.C53.C53_four_counterexample"
   ],
   "note": "Proved for every series and every length when the weight is zero or at least 2e-25. Smaller or negative weights and the values after a gap are in the counterexamples."
  },
  {
   "property": "C54",
   "status": "partial",
   "theorems": [
    "Iode.Lin.C54.C54_exact",
    "Iode.Lin.C54.C54_solve_partial",
    "Iode.Lin.C54.C54_inverse",
    "Iode.Lin.C54.C54_inverse_solves",
    "Iode.Lin.C54.C54_inverse_none",
    "Iode.Lin.C54.C54_positive",
    "Iode.Lin.C54.C54_small_counterexample",
    "Iode.Lin.C54.C54_skipped_counterexample",
    "Iode.Lin.C54.C54_pivot_counterexample"
   ],
   "note": "C54_inverse, C54_inverse_none and C54_positive hold without restriction for M_inv_1. For M_solve the full claim holds when no number compared with zero lies between zero and 1e-25 (C54_solve_partial), and without restriction for the same elimination with an exact test (C54_exact); otherwise it is false (counterexamples)."
  },
  {
   "property": "C55",
   "status": "partial",
   "theorems": [
    "Iode.Estim.C55.C55_lsq_partial",
    "Iode.Estim.C55.C55_covariance_partial",
    "Iode.Estim.C55.C55_iv_partial",
    "Iode.Estim.C55.C55_zellner_partial",
    "Iode.Estim.C55.C55_stages_partial",
    "Iode.Estim.C55.C55_orthogonal",
    "Iode.Estim.C55.C55_unique",
    "Iode.Estim.C55.C55_singular_partial",
    "Iode.Estim.C55.C55_dependent_partial",
    "Iode.Estim.C55.C55_one_instrument",
    "Iode.Estim.C55.C55_perfect_counterexample",
    "Iode.Estim.C55.C55_last_iteration_counterexample",
    "Iode.Estim.C55.C55_rounds",
    "Iode.Estim.C55.C55_zero_counterexample",
    "Iode.Estim.C55.C55_small_start_counterexample",
    "Iode.Estim.C55.C55_negative_counterexample",
    "Iode.Estim.C55.C55_one_instrument_counterexample"
   ],
   "note": "Exact arithmetic, linear equations, relaxation parameters 0 or 1. Excluded: a solution with a coefficient below 1e-15, dependent residuals, convergence in the last iteration allowed, exactly one instrument, a pivot below 1e-25 (negations are proved for these). Method 4 and equations that are not linear are modelled but not covered."
  },
  {
   "property": "C56",
   "status": "partial",
   "theorems": [
    "Iode.Estim.C56.C56_residuals",
    "Iode.Estim.C56.C56_estimated",
    "Iode.Estim.C56.C56_stderr",
    "Iode.Estim.C56.C56_dependent",
    "Iode.Estim.C56.C56_rsquare",
    "Iode.Estim.C56.C56_adjusted",
    "Iode.Estim.C56.C56_rsquare_nonneg_partial",
    "Iode.Estim.C56.C56_fstat",
    "Iode.Estim.C56.C56_durbin",
    "Iode.Estim.C56.C56_residual_correlations",
    "Iode.Estim.C56.C56_coefficient_correlations",
    "Iode.Estim.C56.C56_coefficient_error",
    "Iode.Estim.C56.C56_degrees",
    "Iode.Estim.C56.C56_ols_error_partial",
    "Iode.Estim.C56.C56_likelihood",
    "Iode.Estim.C56.C56_likelihood_one",
    "Iode.Estim.C56.C56_constant_counterexample",
    "Iode.Estim.C56.C56_negative_counterexample",
    "Iode.Estim.C56.C56_one_coefficient_counterexample",
    "Iode.Estim.C56.C56_degrees_counterexample"
   ],
   "note": "Every successful estimation: residuals, covariances, standard error, R2 below 1, adjusted R2, F, Durbin-Watson in [0,4), correlations, positive definite covariances, likelihood with the determinant, degrees of freedom. R2 >= 0 and the standard errors s2(X'X)^-1 need the hypotheses of least squares on one linear equation (C55). Counterexamples: constant left hand side, negative R2 and F, F with one coefficient, uninitialised degrees of freedom."
  },
  {
   "property": "C57",
   "status": "partial",
   "theorems": [
    "Iode.EstPrep.C57.C57_scalars",
    "Iode.EstPrep.C57.C57_position",
    "Iode.EstPrep.C57.C57_coefficients_partial",
    "Iode.EstPrep.C57.C57_in_equation_partial",
    "Iode.EstPrep.C57.C57_counts_partial",
    "Iode.EstPrep.C57.C57_value_partial",
    "Iode.EstPrep.C57.C57_accepted_partial",
    "Iode.EstPrep.C57.C57_known",
    "Iode.EstPrep.C57.C57_single",
    "Iode.EstPrep.C57.C57_again",
    "Iode.EstPrep.C57.C57_lost_counterexample",
    "Iode.EstPrep.C57.C57_value_counterexample"
   ],
   "note": "Proved exactly when the position of a coefficient still denotes it (C57_position): no scalar created for a later equation may come before it. Under that condition all claims are proved; it holds for one equation, when all coefficients exist, and for a second estimation. Otherwise the claims are false: C57_lost_counterexample, C57_value_counterexample."
  },
  {
   "property": "C58",
   "status": "partial",
   "theorems": [
    "Iode.StepWise.C58.C58_best_partial",
    "Iode.StepWise.C58.C58_none_partial",
    "Iode.StepWise.C58.C58_missing",
    "Iode.StepWise.C58.C58_many_counterexample",
    "Iode.StepWise.C58.C58_one_counterexample",
    "Iode.StepWise.C58.C58_failed_counterexample",
    "Iode.StepWise.C58.C58_buffer_counterexample"
   ],
   "note": "The estimation is a parameter: it is assumed (Repeatable) that the outcome for a combination does not depend on the combinations tried before and that it always leaves its test; C58_failed_counterexample shows what happens otherwise. Missing: equations with 31 coefficients or more or with names longer than 511 bytes in all, where the code is wrong (counterexamples)."
  },
  {
   "property": "C59",
   "status": "partial",
   "theorems": [
    "Iode.TblCalc.C59_column",
    "Iode.TblCalc.C59_files",
    "Iode.TblCalc.C59_total",
    "Iode.TblCalc.C59_line",
    "Iode.TblCalc.C59_opposite_counterexample",
    "Iode.TblCalc.C59_divisor_counterexample",
    "Iode.TblCalc.C59_number_counterexample"
   ],
   "note": "Exact conditions for a cell to show a number, for all operations. Missing, because the code is wrong there (counterexamples): mean growth between values of opposite signs, file numbers outside 1 to 5, divisors that do not link. Numbers are exact; pow is assumed to give roots."
  },
  {
   "property": "C60",
   "status": "partial",
   "theorems": [
    "Iode.TblEdit.C60_shows_partial",
    "Iode.TblEdit.C60_changes",
    "Iode.TblEdit.C60_twice_refused",
    "Iode.TblEdit.C60_lagged_refused",
    "Iode.TblEdit.C60_plain",
    "Iode.TblEdit.C60_sum_divisor_counterexample",
    "Iode.TblEdit.C60_small_counterexample",
    "Iode.TblEdit.C60_editable_counterexample",
    "Iode.TblEdit.C60_stack_counterexample"
   ],
   "note": "Proved over exact real numbers for formulas that contain their first variable once under operations undone for every value, and divisors that are products or quotients: what changes, what is shown, and what is refused. Missing, because the code is wrong there (counterexamples): divisors that are sums, variables found twice or only lagged in editable cells, small values."
  },
  {
   "property": "C61",
   "status": "partial",
   "theorems": [
    "Iode.Aggr.C61_sum",
    "Iode.Aggr.C61_product_partial",
    "Iode.Aggr.C61_mean_partial",
    "Iode.Aggr.C61_refused",
    "Iode.Aggr.C61_underscore",
    "Iode.Aggr.C61_workspace",
    "Iode.Aggr.C61_mean_counterexample",
    "Iode.Aggr.C61_mean_counter_counterexample",
    "Iode.Aggr.C61_product_missing_counterexample",
    "Iode.Aggr.C61_nochar_counterexample",
    "Iode.Aggr.C61_blank_counterexample",
    "Iode.Aggr.C61_nosample_counterexample"
   ],
   "note": "Which variables are aggregated and into which names, the sums, when names are refused and the effect on a workspace are proved in full. Products are proved where no value is missing (C61_product_partial), means where the pattern gives one aggregate (C61_mean_partial); both fail otherwise in the code, as do the default character, the blank and an empty sample (counterexamples)."
  },
  {
   "property": "C62",
   "status": "proved",
   "theorems": [
    "Iode.Expand.C62_words",
    "Iode.Expand.C62_quoted",
    "Iode.Expand.C62_line",
    "Iode.Expand.C62_escape",
    "Iode.Expand.C62_plain",
    "Iode.Expand.C62_call",
    "Iode.Expand.C62_args",
    "Iode.Expand.C62_end_counterexample",
    "Iode.Expand.C62_open_counterexample",
    "Iode.Expand.C62_percent_counterexample",
    "Iode.Expand.C62_noname_counterexample",
    "Iode.Expand.C62_unshift_counterexample",
    "Iode.Expand.C62_shift_counterexample",
    "Iode.Expand.C62_flag_counterexample",
    "Iode.Expand.C62_all_counterexample"
   ],
   "note": "for every line made of closed pieces in a report that has not been shifted beyond its arguments (C62_line, C62_args, C62_call, C62_words, C62_quoted), any text when escaped (C62_escape, C62_plain); the lines on which the code differs from the manual are counterexamples"
  },
  {
   "property": "C63",
   "status": "partial",
   "theorems": [
    "Iode.Report.C63_unique",
    "Iode.Report.C63_text",
    "Iode.Report.C63_note",
    "Iode.Report.C63_end",
    "Iode.Report.C63_command",
    "Iode.Report.C63_error",
    "Iode.Report.C63_return",
    "Iode.Report.C63_abort",
    "Iode.Report.C63_label",
    "Iode.Report.C63_shift",
    "Iode.Report.C63_call",
    "Iode.Report.C63_onerror",
    "Iode.Report.C63_goto",
    "Iode.Report.C63_goto_if",
    "Iode.Report.C63_codes",
    "Iode.Report.C63_restored",
    "Iode.Report.C63_multiline",
    "Iode.Report.C63_replace",
    "Iode.Report.C63_repeat",
    "Iode.Report.C63_loop",
    "Iode.Report.C63_goto_minus_counterexample",
    "Iode.Report.C63_goto_value_counterexample",
    "Iode.Report.C63_goto_written_counterexample",
    "Iode.Report.C63_quit_counterexample",
    "Iode.Report.C63_reaction_counterexample",
    "Iode.Report.C63_abort_counterexample",
    "Iode.Report.C63_long_counterexample",
    "Iode.Report.C63_repeat_counterexample",
    "Iode.Report.C63_room_counterexample",
    "Iode.Report.C63_code_counterexample"
   ],
   "note": "What each kind of line does, jumps, calls, reactions to errors, restored arguments, joined lines, $repeat and the loop over the arguments proved for every system of commands. False of the code in the cases of the counterexamples (condition -1, fractions and missing values, QUIT, abort inside $repeat, long names, room of $repeat)."
  },
  {
   "property": "C64",
   "status": "partial",
   "theorems": [
    "Iode.Args.C64_words",
    "Iode.Args.C64_arguments",
    "Iode.Args.C64_exact",
    "Iode.Args.C64_unknown",
    "Iode.Args.C64_replaced",
    "Iode.Args.C64_quoted",
    "Iode.Args.C64_empty_quotes_counterexample",
    "Iode.Args.C64_inner_quote_counterexample",
    "Iode.Args.C64_quoted_list_counterexample",
    "Iode.Args.C64_list_quotes_counterexample",
    "Iode.Args.C64_cycle_counterexample",
    "Iode.Args.C64_missing_file_counterexample",
    "Iode.Args.C64_long_word_counterexample",
    "Iode.Args.C64_long_quoted_counterexample",
    "Iode.Args.C64_message_counterexample"
   ],
   "note": "Proved for texts and lists without quotes and with words of at most 128 characters (C64_words, C64_arguments, C64_exact, C64_unknown, C64_replaced) and for a quoted text of at most 127 characters (C64_quoted). Not so in general: see the counterexamples: empty quotes, quotes inside words and in lists, lists that contain themselves, files that do not exist, long words and names."
  },
  {
   "property": "C65",
   "status": "partial",
   "theorems": [
    "Iode.LstCalc.C65_unique",
    "Iode.LstCalc.C65_calc",
    "Iode.LstCalc.C65_refused",
    "Iode.LstCalc.C65_sort",
    "Iode.LstCalc.C65_count",
    "Iode.LstCalc.C65_pattern",
    "Iode.LstCalc.C65_unknown_counterexample",
    "Iode.LstCalc.C65_twice_counterexample",
    "Iode.LstCalc.C65_operation_counterexample",
    "Iode.LstCalc.C65_count_counterexample",
    "Iode.LstCalc.C65_pattern_kept_counterexample",
    "Iode.LstCalc.C65_pattern_one_counterexample",
    "Iode.LstCalc.C65_pattern_long_counterexample"
   ],
   "note": "Proved for lists that exist, without quotes, nested at most ten deep (C65_calc, C65_unique, C65_refused, C65_sort, C65_count) and for patterns with two dimensions whose names fit when the list is new or the first combination exists (C65_pattern). Not so otherwise: see the counterexamples: unknown lists inside lists, repeated names in differences, combinations added to an old list, objects that do not exist, long names."
  },
  {
   "property": "C66",
   "status": "partial",
   "theorems": [
    "Iode.Compare.C66_value",
    "Iode.Compare.C66_eps",
    "Iode.Compare.C66_variable",
    "Iode.Compare.C66_variable_self",
    "Iode.Compare.C66_scalar",
    "Iode.Compare.C66_equation",
    "Iode.Compare.C66_table",
    "Iode.Compare.C66_four",
    "Iode.Compare.C66_lists",
    "Iode.Compare.C66_symmetric_counterexample",
    "Iode.Compare.C66_sample_counterexample",
    "Iode.Compare.C66_empty_counterexample",
    "Iode.Compare.C66_names_counterexample",
    "Iode.Compare.C66_equation_counterexample",
    "Iode.Compare.C66_table_counterexample",
    "Iode.Compare.C66_title_counterexample"
   ],
   "note": "Proved for lists with valid and different names and fewer than 10000 names each, objects whose comparison is defined and a file that is not empty (C66_four, C66_lists), and what equal means for variables (C66_value, C66_eps, C66_variable, C66_variable_self), equations (C66_equation) and regular tables (C66_table). Not so otherwise: see the counterexamples: symmetry, samples, empty files, names of lists, comments and tests of equations, grids of tables."
  },
  {
   "property": "C67",
   "status": "partial",
   "theorems": [
    "Iode.Mtfn.C67_covar",
    "Iode.Mtfn.C67_covar0",
    "Iode.Mtfn.C67_missing",
    "Iode.Mtfn.C67_var_nonneg",
    "Iode.Mtfn.C67_products",
    "Iode.Mtfn.C67_index",
    "Iode.Mtfn.C67_acf",
    "Iode.Mtfn.C67_acf_degree",
    "Iode.Mtfn.C67_acf_bound",
    "Iode.Mtfn.C67_stddev",
    "Iode.Mtfn.C67_corr",
    "Iode.Mtfn.C67_corr_bound",
    "Iode.Mtfn.C67_kept",
    "Iode.Mtfn.C67_interpol",
    "Iode.Mtfn.C67_interpol_last",
    "Iode.Mtfn.C67_interpol_first",
    "Iode.Mtfn.C67_interpol_one",
    "Iode.Mtfn.C67_nothing",
    "Iode.Mtfn.C67_dapp",
    "Iode.Mtfn.C67_dapp_last",
    "Iode.Mtfn.C67_dapp_first",
    "Iode.Mtfn.C67_app_last",
    "Iode.Mtfn.C67_app_first",
    "Iode.Mtfn.C67_app_none",
    "Iode.Mtfn.C67_app",
    "Iode.Mtfn.C67_covar0_counterexample",
    "Iode.Mtfn.C67_constant_counterexample",
    "Iode.Mtfn.C67_zero_counterexample",
    "Iode.Mtfn.C67_only_zeros_counterexample"
   ],
   "note": "Exact arithmetic; at the level of the functions, not of the texts of formulas. covar0 differs from the manual; acf of a constant and app with a related series that is zero at the known value give no number instead of the missing value: counterexamples."
  },
  {
   "property": "C68",
   "status": "partial",
   "theorems": [
    "Iode.Scan.C68_scan",
    "Iode.Scan.C68_unique",
    "Iode.Scan.C68_refused",
    "Iode.Scan.C68_word",
    "Iode.Scan.C68_equations",
    "Iode.Scan.C68_tables",
    "Iode.Scan.C68_all_counterexample",
    "Iode.Scan.C68_empty_cell_counterexample"
   ],
   "note": "Proved for every search whose formulas are there and whose names are valid (C68_scan, C68_equations, C68_tables; names read by the lexer are valid: C68_word). A cell without formula makes the search fail; the manual promises also the variables that are left out: counterexamples."
  },
  {
   "property": "C69",
   "status": "partial",
   "theorems": [
    "Iode.RepFn.C69_number",
    "Iode.RepFn.C69_take",
    "Iode.RepFn.C69_drop",
    "Iode.RepFn.C69_parts",
    "Iode.RepFn.C69_take_counterexample",
    "Iode.RepFn.C69_replace",
    "Iode.RepFn.C69_replace_none",
    "Iode.RepFn.C69_blanks",
    "Iode.RepFn.C69_case",
    "Iode.RepFn.C69_equal",
    "Iode.RepFn.C69_fmt",
    "Iode.RepFn.C69_fmt_counterexample",
    "Iode.RepFn.C69_index",
    "Iode.RepFn.C69_vtake",
    "Iode.RepFn.C69_vdrop",
    "Iode.RepFn.C69_vcount",
    "Iode.RepFn.C69_loop",
    "Iode.RepFn.C69_vtake_counterexample",
    "Iode.RepFn.C69_names",
    "Iode.RepFn.C69_names_once",
    "Iode.RepFn.C69_line",
    "Iode.RepFn.C69_empty_counterexample"
   ],
   "note": "The claim holds for the calls described; the code deviates from the manual for short texts, empty texts and arguments, negative numbers in formats, the separators of results and calls without elements, as the counterexamples show."
  },
  {
   "property": "C70",
   "status": "partial",
   "theorems": [
    "Iode.DynAdj.C70_adjusted",
    "Iode.DynAdj.C70_corrected",
    "Iode.DynAdj.C70_adjusted_value",
    "Iode.DynAdj.C70_corrected_value",
    "Iode.DynAdj.C70_read",
    "Iode.DynAdj.C70_refused",
    "Iode.DynAdj.C70_priority_counterexample",
    "Iode.DynAdj.C70_text_counterexample"
   ],
   "note": "Proved for sides that are not broken up by the text put around them: the right side without comparisons outside parentheses, the left side of an error correction without sums outside parentheses, no comment or semicolon at the end; the other cases give other equations (C70_priority_counterexample, C70_text_counterexample). Names of coefficients of at most 20 characters."
  },
  {
   "property": "C71",
   "status": "partial",
   "theorems": [
    "Iode.Scc.C71_lists",
    "Iode.Scc.C71_report",
    "Iode.Scc.C71_api",
    "Iode.Scc.C71_same",
    "Iode.Scc.C71_empty_undefined",
    "Iode.Scc.C71_refused",
    "Iode.Scc.C71_missing",
    "Iode.Scc.C71_names_counterexample",
    "Iode.Scc.C71_stale_counterexample"
   ],
   "note": "Proved for names of lists of at most 15 characters none of which starts with another one and models of at most a million equations; for model_simulate_SCC only with a non-empty prolog and block (otherwise C71_empty_undefined)."
  },
  {
   "property": "C72",
   "status": "partial",
   "theorems": [
    "Iode.Imp.C72_rules_partial",
    "Iode.Imp.C72_blank_undefined",
    "Iode.Imp.C72_import_partial",
    "Iode.Imp.C72_refused_partial",
    "Iode.Imp.C72_periods",
    "Iode.Imp.C72_default",
    "Iode.Imp.C72_load",
    "Iode.Imp.C72_periods_counterexample",
    "Iode.Imp.C72_header_undefined",
    "Iode.Imp.C72_comments_partial",
    "Iode.Imp.C72_rotated_counterexample",
    "Iode.Imp.C72_formats_undefined",
    "Iode.Imp.C72_api_counterexample"
   ],
   "note": "Ascii variables and comments are proved for patterns made of *, ? and ordinary characters without a final run of stars; the other formats and the version of import_var with periods do not do what is stated (counterexamples)."
  },
  {
   "property": "C73",
   "status": "partial",
   "theorems": [
    "Iode.Exp.C73_csv_partial",
    "Iode.Exp.C73_rotated_partial",
    "Iode.Exp.C73_dif_partial",
    "Iode.Exp.C73_sample_partial",
    "Iode.Exp.C73_default_partial",
    "Iode.Exp.C73_precision",
    "Iode.Exp.C73_tab_counterexample",
    "Iode.Exp.C73_dif_counterexample",
    "Iode.Exp.C73_file_undefined",
    "Iode.Exp.C73_api_undefined",
    "Iode.Exp.C73_api",
    "Iode.Exp.C73_refused_partial",
    "Iode.Exp.C73_create_counterexample",
    "Iode.Exp.C73_save_partial",
    "Iode.Exp.C73_save_default_undefined",
    "Iode.Exp.C73_save_sample_counterexample",
    "Iode.Exp.C73_save_behind_undefined",
    "Iode.Exp.C73_digits_counterexample",
    "Iode.Exp.C73_limit_counterexample",
    "Iode.Exp.C73_comment_counterexample"
   ],
   "note": "CSV, rotated CSV and DIF files hold the table they should for a separator that is a visible mark in no name, number, comment or missing text; numbers within half a unit of the 8th digit; another sample gives the image of the database; without rules own names; save_csv without a sample. False of the code: blank separators, DIF row count and creation failure, comments with separators or lines, -1e37, missing variables file and export_as with periods (null pointers), save_csv without settings, with a sample, or with more than 15 digits. TSP, WKS and GNUPlot are not modelled."
  },
  {
   "property": "C74",
   "status": "partial",
   "theorems": [
    "Iode.DataCmd.C74_create",
    "Iode.DataCmd.C74_create_exists",
    "Iode.DataCmd.C74_create_variables",
    "Iode.DataCmd.C74_delete",
    "Iode.DataCmd.C74_delete_unknown",
    "Iode.DataCmd.C74_delete_pattern_partial",
    "Iode.DataCmd.C74_delete_twice_counterexample",
    "Iode.DataCmd.C74_rename",
    "Iode.DataCmd.C74_rename_refused",
    "Iode.DataCmd.C74_duplicate",
    "Iode.DataCmd.C74_duplicate_counterexample",
    "Iode.DataCmd.C74_exist",
    "Iode.DataCmd.C74_update_text",
    "Iode.DataCmd.C74_append",
    "Iode.DataCmd.C74_update_scl",
    "Iode.DataCmd.C74_update_scl_refused",
    "Iode.DataCmd.C74_update_var",
    "Iode.DataCmd.C74_update_before",
    "Iode.DataCmd.C74_update_no_sample",
    "Iode.DataCmd.C74_list_partial",
    "Iode.DataCmd.C74_search_partial",
    "Iode.DataCmd.C74_bad_period_counterexample",
    "Iode.DataCmd.C74_no_period_undefined",
    "Iode.DataCmd.C74_nothing_undefined",
    "Iode.DataCmd.C74_long_name_counterexample",
    "Iode.DataCmd.C74_sign_counterexample",
    "Iode.DataCmd.C74_long_equation_undefined",
    "Iode.DataCmd.C74_bad_name_counterexample"
   ],
   "note": "Patterns of $DataDelete, $DataList and $DataSearch are those of C23 (no runs of stars, no special characters). Comments are covered for updates and appended texts; the loops over names for the other types. Several claims do not hold of the code in corner cases, see the counterexamples."
  },
  {
   "property": "C75",
   "status": "partial",
   "theorems": [
    "Iode.VarOps.C75_scalar",
    "Iode.VarOps.C75_scalar_refused",
    "Iode.VarOps.C75_period",
    "Iode.VarOps.C75_period_zero",
    "Iode.VarOps.C75_period_refused",
    "Iode.VarOps.C75_one_var",
    "Iode.VarOps.C75_one_var_zero",
    "Iode.VarOps.C75_one_var_short_undefined",
    "Iode.VarOps.C75_one_var_refused",
    "Iode.VarOps.C75_two_vars",
    "Iode.VarOps.C75_copy",
    "Iode.VarOps.C75_two_refused",
    "Iode.VarOps.C75_add",
    "Iode.VarOps.C75_add_empty",
    "Iode.VarOps.C75_overlap_counterexample",
    "Iode.VarOps.C75_add_first_counterexample",
    "Iode.VarOps.C75_missing_counterexample",
    "Iode.VarOps.C75_missing_add"
   ],
   "note": "Proved for all reachable states, for values that are not written before they are read (another variable, or a range that does not begin in front of the one written, or ends in front of it). False without it: C75_overlap_counterexample; also C75_missing_counterexample, C75_add_first_counterexample, C75_one_var_short_undefined. A variable added to a subset is not covered by C75_add."
  },
  {
   "property": "C76",
   "status": "partial",
   "theorems": [
    "Iode.EqsCmd.C76_sample",
    "Iode.EqsCmd.C76_sample_unknown",
    "Iode.EqsCmd.C76_sample_refused",
    "Iode.EqsCmd.C76_block",
    "Iode.EqsCmd.C76_block_unknown",
    "Iode.EqsCmd.C76_method",
    "Iode.EqsCmd.C76_comment",
    "Iode.EqsCmd.C76_instruments",
    "Iode.EqsCmd.C76_text_unknown",
    "Iode.EqsCmd.C76_long_name_undefined",
    "Iode.EqsCmd.C76_blanks_counterexample",
    "Iode.EqsCmd.C76_method_counterexample",
    "Iode.EqsCmd.C76_nothing_undefined"
   ],
   "note": "Proved for names that exist, methods 0-127 and names of less than 16 characters; two separators in a row, other methods, longer names and a name with nothing behind it are shown to do something else or to be undefined."
  },
  {
   "property": "C77",
   "status": "partial",
   "theorems": [
    "Iode.EstSave.C77_saved",
    "Iode.EstSave.C77_failed",
    "Iode.EstSave.C77_kept",
    "Iode.EstSave.C77_all",
    "Iode.EstSave.C77_unknown",
    "Iode.EstSave.C77_member_undefined",
    "Iode.EstSave.C77_member_counterexample",
    "Iode.EstSave.C77_number_counterexample",
    "Iode.EstSave.C77_rest_counterexample",
    "Iode.EstSave.C77_own_counterexample"
   ],
   "note": "Proved for every outcome of the estimations when the equations of the blocks are in the database that is estimated; otherwise members lose their texts (C77_member_counterexample), and a block with an unknown name is undefined. The estimation itself is in C54-C57."
  },
  {
   "property": "C78",
   "status": "partial",
   "theorems": [
    "Iode.DfTest.C78_result",
    "Iode.DfTest.C78_refused",
    "Iode.DfTest.C78_failed",
    "Iode.DfTest.C78_no_exception",
    "Iode.DfTest.C78_order_undefined",
    "Iode.DfTest.C78_scalars",
    "Iode.DfTest.C78_equation",
    "Iode.DfTest.C78_arguments",
    "Iode.DfTest.C78_comma_counterexample",
    "Iode.DfTest.C78_names_counterexample",
    "Iode.DfTest.C78_zero_counterexample",
    "Iode.DfTest.C78_no_error_undefined"
   ],
   "note": "The estimation itself is a parameter (see C77 and the theorems on estimation); objects of the user with the names of the test are lost, the variable _DF stays, orders from 59 on are undefined."
  },
  {
   "property": "C79",
   "status": "partial",
   "theorems": [
    "Iode.EstEdit.C79_block",
    "Iode.EstEdit.C79_block_refused",
    "Iode.EstEdit.C79_invariant",
    "Iode.EstEdit.C79_begin",
    "Iode.EstEdit.C79_scalars",
    "Iode.EstEdit.C79_current",
    "Iode.EstEdit.C79_unsaved",
    "Iode.EstEdit.C79_estimated",
    "Iode.EstEdit.C79_new_undefined",
    "Iode.EstEdit.C79_save",
    "Iode.EstEdit.C79_save_refused",
    "Iode.EstEdit.C79_saved_first",
    "Iode.EstEdit.C79_edit_counterexample",
    "Iode.EstEdit.C79_done_counterexample",
    "Iode.EstEdit.C79_shared_counterexample",
    "Iode.EstEdit.C79_alias_counterexample",
    "Iode.EstEdit.C79_unused_counterexample"
   ],
   "note": "Proved: the block, its text and the current equation always agree; without save only results and missing coefficients are new in the workspaces; what an estimation asks for and where its results are; what save writes; saved first, the session's own LECs are estimated. False, shown by counterexamples: LECs edited in the session are estimated (the workspace's are, and they overwrite the edit); an estimation of a new equation (undefined); the mark of an estimation after the block has changed; coefficients shared with an equation outside the block; estimations after a save leave the workspace alone."
  },
  {
   "property": "C80",
   "status": "partial",
   "theorems": [
    "Iode.Spline.C80_natural_exists",
    "Iode.Spline.C80_natural_unique",
    "Iode.Spline.C80_defined",
    "Iode.Spline.C80_flow_missing",
    "Iode.Spline.C80_stock_missing",
    "Iode.Spline.C80_flow_sum_partial",
    "Iode.Spline.C80_flow_first",
    "Iode.Spline.C80_stock_value_partial",
    "Iode.Spline.C80_stock_end",
    "Iode.Spline.C80_stock_curve",
    "Iode.Spline.C80_flow_curve",
    "Iode.Spline.C80_flow_counterexample",
    "Iode.Spline.C80_stock_counterexample",
    "Iode.Spline.C80_gap_counterexample"
   ],
   "note": "Sums of flows, values of stocks and the curve are proved where the code computes them; the first period of a run, the last periods and series with leading missing values or gaps are counterexamples. Exact arithmetic."
  },
  {
   "property": "C81",
   "status": "partial",
   "theorems": [
    "Iode.Season.C81_units",
    "Iode.Season.C81_outside",
    "Iode.Season.C81_defined",
    "Iode.Season.C81_unchanged_partial",
    "Iode.Season.C81_product",
    "Iode.Season.C81_season",
    "Iode.Season.C81_negative_counterexample",
    "Iode.Season.C81_short_counterexample",
    "Iode.Season.C81_constant_counterexample",
    "Iode.Season.C81_two_years_undefined",
    "Iode.Season.C81_outlier_counterexample"
   ],
   "note": "Proved for the whole years at the end of the first run of numbers; series that are not seasonal stay only when they are nowhere negative. Counterexamples for negative series, runs shorter than a year, constant quarterly series and outliers; less than three years of a seasonal series are undefined. Arguments and sample are not modelled."
  },
  {
   "property": "C82",
   "status": "partial",
   "theorems": [
    "Iode.Dif.C82_one_period",
    "Iode.Dif.C82_import_partial",
    "Iode.Dif.C82_refused_partial",
    "Iode.Dif.C82_periods_undefined",
    "Iode.Dif.C82_heading_refused",
    "Iode.Dif.C82_rows_undefined",
    "Iode.Dif.C82_text_undefined",
    "Iode.Dif.C82_export_counterexample"
   ],
   "note": "Proved for every file with one period and any rules. Files with more than one period crash the reader (C82_periods_undefined), as do files without rows (C82_rows_undefined) and texts for values (C82_text_undefined); exported DIF files are refused (C82_export_counterexample)."
  },
  {
   "property": "C83",
   "status": "partial",
   "theorems": [
    "Iode.FileCmd.C83_file_copy_partial",
    "Iode.FileCmd.C83_database_undefined",
    "Iode.FileCmd.C83_file_rename",
    "Iode.FileCmd.C83_file_delete_partial",
    "Iode.FileCmd.C83_file_delete_counterexample",
    "Iode.FileCmd.C83_move",
    "Iode.FileCmd.C83_move_back",
    "Iode.FileCmd.C83_move_taken",
    "Iode.FileCmd.C83_copy_partial",
    "Iode.FileCmd.C83_copy_itself_counterexample",
    "Iode.FileCmd.C83_append",
    "Iode.FileCmd.C83_delete",
    "Iode.FileCmd.C83_others",
    "Iode.FileCmd.C83_sequence",
    "Iode.FileCmd.C83_failed_partial",
    "Iode.FileCmd.C83_failed_counterexample",
    "Iode.FileCmd.C83_suffix_undefined"
   ],
   "note": "Proved for all disks, arguments and sequences of commands: what each command does to the files it names, that other files stay, and that failed commands change nothing (but for the conversions between OEM and ANSI). Copies of databases are undefined, $FileDelete works with two names only, a copy onto itself empties the file: stated as theorems."
  },
  {
   "property": "C84",
   "status": "partial",
   "theorems": [
    "Iode.FileCmd.C84_oem_utf8_partial",
    "Iode.FileCmd.C84_ansi_utf8_partial",
    "Iode.FileCmd.C84_oem_ansi_partial",
    "Iode.FileCmd.C84_ansi_oem_partial",
    "Iode.FileCmd.C84_ansi_oem_counterexample",
    "Iode.FileCmd.C84_ansi_oem_undefined",
    "Iode.FileCmd.C84_oem_back_partial",
    "Iode.FileCmd.C84_ansi_back_partial",
    "Iode.FileCmd.C84_back_counterexample",
    "Iode.FileCmd.C84_ascii",
    "Iode.FileCmd.C84_euro_counterexample",
    "Iode.FileCmd.C84_bullet_counterexample",
    "Iode.FileCmd.C84_oem_utf8_counterexample",
    "Iode.FileCmd.C84_itself_counterexample"
   ],
   "note": "Proved for all files of ASCII and the letters of the languages around here; $SysAnsiToOem without three letters. The wrong entries of the tables are counterexamples; some output depends on uninitialised memory."
  },
  {
   "property": "C85",
   "status": "partial",
   "theorems": [
    "Iode.ObjVers.C85_pieces",
    "Iode.ObjVers.C85_text",
    "Iode.ObjVers.C85_comment",
    "Iode.ObjVers.C85_identity",
    "Iode.ObjVers.C85_variable_same",
    "Iode.ObjVers.C85_variable",
    "Iode.ObjVers.C85_scalar_same",
    "Iode.ObjVers.C85_scalar",
    "Iode.ObjVers.C85_cell_counterexample",
    "Iode.ObjVers.C85_file",
    "Iode.ObjVers.C85_texts"
   ],
   "note": "Proved for comments, lists, identities, scalars and variables, for all packs with words of 2 bytes and all files made of them. Equations and tables are not modelled, but for the formulas in cells, which are lost (a counterexample)."
  },
  {
   "property": "C86",
   "status": "partial",
   "theorems": [
    "Iode.DataCmd.C86_only_the_variable",
    "Iode.DataCmd.C86_values",
    "Iode.DataCmd.C86_values_of_others",
    "Iode.DataCmd.C86_recurrence",
    "Iode.DataCmd.C86_failure",
    "Iode.DataCmd.C86_unknown_name",
    "Iode.DataCmd.C86_name_alone_undefined",
    "Iode.DataCmd.C86_itself_counterexample",
    "Iode.DataCmd.C86_left_behind_counterexample",
    "Iode.DataCmd.C86_long_name_counterexample"
   ],
   "note": "Proved for all workspaces, names and formulas, but that a failure changes nothing: a variable that was missing has then been created (a counterexample)."
  },
  {
   "property": "C87",
   "status": "partial",
   "theorems": [
    "Iode.WsCmd.C87_sample_partial",
    "Iode.WsCmd.C87_sample_refused",
    "Iode.WsCmd.C87_extrapolate_partial",
    "Iode.WsCmd.C87_one_period_undefined",
    "Iode.WsCmd.C87_short_year_counterexample",
    "Iode.WsCmd.C87_copy_sample",
    "Iode.WsCmd.C87_copy_names",
    "Iode.WsCmd.C87_copy_name",
    "Iode.WsCmd.C87_two_blanks_counterexample"
   ],
   "note": "Proved for regular histories (C11) and samples of at most 32767 periods (C12); names given as patterns are in C23. Counterexamples for years with leading zeros and repeated separators; a method with one period is undefined."
  },
  {
   "property": "C88",
   "status": "partial",
   "theorems": [
    "Iode.ModelCmd.C88_simulate",
    "Iode.ModelCmd.C88_identities_partial",
    "Iode.ModelCmd.C88_unknown_list_counterexample",
    "Iode.ModelCmd.C88_empty_list_counterexample",
    "Iode.ModelCmd.C88_simulate_scc",
    "Iode.ModelCmd.C88_calc_scc",
    "Iode.ModelCmd.C88_calc_scc_refused",
    "Iode.ModelCmd.C88_parameters",
    "Iode.ModelCmd.C88_parameters_refused",
    "Iode.ModelCmd.C88_wrong_words_counterexample",
    "Iode.ModelCmd.C88_comma_counterexample",
    "Iode.ModelCmd.C88_long_name_counterexample"
   ],
   "note": "All argument texts with two periods and readable lists for the simulation, the block simulation and its computation, and the parameters. $IdtExecute takes all identities when a list does not exist (counterexample), so its theorem covers texts whose lists exist; empty lists stand for everything (counterexample)."
  },
  {
   "property": "C89",
   "status": "partial",
   "theorems": [
    "Iode.ConvCmd.C89_high_to_low_partial",
    "Iode.ConvCmd.C89_low_to_high_partial",
    "Iode.ConvCmd.C89_method",
    "Iode.ConvCmd.C89_no_names_undefined",
    "Iode.ConvCmd.C89_no_sample_undefined",
    "Iode.ConvCmd.C89_no_file_undefined",
    "Iode.ConvCmd.C89_method_counterexample",
    "Iode.ConvCmd.C89_ascii_counterexample",
    "Iode.ConvCmd.C89_ascii_run_counterexample"
   ],
   "note": "All texts with names, all files and workspaces, under the alignment conditions of C40 and C41; the case of C41 that is missing there is missing here. Without names, sample or file the commands are undefined; ascii files ignore the names (counterexamples)."
  },
  {
   "property": "C90",
   "status": "partial",
   "theorems": [
    "Iode.Graph.C90_sample",
    "Iode.Graph.C90_mixed_refused",
    "Iode.Graph.C90_series_partial",
    "Iode.Graph.C90_names",
    "Iode.Graph.C90_range_refused",
    "Iode.Graph.C90_same_period_counterexample",
    "Iode.Graph.C90_same_name_counterexample",
    "Iode.Graph.C90_no_title_counterexample"
   ],
   "note": "Sample, operations on files, periods, values and names, for all columns of one periodicity less than 32767 periods apart. Columns with the same period and files are not kept apart, nor are lines with the same name (counterexamples); the theorems say what counts then or exclude it."
  },
  {
   "property": "C91",
   "status": "partial",
   "theorems": [
    "Iode.ImpCmd.C91_variables_partial",
    "Iode.ImpCmd.C91_variables_refused",
    "Iode.ImpCmd.C91_comments_partial",
    "Iode.ImpCmd.C91_comments_refused",
    "Iode.ImpCmd.C91_bistel_counterexample",
    "Iode.ImpCmd.C91_unknown_format_counterexample",
    "Iode.ImpCmd.C91_not_saved_counterexample",
    "Iode.ImpCmd.C91_trace_open_counterexample",
    "Iode.ImpCmd.C91_extra_word_counterexample",
    "Iode.ImpCmd.C91_periods_counterexample"
   ],
   "note": "Words, formats, refusals and traces are proved for words of visible characters and files that can be written. False of the code and proved so: Bistel cannot be named, unknown formats are ascii, a failed save is a success, the trace stays open after wrong periods. The readers of formats other than ascii and DIF are a parameter."
  },
  {
   "property": "C92",
   "status": "partial",
   "theorems": [
    "Iode.Tsp.C92_lines",
    "Iode.Tsp.C92_text",
    "Iode.Tsp.C92_variable_partial",
    "Iode.Tsp.C92_header_partial",
    "Iode.Tsp.C92_other_counterexample",
    "Iode.Tsp.C92_file"
   ],
   "note": "Header, order, values and line lengths are proved for yearly, quarterly and monthly samples and values whose texts fit in a line; for other periodicities the header has no sample (proved so). Not proved: that every text of a value is shorter than a line. Samples without periods are left out."
  }
 ]
}