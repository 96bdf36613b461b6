P='VPC.'
def V(s): return ' '.join('VPC.'+x for x in s.split())
c('C01','proved',V('setCut_slack_eq setCut_exact setCut_error_bound setCut_order_matters compCoor_eq_nbCoord compCoor_ranged_wrong'),'exact equivalence of the nonbasic-space and structural-space cut, with an error bound for dropped tiny coefficients; ranged rows shown wrong by a witness')
c('C07','partial',V('removeSmall_valid_up_to_eps removeSmall_valid_partial removeSmall_can_cut_off removeSmall_retained_iff removeSmall_rhs'),'the cut returned can cut off a feasible point of the original cut by up to EPS*|coeff| (witness removeSmall_can_cut_off)')
c('C08','proved',V('cleanCut_accepts_only_good cleanCut_first_failure'),'')
c('C09','partial',V('isRowDifferent_range isRowDifferent_minus_one isRowDifferent_one isRowDifferent_zero_partial isRowDifferent_zero_wrong isRowDifferent_parallel howDuplicate_first'),'result 0 does not imply equality when rhs have opposite sign and equal modulus')
c('C15','partial',V('tol_trichotomy tol_swap tol_less_trans tol_infinity_explicit tol_negInfinity_default_wrong tol_negInfinity_default_partial'),'default arguments of isNegInfinity are wrong')
c('C38','proved',V('rayCoor_exact packRay_spec'),'')
c('C02','proved',V('hull_valid_iff setup_complete setup_sound_partial'),'')
c('C03','partial',V('vpc_valid_partial corner_decomposition tableau_identity vpc_cleaned_valid_partial dropped_term_cuts_off intSol_valid_partial nbDot_scPairs'),'validity of the cut for every point of every retained term; assumes the LP solver returned a basis/tableau of each term and that the disjunction covers (C04, C05)')
c('C10','partial',V('dedup_partial dedup_rays dedup_rays_error dedup_drops_both setup_sound_partial'),'two points with opposite-signed right-hand sides can eliminate each other (witness dedup_drops_both)')
c('C38','partial',V('rayCoor_exact rayCoor_free_wrong packRay_spec'),'the ray of a free nonbasic variable is not handled (witness)')
c('C46','partial',V('packCoor_perm packCoor_spec packCoor_nodup packCoor_sorted_partial packCoor_unsorted'),'indices are not always increasing (witness)')
c('C47','partial',V('setup_aborts_on_feasible setup_aborts_only'),'abort on a satisfiable collection (witness)')

c('C11','partial',V('counters_exact tried_eq_cuts_plus_failures run_never_aborts per_objective_counts_wrong repeated_use_counts_wrong'),'per-objective counters double count replaced cuts; wrong records with repeated use (witnesses)')
c('C12','partial',V('cut_limit_total cut_limit_per_disjunction at_limit_adds_nothing repeated_use_exceeds_limit'),'the per-disjunction limit can be exceeded when a generator is used repeatedly (witness)')
c('C13','proved',V('failure_constants all_failures_stop_at_20 successful_runs_continue failure_limit_table failure_limit_monotone'),'thresholds are the exact binary64 values, divisions are exact instead of rounded')
c('C14','proved',V('matchStatus_one_to_one'),'')
c('C41','partial',V('cutLimit_resolution cutLimit_sticks cutLimit_second_round_wrong'),'resolved limit overwrites the relative one; wrong in later rounds of the same generator (witness)')
c('C48','partial',V('objectiveCut_sat_iff objectiveCut_valid_partial objectiveCut_cuts_off_optimum'),'coefficients within 1e-7 of EPS are dropped (witness of an invalid cut)')
c('C49','partial',V('user_objectives_dropped'),'negation proved: user objectives are never tried')
c('C50','proved',V('given_cuts_preserved'),'')

c('C17','partial',V('int_set_documented int_set_accepts dbl_set_documented_partial dbl_set_accepts INF_accepts_anything INF_violates_C17 params_always_documented_partial'),'fails for the parameter INF (witness); proved for every other parameter and every history')
c('C18','partial',V('setByName_effect setByName_violates_C18 setByName_never_rejects setByName_partial readParams_only_cutlimit'),'negation proved: setting by name always sets CUTLIMIT')
c('C19','proved',V('enableBB_spec disableBB_spec enable_disable_other_bits enable_disable_algebra bbValue_spec bbValue_duplicates tempOption_spec'),'')
c('C20','partial',V('switch_ok_partial cli_switch_partial use_best_bound_stuck bb_heuristics_sets_presolve bb_presolve_sets_heuristics C20_violated'),'three switches do the wrong thing (witnesses)')
c('C31','proved',V('strategy_decodes strategy_total'),'')
c('C51','partial',V('parseInt_decimal_partial parseInt_shape parseInt_value_partial parseInt_wraps'),'out-of-range numbers wrap (witness)')
c('C52','proved',V('cli_int_option longName_matches cli_tikz'),'real-valued options rest on strtod, which is a parameter of the model')
c('C16','partial',V('timer_accounts timer_aborts_iff unknown_name_harmless unregistered_limit_never_fires registered_limit_exact reregister_loses_time'),'re-registering a name is not harmless (witness); clock is an input of the model')
c('C53','partial',V('getName_diverges two_timers_print_diverges getName_single_partial'),'negation proved: lookup diverges for every timer but the first')
c('C21','partial',V('update_eq_batch_partial updates_eq_batch_partial computeStats_spec_partial computeStats_max_wrong update_from_empty_wrong negative_prev_size_wrong'),'maximum of all-negative data wrong; start from empty statistics and negative previous size wrong (witnesses)')
c('C22','partial',V('parse_plain parse_archived parse_rejects_iff parse_sound parse_dot_in_directory'),'a name without extension in a directory with a dot is accepted (witness)')
c('C36','partial',V('packedSum_exact_partial packedSum_error packedSum_sorted packedSum_one_zero packedSum_drops_large packedSum_stale'),'entries only in the second vector are tested before multiplying; two zero multipliers leave the output stale (witnesses)')
c('C37','proved',V('dotDense_exact dotDense_undefined_iff dotSparseDense_exact dotSparseDense_undefined_iff dotSparse_exact dot_forms_agree dotSparse_unsorted dotSparseDense_error'),'exact arithmetic; additionally an error bound for the uncompensated version under relative rounding error')
c('C42','partial',V('objLookup_first_partial objLookup_no_name objLookup_unreadable_skipped objLookup_terminates objLookup_no_extension'),'a first matching line without readable value is skipped or terminates the process (witnesses)')
c('C54','partial',V('getSol_spec_partial solLine_double_blank getSol_edges'),'two blanks record 0 (witness)')

c('C23','proved',V('toMinimization_equiv'),'')
c('C24','partial',V('addToObjective_spec addToObjective_cols_partial addToObjective_unsorted addToObjective_zero_mult addToObjective_null setConstantObjective_spec setConstantObjective_all add_then_zero setObjectiveStructural_undefined setObjectiveStructural_wrong setObjectiveStructural_uncompressed'),'the version with a column list needs sorted input (witness) and the structural-space version reads outside its array (witnesses)')
c('C25','partial',V('sparse_roundtrip dense_faithful_partial dense_truncates dense_truncation_changes_cut'),'dense conversion truncates coefficients to int (witness); proved for integer coefficients')
c('C26','proved',V('flipObj_involution flipObj_same'),'')
c('C55','partial',V('load_partial load_ignores_offset load_wrong_value'),'objective offset is ignored (witness)')

c('C43','partial',V('applyCuts_partial applyCuts_all_partial negative_count_undefined null_solver_undefined infeasible_exits getObjValue_spec vpcApplyCuts_mask vpcApplyCuts_all'),'process exits instead of reporting an infinite bound (witness); a start index without count reads out of range (proved)')
c('C44','partial',V('status_partition_partial bounds_exclusive superbasic_in_no_class bound_tests_true fixed_by_reduced_cost'),'superbasic variables are in no class (proved)')
c('C56','proved',V('checkSolverOptimality_result checkSolverOptimality_calls checkSolverOptimality_stable'),'for every solver whose statuses are mutually exclusive')
c('C57','proved',V('solveFromHotStart_spec'),'')
c('C27','partial',V('generators_safe_partial init_inv copy_owner_undefined copy_after_generate_undefined shared_prlp_double_free reset_own_disjunction_undefined borrowed_set_double_free second_generate_exits prlp_leak interfaces_safe_partial vinit_inv vsi_copy_undefined vsi_setDisjunction_undefined vsi_assign_null_disj_undefined set_disjunction_mode set_disjunction_set_mode'),'fails as stated: copying a generator that owns a disjunction, copying an interface object and VPCSolverInterface::setDisjunction are undefined (proved); memory safety proved for every program that keeps to a stated discipline')
c('C28','proved',V('dset_reports dset_lookup disj_updateObj_fold'),'')
c('C29','partial',V('termLP_rows_exact_partial termLP_bounds_contains termLP_bounds_exact_partial common_ineqs_ignored termLP_loosens applyChanges_undefined_iff'),'common inequalities are never added (proved); bounds are overwritten, so a looser change lets in points outside the relaxation (witness); exact otherwise')
c('C58','partial',V('objCheck_partial objCheck_opposite_sign'),'opposite signs are always accepted (proved)')
c('C59','partial',V('dset_prepare_partial dset_prepare_first dset_prepare_stale dset_int_sol_stale'),'values from an earlier preparation survive (witness)')
c('C04','proved',V('split_covers split_two_terms split_all_one_sided'),'LP outcomes are parameters; sides reported infeasible must really be infeasible')
c('C39','proved',V('generateSplits_spec splitPrepare_keeps_var'),'for every correct sort; when generation does not terminate the process')
c('C45','partial',V('split_prepare_accumulates split_reset_prepare_partial split_reset_keeps_variable'),'fails for splits: terms of both preparations are kept (proved for every pair of successful preparations)')
c('C05','partial',V('bb_covers_partial bb_keep_covers bb_unsolved_child_dropped bb_step_succeeds'),'for every history of a solver that only discards truly infeasible / pruned nodes; when pruned terms are kept the cover is unconditional; without it a child whose LP is not proven optimal (e.g. iteration limit) is dropped and the disjunction misses points (witness)')
c('C34','proved',V('saved_terms_eq_leaves pbbFinish_no_exit failed_save_leaves_room'),'')
c('C35','partial',V('rows_never_checked infeasible_incumbent_accepted incumbent_columns_partial bad_column_exits'),'the loop over rows is never entered with a good column check, so rows are not checked at all (proved, and witness)')
c('C60','partial',V('root_bounds_step_partial root_bound_up_missing rootSide_total setupTerm_defined'),'the second child of the root updates the bound of the first side (witness)')
c('C61','partial',V('recorded_improves improving_recorded_partial improving_not_recorded'),'not recorded if the node survives the new cutoff (witness)')
c('C06','partial',V('clean_preserves_partial clean_only_tightens clean_report clean_exit_infeasible clean_max_loses_points clean_undoes_fixing'),'full for minimization problems; for maximization problems the sense is copied to the auxiliary solver and points are lost (witness)')
c('C62','partial',V('clean_counts_partial clean_counts_twice'),'the sum is an upper bound on the number of changed bounds; a bound can be counted twice (witness)')
c('C32','proved',V('bfs_strict_weak bfs_shallow_first bfs_best_is_shallowest'),'for every consistent tie breaking (Cbc)')
c('C30','partial',V('selection_best criteria_meaning choose_best_partial bestBranch_argmax doStrong_zero doStrong_codes doStrong_minus_one all_trusted_ignores_scores forced_object_overrides stale_second_best'),'the selection loop is exact; chooseVariable throws scores away if all candidates are trusted, if a side is infeasible and at the time limit (witnesses)')
c('C33','proved',V('rounds_totals rounds_stop rounds_stop_when_solved rounds_best'),'for every number of rounds and every per-round outcome, over the modelled main loop')
c('C40','partial',V('index_tables index_tables_exit_iff index_tables_origOk orig_table_partial orig_table_not_as_documented no_rows_undefined'),'the tables of the problem itself are invertible for every basis; the second table (original variables) does not hold what its documentation says for variables still nonbasic (witness), and a problem without rows is undefined behaviour')
c('C63','partial',V('supplied_disjunction_never_used supplied_disjunction_exits custom_rounds_no_cuts'),'negation proved: a supplied disjunction never yields a cut')
c('C64','partial',V('round_number_lost'),'negation proved')
c('C65','partial',V('crosses_and_custom_exit flip_beta_exits small_option_undefined implemented_modes_return_partial'),'proved for the implemented modes; the others terminate the process or are undefined (theorems)')
c('C66','proved',V('try_reason_true'),'')
c('C67','proved',V('nbReducedCost_nonneg nbReducedCosts_spec'),'')
c('C68','partial',V('instanceEps_spec empty_matrix_undefined'),'full for every instance with at least one matrix element; an empty matrix is undefined behaviour')

c('C03','partial',V('vpc_end_to_end_partial split_vpc_valid_partial bb_vpc_valid_partial run_valid_partial term_cone_partial vpc_valid_partial corner_decomposition tableau_identity vpc_cleaned_valid_partial dropped_term_cuts_off intSol_valid_partial nbDot_scPairs doTerm_infeasible keepPruned_infeasible'),'end to end: from the disjunction (split or partial tree) through term LPs, vertex/ray collection, point-ray LP and conversion to the structural cut, for every point of every term; hypotheses: truthful LP answers, exact arithmetic (no tolerance drops), no ranged rows or free nonbasic variables; a complete concrete run (Tri.runOk) meets them. A term not solved to optimality is dropped and the cut can then be invalid (witness); pruned terms kept by branch and bound are never collected (proved)')
c('C69','proved',V('rootCutOf_sat rootChanges_spec rootChanges_keeps'),'for every cut limit and violation test')
c('C70','partial',V('savedObj_agree_partial savedObj_opposite_sign savedObj_near_zero doTerm_checked rootObj_checked'),'opposite signs are always accepted (proved)')
c('C71','proved',V('sameSolution_iff repeated_solution_no_cut new_solution_tried'),'')
c('C72','partial',V('pool_distinct_partial pool_not_parallel_partial genCut_pool pool_ortho_step pool_replace_better replacement_leaves_parallel root_duplicates not_parallel_of_different'),'pairwise different for every history after the root changes; a replacement leaves near-parallel cuts, and root cuts are never compared (witnesses)')
c('C73','partial',V('stronger_duplicate_lost duplicate_leaves_pool'),'negation proved: for every pool, whatever is found to be a duplicate is dropped, also if it is stronger (witness)')
c('C13','proved',V('failure_limit_complete successful_stopped_only_if_slow default_time_clause failure_constants all_failures_stop_at_20 successful_runs_continue failure_limit_table failure_limit_monotone'),'thresholds are the exact binary64 values, divisions are exact instead of rounded')
c('C20','partial',V('switch_ok_partial cli_switch_partial cli_switch_rejects use_best_bound_stuck bb_heuristics_sets_presolve bb_presolve_sets_heuristics C20_violated'),'three switches do the wrong thing (witnesses)')
c('C52','partial',V('cli_int_option longName_matches cli_tikz cli_temp_partial temp_negative_loses cli_bbStrategy preprocess_not_documented'),'negative --temp loses sub-options and --preprocess does not do what its help text says (witnesses); real-valued options rest on strtod, which is a parameter of the model')
c('C74','partial',V('documented_accepted_partial undocumented_rejected_partial strengthen_three_exits undocumented_accepted default_strategy'),'fails for STRENGTHEN=3 and PRLP_TIMELIMIT=-2 (rejected) and for some values that are accepted without meaning (theorems)')
c('C75','proved',V('prlpSetupExit_spec prlpSetupExit_fail'),'')
c('C76','partial',V('prlp_limit_given_partial prlp_unlimited_is_limited prlp_limit_sticks'),'the value -1 does not mean what is documented (proved for all durations)')
c('C77','partial',V('rounds_merged reported_totals generate_ledger roundRecord_ok unfilled_round_undefined'),'full for rounds whose record was filled; a round of mode CUSTOM without a disjunction leaves an empty record and the merge is then undefined behaviour (proved)')
c('C78','partial',V('checkCutDensity_eq average_support_partial average_support_wrong average_support_nan support_extremes_wrong'),'the average is right if the collection holds exactly the new cuts; otherwise wrong, and minimum and maximum are never recorded (proved)')
c('C79','proved',V('active_counts active_by_objective activity_returns'),'')
c('C80','partial',V('disj_averages_partial disj_counts other_averages_wrong set_average_wrong'),'two of the ten averages, one disjunction per call; the other eight, and sets of disjunctions, are wrong (proved)')
c('C81','partial',V('violated_count valid_cuts_pass pass_means_valid check_done_partial combined_never_checked'),'the count is exact; the main program does not check anything if the option is combined with another one (proved)')
c('C82','proved',V('best_of_runs average_of_runs average_accumulates'),'for new records, which is how all callers use them; average_accumulates shows what happens otherwise')
c('C83','partial',V('runs_same_problem_partial single_run_unchanged more_columns_undefined wrong_columns_integer column_lost cuts_not_permuted repeated_runs_undefined'),'full for one run and for Gurobi/CPLEX; permuted runs are equivalent only for square problems with uniform integrality; otherwise undefined or a different problem, and cuts are not permuted (proved)')
c('C84','partial',V('seed_documented_partial seeds_distinct_partial large_seed_exits clock_seed_overflows clock_seed_exits'),'as long as seed times number of runs fits an int; otherwise the process ends or overflows (proved)')
c('C85','partial',V('bb_report mode_digits bb_nothing all_cuts_never_run no_solver_reported_as_zero gurobi_check_exits mode_100_without_vpcs'),'full for the runs made; the configuration with all cuts is never run by the main program, a missing solver is reported as zeros, checking cuts with Gurobi ends the process (proved)')
c('C86','proved',V('split_choice split_none_iff split_returns_partial'),'for every solver behaviour; termination without exit under the assumption that the solver decides every side')

c('C87','partial',V('recorded_change_iff changes_imply_box bb_terms_are_leaves small_change_not_recorded'),'holds up to the tolerance 1e-7 with which changed bounds are detected (a smaller change is not recorded: witness); for histories with keep-pruned off')
c('C88','proved',V('pbb_outcome pbb_exit_iff'),'')
c('C89','partial',V('first_direction doStrong_spec forced_branch_feasible choose_code infeasible_direction_chosen'),'the direction returned with an infeasible side is the infeasible one whenever the down branch is tried first (witness)')
c('C35','partial',V('rows_never_checked infeasible_incumbent_accepted incumbent_columns_partial bad_column_exits incumbent_objective checkCols_values'),'the loop over rows is never entered with a good column check, so rows are not checked at all (proved, and witness)')
c('C90','proved',V('pbb_disjunction_made_iff reason_of_preparation failed_setup_reported gmics_iff custom_round_exits try_reason_true'),'')
c('C91','partial',V('attribution_partial replaced_cut_wrong_disjunction reason_of_preparation'),'holds for added cuts; a replaced cut keeps the disjunction of the cut it replaces (witness)')
c('C92','partial',V('log_columns field_by_name names_unambiguous titles_over_blocks time_eq set_names prep_columns_partial prep_shifted prep_title_shifted prep_early_exit'),'full for runs that generate cuts (every line, every column); in the preprocessing log the last eight fields stand under wrong names, one title is one column off, and an instance with an integral LP solution gives a line of fourteen fields (proved)')
c('C93','partial',V('line_splits log_line_readable joinChars_eq commas_shift'),'for texts without comma; every comma in a file name or parameter adds a field (proved)')
c('C94','partial',V('gap_between gap_blank_iff gap_monotone gap_degenerate sv_num'),'full if the LP bound is below the optimal value; if they are equal, inf or -inf is printed (proved)')
c('C95','partial',V('counters_printed log_cut_counts objective_cut_hidden notes_hidden stats_printed density_overflow'),'totals and types are right for every history; numbers by objective are shown as zero if no objective was counted as tried although there are cuts (reachable witness), and more than 2^31-1 matrix positions overflow (proved)')
c('C96','partial',V('log_history_partial log_lines_partial log_readable_partial crash_glues_lines glued_line_shifted crash_loses_header header_of_first'),'if every run ends its line; a run that stops without a message glues the next line to its own, one that is killed after creating the file loses the header for good, and the header is that of the first mode used (proved)')
c('C97','proved',V('point_check_iff point_opposite_rejected ray_store_iff collectRay_iff collected_consistent'),'')
c('C28','proved',V('dset_reports dset_lookup disj_updateObj_fold setupAll_bounds collectInt_value doTerm_value'),'')
c('C70','partial',V('savedObj_agree_partial savedObj_opposite_sign savedObj_near_zero doTerm_checked rootObj_checked finishTerm_iff doTerm_value'),'opposite signs are always accepted (proved)')
c('C75','proved',V('prlpSetupExit_spec prlpSetupExit_fail prlpSetupExit_fail_iff'),'')
c('C98','proved',V('prep_equivalent prep_bound_valid cleanLoop_sol cleanLoop_passes cleanLoop_stops minimise_value'),'relative to the presolved instance: the presolver itself is external')
c('C99','partial',V('prep_reuse_iff prep_reuse_partial prep_without_presolver prep_reuse_wrong prep_counts_fixing_five_times'),'exact condition for copying proved; changes of objective, coefficients, row directions and integrality are not noticed and wrong results are copied, one fixing is counted once per pass (up to five times), and without a commercial presolver an empty instance is saved (proved)')
c('C100','proved',V('objectives_as_documented prlpSetup_wf'),'')
c('C101','proved',V('target_is_history genCut_never_bad'),'')
c('C102','proved',V('tried_only_below_limits tried_total_bounded'),'')
c('C103','partial',V('solutions_optimal cuts_from_attempts target_cuts_valid_partial target_cuts_near_partial'),'feasibility, optimality and origin in full for truthful solvers; validity of the cuts under the hypotheses of C03 (exact arithmetic)')
c('C104','proved',V('heuristic_budgets heuristic_order'),'')
c('C105','partial',V('post_gomory_one_cut'),'violated: with a solver that repeats its answer at most two objectives are tried and the second always fails, whatever k (proved)')
c('C106','partial',V('points_targeted no_points_undefined'),'which points are targeted is proved; the last point is left out of the first round, the first point is never targeted if the lower-bound heuristic is off, and without points an empty vector is read (proved)')
c('C107','partial',V('disj_lb_point_partial disj_lb_point_wrong'),'if no comparison of two points answers "strictly stronger"; otherwise the lowest point can be dropped altogether (witness)')
c('C03','partial',V('target_cuts_valid_partial vpc_end_to_end_partial split_vpc_valid_partial bb_vpc_valid_partial run_valid_partial term_cone_partial vpc_valid_partial corner_decomposition tableau_identity vpc_cleaned_valid_partial dropped_term_cuts_off intSol_valid_partial nbDot_scPairs doTerm_infeasible keepPruned_infeasible term_cone_near_partial represented_row vpc_near_partial vpc_error_bound_partial run_near_partial target_cuts_near_partial'),'end to end: from the disjunction (split or partial tree) through term LPs, vertex/ray collection, point-ray LP, the loop over objectives and conversion to the structural cut, for every point of every term; hypotheses: truthful LP answers, exact arithmetic in the *_valid theorems, and in the *_near theorems an explicit bound on the violation when coordinates, coefficients or rows are dropped by tolerances; no ranged rows or free nonbasic variables; complete concrete runs (Tri.runOk, Tri.tRun_log) meet them. A term not solved to optimality is dropped and the cut can then be invalid (witness); pruned terms kept by branch and bound are never collected (proved)')
c('C77','partial',V('rounds_merged reported_totals generate_ledger roundRecord_ok unfilled_round_undefined gmic_update gmic_update_returns update_accumulates merge_of_nothing'),'full for rounds whose record was filled; a round of mode CUSTOM without a disjunction leaves an empty record and the merge is then undefined behaviour (proved)')
c('C79','proved',V('active_counts active_by_objective activity_returns active_by_objective_added'),'')
c('C85','partial',V('bb_report mode_digits bb_nothing all_cuts_never_run no_solver_reported_as_zero gurobi_check_exits mode_100_without_vpcs solver_run no_cuts_no_exit known_solution_no_exit'),'full for the runs made; the configuration with all cuts is never run by the main program, a missing solver is reported as zeros, checking cuts with Gurobi ends the process (proved)')
c('C93','partial',V('line_splits log_line_readable joinChars_eq commas_shift sv_spec svI_spec nan_printed_as_inf'),'for texts without comma; every comma in a file name or parameter adds a field (proved)')
c('C108','partial',V('candidate_list candidate_list_infeasible numStrong_spec nonpositive_values_ignored reverse_methods_nonpos reverse_method_misses'),'full for values that are positive (methods 0 to 5 with positive estimates); method 6 and the reversed (negative) methods give no positive value and then the first unsatisfied variable is the only candidate, whatever the values (proved)')
c('C109','partial',V('method7_choice method7_inside method7_interior_unchanged method7_returns_partial method7_not_fractional method7_deep_aborts method7_fixed_aborts'),'which variable is chosen and that the value is strictly inside is proved; it need not be fractional, and the program aborts when the depth reaches the number of variables or the remaining ones are fixed (proved)')
c('C110','partial',V('options_read no_options right_number_goes_on terms_of_round terms_unchanged set_mode_disjunctions small_option_stops error_never_reported wrong_number documented_separators set_mode_small_option'),'reading and use of the numbers is proved; a wrong number of options is never reported as an error (and the log file is then used after it was closed), an option below 2 in set mode is undefined behaviour, the documented separators do not work (proved)')
c('C111','partial',V('reported_bounds bounds_monotone applyAll_ok gmic_bound_without_gmics no_rounds_infinite limit_loses_cuts'),'full for solvers that hit no limit and stay optimal when solved again; an LP left at a limit loses the later cuts, without Gomory cuts their bound is reported as infinite, and so are all bounds without rounds (proved)')
c('C112','partial',V('gurobi_cuts_partial given_same_points ge_same le_reversed csr_round_trip cplex_cuts cbc_no_cut_seen gmic_other_side gurobi_cuts_lost gurobi_second_run_no_cuts gurobi_lazy_twice cbc_own_cut_ends'),'CPLEX gets exactly the cuts; Gurobi if the relaxation of the first pass is solved to optimality; a cut stored as <= is handed over as >=, cuts are lost in Gurobi otherwise or in a second run, lazy cuts are given twice, Cbc ends as soon as it has any cut of its own (proved)')
c('C113','partial',V('gurobi_passes gurobi_first_bound gurobi_last_bound gurobi_one_pass gurobi_sol_time gurobi_root_time gurobi_root_iters cplex_passes cplex_first_bound cplex_last_bound cbc_report_partial root_bound_is_incumbent cplex_root_closed cplex_zero_solution_time cbc_uninitialised'),'the statistics of Gurobi and CPLEX when there are passes are proved from the events; if the root is closed without a pass the incumbent value is reported as the bound, CPLEX misses a first solution of value 0, Cbc reads an uninitialised number (proved)')
c('C114','partial',V('hasExt_iff wantsStrong_pos gurobi_options cplex_options cbc_options options_that_matter options_that_matter_cbc gmics_off_ignored cbc_ignores negative_options user_cuts_not_announced strong_on_absolute_value strong_undefined'),'for positive strategies and the options that do something; five documented options do nothing, Cbc ignores two more, negative strategies ignore all of them although they choose the solver, strong branching is tested on the absolute value (proved)')
c('C115','partial',V('grbLast_spec gurobi_result gurobi_result_exit gurobi_user_result gurobi_time_lost cpxLast_spec cplex_result cplex_result_exit cplex_no_solution_zero cplex_no_solution_ends cplex_time_first cbc_result'),'when a run returns and what it returns is characterised; with CPLEX an objective of 0 is reported at a limit without a solution, asking for a solution then ends the process, and only one of two runs is timed (proved)')

c('C98','proved',V('prep_equivalent prep_bound_valid cleanLoop_sol cleanLoop_passes cleanLoop_stops minimise_value prep_reads'),'relative to the presolved instance: the presolver itself is external')
c('C99','partial',V('prep_reuse_iff prep_reuse_partial prep_without_presolver prep_reuse_wrong prep_counts_fixing_five_times prep_range_unnoticed'),'exact condition for copying proved; changes of objective, coefficients, row directions, lower sides of ranges and integrality are not noticed and wrong results are copied, one fixing is counted once per pass (up to five times), and without a commercial presolver an empty instance is saved (proved)')
c('C100','proved',V('objectives_as_documented prlpSetup_wf equation_only_when_tight'),'')
c('C104','proved',V('heuristic_budgets heuristic_order ceilSqrt_spec ray_and_unit_budgets'),'')
c('C106','partial',V('points_targeted no_points_undefined target_defined tight_counters candidates_spec second_round_points failed_ray_marked marked_rays_skipped reset_forgets'),'which points are targeted is proved; the last point is left out of the first round, the first point is never targeted if the lower-bound heuristic is off, and without points an empty vector is read (proved); with a point nothing undefined happens (proved)')
c('C116','partial',V('tree_name_reads_partial tree_name_wrong cgsTerm_spec cgsIneq_new cgsIneq_more splitName_spec readName_groups treeName_count numText_int numText_below numText_big cgsIneqs_empty numText_frac sumText_parts'),'read back exactly for splits and for trees of depth one; for every tree with a deeper term the name cannot be read as its terms, numbers just below an integer are written one too small, large ones are undefined (proved)')
c('C117','partial',V('tree_settings_partial compare_five branch_three branch_big strong_small strategy_min'),'for all documented digits except ones digit 5 (gives the default) and tens digit 3 (switches the choice method off); numbers below -2 and INT_MIN are accepted without meaning (proved)')
c('C118','partial',V('better_after_solution better_before_solution_partial better_before_even better_before_tie_wrong better_before_tie'),'after a solution in full; before a solution the number of infeasibilities is minimal, but ties are decided by comparing the wrong change (witness)')
c('C45','partial',V('split_prepare_accumulates split_reset_prepare_partial split_reset_keeps_variable tree_prepare_replaces_partial tree_prepare_stale tree_prepare_stale_reason tree_prepare_keeps_terms tree_needs_two'),'fails for splits: terms of both preparations are kept (proved for every pair of successful preparations); for trees the earlier terms are replaced exactly if the search saves its tree, otherwise they stay and change the reported reason (proved)')
c('C110','partial',V('options_read no_options right_number_goes_on terms_of_round terms_unchanged set_mode_disjunctions small_option_stops error_never_reported wrong_number documented_separators set_mode_small_option stoi_range options_are_ints'),'reading and use of the numbers is proved; a wrong number of options is never reported as an error (and the log file is then used after it was closed), an option below 2 in set mode is undefined behaviour, the documented separators do not work (proved)')
c('C111','partial',V('reported_bounds bounds_monotone applyAll_ok gmic_bound_without_gmics no_rounds_infinite limit_loses_cuts other_gomory_no_cuts round_after'),'full for solvers that hit no limit and stay optimal when solved again; an LP left at a limit loses the later cuts, without Gomory cuts their bound is reported as infinite, and so are all bounds without rounds (proved)')
c('C112','partial',V('gurobi_cuts_partial given_same_points ge_same le_reversed csr_round_trip cplex_cuts cbc_no_cut_seen gmic_other_side gurobi_cuts_lost gurobi_second_run_no_cuts gurobi_lazy_twice cbc_own_cut_ends range_reversed user_cuts_bit'),'CPLEX gets exactly the cuts; Gurobi if the relaxation of the first pass is solved to optimality; a cut stored as <= is handed over as >=, cuts are lost in Gurobi otherwise or in a second run, lazy cuts are given twice, Cbc ends as soon as it has any cut of its own (proved)')
c('C113','partial',V('gurobi_passes gurobi_first_bound gurobi_last_bound gurobi_one_pass gurobi_sol_time gurobi_root_time gurobi_root_iters cplex_passes cplex_first_bound cplex_last_bound cbc_report_partial root_bound_is_incumbent cplex_root_closed cplex_zero_solution_time cbc_uninitialised gurobi_no_pass cplex_rerun_first_bound'),'the statistics of Gurobi and CPLEX when there are passes are proved from the events; if the root is closed without a pass the incumbent value is reported as the bound, CPLEX misses a first solution of value 0, Cbc reads an uninitialised number (proved)')

c('C119','partial',V('known_from_parameter known_from_file known_in_file missing_record search_only_alone combined_option_ignored solution_call start_file_used solutionValue_eq given_optimum_used optimum_source solution_optimum_partial solution_offset_wrong solution_offset_witness parameter_agrees'),'sources and their order are proved for every run; the value of the solution found omits the constant of the objective (proved wrong for every such run), and the option is only seen if it is given alone (proved)')
c('C120','partial',V('run_integral integral_optimum_partial integral_bound integral_optimum_wrong run_code run_preprocess run_cuts mode_numbers'),'phases proved; an LP solution that is integral only within the tolerance is reported as the optimum (witness), and the return code of a regular end is always 0 (proved)')
c('C121','partial',V('round_name_injective round_name_no_log round_place round_place_wrong round_table round_density_value round_lines round_written round_density_wrong round_density_constant round_no_gomory round_times_sum round_times_le'),'names, lines, columns and sums of times are proved; without a log file the name ignores the instance, without an extension the table goes to the root directory, smallest and largest density are never recorded, without Gomory cuts their bound is infinite (proved)')
c('C122','partial',V('generator_times init_time_multiplied'),'sums over the rounds are proved; the time of the one initial solve is added once per round (proved)')
c('C123','partial',V('iface_same_solutions_partial apply_clear_empties load_keeps_old load_applies_old_cuts apply_repeated generate_needs_optimal generate_disj stale_disjunction apply_defined'),'for all histories that load a problem into an object with an empty collection; otherwise the cuts and the disjunction of the previous problem stay and the cuts are applied to the new problem (witnesses)')
c('C124','partial',V('read_by_extension_partial bad_file_used capital_extension missing_or_unparsed'),'the choice of the reader is proved; a positive status (errors found) is accepted and upper-case extensions are handed to the MPS reader (witnesses)')
c('C125','partial',V('cpx_columns cpx_rval cpx_equivalent_partial cpx_empty_matrix cpx_lp_types cpx_variables_changed cpx_ranged_row'),'columns exact for all problems; the same problem for mixed-integer programs with a nonzero, plain rows, bounds below 1e20 and binaries with bounds 0 and 1; outside of these it fails (witnesses)')
a('C118',V('better_before_any_int better_before_int_max'))
a('C89',V('choose_first_down'))
a('C30',V('infeasible_side_estimate'))
a('C70',V('rootObj_unchecked'))
c('C87','proved',V('recorded_change_iff changes_imply_box bb_terms_are_leaves bb_keep_terms_are_leaves small_change_not_recorded'),'both modes (keep pruned nodes on and off); the tolerance 1e-7 is part of the statement')
a('C125',V('cpx_objective_constant'))
a('C84',V('runSeed_undef_iff'))
a('C90',V('early_reason'))
c('C126','partial',V('objects_are_values no_basis_leak all_freed_partial assigned_set_leaks reset_set_leaks copied_round_undefined assigned_round_kept'),'the code violates the property for the number of the round (indeterminate in copies) and loses members of overwritten sets (witnesses); everything else is proved for all programs')
a('C06',V('clean_lower_from_lp clean_upper_from_lp'))
c('C127','partial',V('cosine_range cosine_symm cosine_scale cosine_eq_one_iff cosine_eq_neg_one_iff cosine_eq_zero_iff parallelism_packed_partial parallelism_packed_dense parallelism_dense parallelism_undefined_iff parallelism_unsorted orthoLess_iff orthoBelow_iff tooParallel_iff_partial added_cut_angle howDupAngleLoop_generic stationary_iff_partial stationary_same stationary_wrong'),'exact for sorted packed vectors and for arrays; unsorted packed vectors give wrong values, and the stationarity test is wrong at the origin and for different points in one direction (witnesses)')
c('C128','partial',V('handlers_are_values_partial handlers_undefined handlers_own_solvers handlers_leak_exactly handlers_all_freed_iff tree_handler copy_without_solver handlers_leak foreign_solver getMaxTime_partial getMaxTime_wrong event_stops event_end default_handler_stops event_other event_bad_status'),'exact for all histories: undefined exactly if a source without solver is copied or names are misused, leaked exactly the overwritten solvers; getters return truncated integers (witnesses)')
a('C11',V('one_sided_record'))
a('C127',V('minPar_number'))
c('C129','partial',V('setup_live_partial genDepth1_live collectPoint_live collectRay_live collectInt_live collectInt_exits_iff collectPoint_tiny_exits Tri.incumbent_outside_exits Tri.ranged_row_exits'),'exact arithmetic and exact LP answers; the excluded cases (incumbent outside the relaxation, ranged rows, very many columns) end the process in the code, with exact condition or witnesses')

c('C130','partial',V('prlpResolve_total prlpResolve_plain prlpResolve_retried prlpCode_spec prlpCode_never_primal prlpResolve_runs prlpResolve_time prlp_time_exceeded prlp_nan_accepted prlp_inf_accepted lpParameters_spec lpParameters_silent setupCbc_spec setupCbc_twice'),'the time limit is not kept (up to 12 times, attained), NaN and minus infinity are accepted after the retry, preparing a solver twice switches the option off: shown by witnesses; solver is any state machine, its runs keep to their deadline by hypothesis')

a('C126',V('isTree_iff assign_class_mismatch'))
a('C112',V('osiRow_rhs_cases'))

c('C131','proved',V('dotDense_kahan_error dotSparseDense_kahan_error dotSparse_kahan_error fl_relRnd dotDense_double_error dotDense_kahan_relative dotSparseDense_double_int fl_int dot_plain_worse dot_forms_differ'),'for every rounding function of relative error u (no overflow or underflow); fl 53 is shown to be one')
a('C83',V('rows_permuted'))
a('C116',V('factorText_empty_iff'))
a('C105',V('gomoryLoop_next'))
c('C132','partial',V('tmp_run tmp_run_killed tmp_run_no_zlib tmp_runs_leak tmp_runs_limit tmpCopyModel_named tmpCopyModel_short presolved_name tmp_concurrent tmp_concurrent_left tmp_files_left tmp_overwrites tmp_no_zlib_wrong tmp_fds_exhausted'),'Proved for all disks, names and schedules: the problem solved is the one written, also with any number of processes interleaved (tmp_concurrent), the copy is removed and no other file changes (tmp_run, tmp_concurrent_left). The full statement is false of the code: each run leaves one empty file and one open descriptor (tmp_runs_leak, tmp_files_left), so the process ends when descriptors run out (tmp_runs_limit, tmp_fds_exhausted); a file of the name of the copy is overwritten (tmp_overwrites); without zlib the wrong file is read (tmp_no_zlib_wrong).')
c('C133','partial',V('idx_strictWeak_iff sort_values_unique sort_ties_open rayInfo_not_strictWeak rayInfo_strictWeak_partial rayInfo_lost names_strictWeak'),'Exact condition for the comparisons by array entries (idx_strictWeak_iff): they are strict weak orders unless NaN occurs together with different entries, which nothing in the code excludes. The order of rays violates the laws (rayInfo_not_strictWeak) and an ordered set with it loses rays (rayInfo_lost).')
a('C132',V('tmpCopyModel_tmp tmpCopyOsi_named'))
a('C38',V('packRay_scale scaleExp_centres'))
a('C51',V('parseLong_accepts_iff'))
c('C134','partial',V('program_value_eq run_value_partial run_value_negated best_run_partial best_run_is_worst best_run_full_fails stopsAtBound_iff stop_proves_partial stop_too_early stop_never stop_too_early_ex last_solution_partial last_solution_first gap_program_sense gap_file_sense'),'Holds for every minimization instance, and for Cbc. False for maximization instances with Gurobi or CPLEX: values are negated (run_value_negated), the best of several runs is the worst (best_run_is_worst), the known value stops Gurobi too early or never (stop_too_early, stop_never), only the first solution counts as improving (last_solution_first). How Gurobi treats BestBdStop is an assumption on the external solver.')
c('C135','proved',V('strong_leaves_problem strong_counts strong_refines strong_all fixing_keeps fixing_excludes fixing_only strong_copies strong_copies_fail restoreAll_live'),'for branching information that refers to the solver\'s own arrays, as OsiBranchingInformation does (external); with copies nothing would be restored (strong_copies, strong_copies_fail). External: which bounds a branch sets, the LP outcomes, OsiSimpleInteger::createBranch')
a('C133',V('setInsert_spec'))
a('C135',V('strong_time'))
a('C11',V('exitGenCut_exit_iff'))
c('C136','partial',V('plot_tree plot_step pStep_defined tikz_edges tikz_tree_partial tikz_finished_partial tikz_clash tikz_clash_witness tikz_labels tikz_marks'),'The plot string is the tree for every history (plot_tree, plot_step). The tikz tables are built without undefined behaviour or failed assertion (tikz_edges) and are the tree if strong branching found no solution (tikz_tree_partial) or if no node is open (tikz_finished_partial). False otherwise: whenever a solution was found by strong branching and a node is open, two edges go into node numNodes (tikz_clash). The drawing itself is C154.')
c('C137','proved',V('chooser_values chooser_no_leak cstep_refines'),'for every program; base class OsiChooseVariable and pseudocosts are plain values (external copies)')
c('C138','partial',V('prlp_copy_partial prlp_copy_loses prlp_copy_inconsistent'),'Counters, indices and pointers are copied (prlp_copy_partial). The LP is not: the base class is neither copied nor assigned, so a clone has an empty LP (prlp_copy_loses) with counts of points and rays that do not fit it (prlp_copy_inconsistent).')
a('C102',V('units_abandon rays_abandon points_abandon points2_abandon rays2_abandon late_abandon points_phase_abandon'))
c('C139','partial',V('gen_copies_freed_partial gen_copies_count gen_leaves_solvers gen_changes_solver main_copies_freed_partial main_leaves_solvers main_leaves_count bb_copies_freed cbcFile_copies_freed cleaning_copies_freed termSolver_runs gomoryRounds_leaks gen_runs main_runs tree_runs saveStats_runs save_runs bb_mixed_undef'),'No undefined behaviour on any path; everything freed and unchanged for minimization problems without kept pruned nodes. With PARTIAL_BB_KEEP_PRUNED_NODES one solver per open node is never deleted (gen_leaves_solvers, exact number gen_copies_count, main_leaves_count); the const solver given is changed for a maximization problem (gen_changes_solver). Branch-and-bound tests and cleaning: proved outright.')
c('C140','partial',V('cond1_correct_partial cond1_excess cond1_ge cond1_wrong basisArray_spec cond2_correct_partial cond2_undef cond2_empty cond_other'),'Norm 1 is the product of the norms if a slack is basic or the norm of the basis is at least 1 (cond1_correct_partial), otherwise too large (cond1_excess, witness cond1_wrong). Norm 2 gives LAPACK exactly the basis matrix (basisArray_spec) and divides its extreme singular values; undefined for m = 0 or m >= 46341 (cond2_empty, cond2_undef).')
a('C139',V('cond1_leaks'))
a('C51',V('setByName_flag'))
a('C99',V('presolveDiff_other'))
c('C141','partial',V('start_file_solvers start_cbc_solver start_cbc_solver_outer start_cbc_file_ignored start_cbc_file_partial start_unreadable cbc_wrong_problem gurobi_le_cut_wrong'),'Proved for Gurobi and CPLEX in both forms and for Cbc with a solver object; the Cbc versions with a file name search FILENAME whatever name is given (negation), proved only for that name; cuts bounded from above are reversed for Gurobi and CPLEX (negation)')
c('C142','partial',V('status_right status_free_partial superbasic_differs fixed_clp fixed_never_found other_solver_undefined stat_no_rows_undefined slack_side'),'Basic, ray, upper and lower are proved for every solver the program can ask; free without superbasic variables; negations: superbasic variables, fixed variables without Clp, other solvers in a program built with Clp, problems without rows')
c('C143','partial',V('prep_saved prep_copy_removed prep_tested_partial prep_tests_memory prep_both presolveAll_ok prep_tests_fail prep_tests_old prep_tests_fail_now prep_tests_old_now prep_cplex_leaves'),"Saving, restoring the user's files and removal of the copy are proved in full. That the tests solve the cleaned instance is violated: they read X_cleaned.mps although X_cleaned.mps.gz was written (prep_tests_old: an old file is tested; prep_tests_fail: the process ends); with CPLEX alone two temporary files stay (prep_cplex_leaves).")
a('C05',V('nodeStat_child'))
a('C105',V('resetSolver_solve'))
a('C143',V('prep_result presolveAll_holds'))

c('C144','partial',V('gen_timers_partial split_without_variable_aborts terms_limit_never main_timers_partial integral_total_zero preprocess_total_short alternating_run'),'Proved for all worlds, clocks and numbers of calls and rounds except a split disjunction with no variable to choose, which leaves GEN_DISJ_TIME running and makes the next preparation abort (split_without_variable_aborts). Violated for the program when the LP solution is integral (total written is 0) and after preprocessing or a wrong option (part is missing), and for the limit in the loop over terms (never fires).')
a('C18',V('getS_setS'))
a('C77',V('copyTypes_ok_iff'))

c('C145','partial',V('rounds_keep_solutions rounds_bounds_valid rounds_keep_optimum bound_at_limit_invalid gmic_bound_not_below applyAll_rows boundRound_admits boundRound_grows'),'No solution lost, optimum unchanged: proved for every solver. Bounds and no early end: proved for a solver that solves every LP with a feasible point. Missing because false: a bound reported when the LP is stopped by the time limit need not be one (bound_at_limit_invalid), and without Gomory cuts their bound is infinite (gmic_bound_not_below).')
a('C145',V('rounds_of_vpcs_valid_partial'))
a('C03',V('rounds_of_vpcs_valid_partial'))

c('C146','partial',V('time_limit_stops_partial time_limit_gomory_ignores'),'Proved for all LPs, solvers, clocks and sorts, for all heuristics but one: the loop of post-Gomory iterations tests the cut and failure limits only (src/cut/PRLP.cpp:1778-1781), so it goes on after the time limit; time_limit_gomory_ignores proves the unrestricted statement false.')
a('C21',V('updateStats_none_iff'))
a('C56',V('resolveLoop_once'))
a('C108',V('sideEstimate_few'))
a('C63',V('customRound_objs'))

c('C147','proved',V('no_solution_no_cut infeasible_reason_no_cut flipped_solvable no_solution_derives'),'Exact arithmetic. Hypotheses on the collection: right-hand sides are 0 or not negligible, no ray consists of one negligible entry, indices are columns.')
c('C148','proved',V('optimal_strongest optimal_strongest_at'),'Exact arithmetic, truthful LP answers for the run; ray entries that stand alone at least EPS. The bilinear heuristic is covered by optimal_strongest only (its objective comes from outside)')

c('C149','proved',V('not_cut_off_meets meets_not_cut_off rows_meet valid_on_closed'),'Exact arithmetic, hypotheses on the collection as for C147.')

c('C150','proved',V('objective_cut_valid bound_moved_gives_cut no_solution_bound_not_moved genDepth1_costs better_terms_give_cut'),'Exact arithmetic; no nonzero entry below the packing tolerances (NoTiny).')

c('C151','partial',V('feas_valid valid_feas smaller_hull_stronger same_hull_same_cuts order_irrelevant fewer_terms_stronger int_point_irrelevant cone_mono redundant_term'),'Exact arithmetic: no comparison of two rows answers within tolerance what is not true (Exact). Missing because false: with tolerances two rows can eliminate each other (C10, dedup_drops_both), then the LP has solutions that are not valid inequalities.')

c('C152','partial',V('repair_idle repair_exact repaired_history repaired_covers_partial missed_without_entry save_before_repair unknown_object_exits choose_not_repaired stale_bounds_lose'),'Proved for all histories if the solver still has the bounds of the node at the event and the branching object knows its object. Violated otherwise: the disjunction is saved before the repair, so no disjunction is ever saved if the limit is reached at that event (save_before_repair, undefined reads); with other bounds in the solver points are lost (stale_bounds_lose); an unknown object ends the process (unknown_object_exits); with a choose method nothing is repaired (choose_not_repaired).')

c('C153','partial',V('reported_point bound_le_disjunction_partial disjunction_bound_reached_partial disjunction_bound_exact_partial gap_le_disjunction late_bound_exceeds'),'Exact arithmetic (Exact, NoTiny, NoTinyCut), truthful LP answers, no time limit during the collection. Missing because false: a term whose LP is solved when the time is up reports its value but is not collected (src/cut/CglVPC.cpp:1198-1222), and the cuts then move the bound beyond the value reported (late_bound_exceeds).')
a('C153',V('program_bound_le_disjunction_partial'))
c('C154','partial',V('drawing_closed drawing_open_partial drawing_open_twice draw_tree dangle_spec'),'Searches that ended: in full, also if Cbc dropped nodes without an event. With open nodes: if strong branching found no solution; otherwise an open node and the solution get the same number and both are drawn (drawing_open_twice).')

a('C148',V('point_cuts_strongest more_cuts_strongest ray_cuts_strongest unit_cuts_strongest'))
a('C30',V('bestBranch_written'))
c('C155','proved',V('optimal_touches optimal_rhs_largest extreme_touches run_touches cut_touches untouched_optimal'),'Under the exactness hypotheses of C03 (Exact; for the original variables no coordinate or coefficient small enough to be dropped). untouched_optimal shows that the exception occurs.')
c('C156','partial',V('violation_after_cleaning violation_is_beta collected_violation cuts_off_partial violation_le_beta run_cuts_off_partial collected_but_not_violated'),'Proved: the exact violation of every cut, and that the LP optimum is cut off if the bounds are near enough for EPS_COEFF. Not true in general: collected_but_not_violated is a vertex solution of a point-ray LP whose cut, once cleaned, is satisfied by all points of the LP and is collected, as genCutHelper asks cleanCut to check the violation only outside the nonbasic space. Coefficients too small to be stored are accounted for (the _any theorems). Missing: arithmetic errors.')
a('C156',V('violation_any collected_violation_any cuts_off_any_partial violation_le_any run_cuts_off_any_partial'))
c('C157','partial',V('derived_slack_error cleaned_violation_error float_cut_valid float_cut_violation float_exact rounding_cuts_off'),'Proved: explicit bounds on all rounding errors between a solution of the point-ray LP and the cut handed out, for every rounding with relative error u per operation and all data. Missing because false: validity without error (rounding_cuts_off). Overflow and underflow are not modelled.')
a('C65',V('disjunctions_used'))
a('C157',V('run_float_partial'))
a('C03',V('run_float_partial'))
a('C157',V('run_float_tol_partial'))
a('C03',V('run_near_tol_partial run_float_tol_partial'))
