{
 "claims": [
  {
   "property": "C01",
   "status": "proved",
   "theorems": [
    "VPC.setCut_slack_eq",
    "VPC.setCut_exact",
    "VPC.setCut_error_bound",
    "VPC.setCut_order_matters",
    "VPC.compCoor_eq_nbCoord",
    "VPC.compCoor_ranged_wrong"
   ],
   "note": "exact equivalence of the nonbasic-space and structural-space cut, with an error bound for dropped tiny coefficients; ranged rows shown wrong by a witness"
  },
  {
   "property": "C02",
   "status": "proved",
   "theorems": [
    "VPC.hull_valid_iff",
    "VPC.setup_complete",
    "VPC.setup_sound_partial"
   ],
   "note": ""
  },
  {
   "property": "C03",
   "status": "partial",
   "theorems": [
    "VPC.target_cuts_valid_partial",
    "VPC.vpc_end_to_end_partial",
    "VPC.split_vpc_valid_partial",
    "VPC.bb_vpc_valid_partial",
    "VPC.run_valid_partial",
    "VPC.term_cone_partial",
    "VPC.vpc_valid_partial",
    "VPC.corner_decomposition",
    "VPC.tableau_identity",
    "VPC.vpc_cleaned_valid_partial",
    "VPC.dropped_term_cuts_off",
    "VPC.intSol_valid_partial",
    "VPC.nbDot_scPairs",
    "VPC.doTerm_infeasible",
    "VPC.keepPruned_infeasible",
    "VPC.term_cone_near_partial",
    "VPC.represented_row",
    "VPC.vpc_near_partial",
    "VPC.vpc_error_bound_partial",
    "VPC.run_near_partial",
    "VPC.target_cuts_near_partial",
    "VPC.rounds_of_vpcs_valid_partial",
    "VPC.run_float_partial",
    "VPC.run_near_tol_partial",
    "VPC.run_float_tol_partial"
   ],
   "note": "end to end: from the disjunction (split or partial tree) through term LPs, vertex/ray collection, point-ray LP, the loop over objectives and conversion to the structural cut, for every point of every term; hypotheses: truthful LP answers, exact arithmetic in the *_valid theorems, and in the *_near theorems an explicit bound on the violation when coordinates, coefficients or rows are dropped by tolerances; no ranged rows or free nonbasic variables; complete concrete runs (Tri.runOk, Tri.tRun_log) meet them. A term not solved to optimality is dropped and the cut can then be invalid (witness); pruned terms kept by branch and bound are never collected (proved)"
  },
  {
   "property": "C04",
   "status": "proved",
   "theorems": [
    "VPC.split_covers",
    "VPC.split_two_terms",
    "VPC.split_all_one_sided"
   ],
   "note": "LP outcomes are parameters; sides reported infeasible must really be infeasible"
  },
  {
   "property": "C05",
   "status": "partial",
   "theorems": [
    "VPC.bb_covers_partial",
    "VPC.bb_keep_covers",
    "VPC.bb_unsolved_child_dropped",
    "VPC.bb_step_succeeds",
    "VPC.nodeStat_child"
   ],
   "note": "for every history of a solver that only discards truly infeasible / pruned nodes; when pruned terms are kept the cover is unconditional; without it a child whose LP is not proven optimal (e.g. iteration limit) is dropped and the disjunction misses points (witness)"
  },
  {
   "property": "C06",
   "status": "partial",
   "theorems": [
    "VPC.clean_preserves_partial",
    "VPC.clean_only_tightens",
    "VPC.clean_report",
    "VPC.clean_exit_infeasible",
    "VPC.clean_max_loses_points",
    "VPC.clean_undoes_fixing",
    "VPC.clean_lower_from_lp",
    "VPC.clean_upper_from_lp"
   ],
   "note": "full for minimization problems; for maximization problems the sense is copied to the auxiliary solver and points are lost (witness)"
  },
  {
   "property": "C07",
   "status": "partial",
   "theorems": [
    "VPC.removeSmall_valid_up_to_eps",
    "VPC.removeSmall_valid_partial",
    "VPC.removeSmall_can_cut_off",
    "VPC.removeSmall_retained_iff",
    "VPC.removeSmall_rhs"
   ],
   "note": "the cut returned can cut off a feasible point of the original cut by up to EPS*|coeff| (witness removeSmall_can_cut_off)"
  },
  {
   "property": "C08",
   "status": "proved",
   "theorems": [
    "VPC.cleanCut_accepts_only_good",
    "VPC.cleanCut_first_failure"
   ],
   "note": ""
  },
  {
   "property": "C09",
   "status": "partial",
   "theorems": [
    "VPC.isRowDifferent_range",
    "VPC.isRowDifferent_minus_one",
    "VPC.isRowDifferent_one",
    "VPC.isRowDifferent_zero_partial",
    "VPC.isRowDifferent_zero_wrong",
    "VPC.isRowDifferent_parallel",
    "VPC.howDuplicate_first"
   ],
   "note": "result 0 does not imply equality when rhs have opposite sign and equal modulus"
  },
  {
   "property": "C10",
   "status": "partial",
   "theorems": [
    "VPC.dedup_partial",
    "VPC.dedup_rays",
    "VPC.dedup_rays_error",
    "VPC.dedup_drops_both",
    "VPC.setup_sound_partial"
   ],
   "note": "two points with opposite-signed right-hand sides can eliminate each other (witness dedup_drops_both)"
  },
  {
   "property": "C11",
   "status": "partial",
   "theorems": [
    "VPC.counters_exact",
    "VPC.tried_eq_cuts_plus_failures",
    "VPC.run_never_aborts",
    "VPC.per_objective_counts_wrong",
    "VPC.repeated_use_counts_wrong",
    "VPC.one_sided_record",
    "VPC.exitGenCut_exit_iff"
   ],
   "note": "per-objective counters double count replaced cuts; wrong records with repeated use (witnesses)"
  },
  {
   "property": "C12",
   "status": "partial",
   "theorems": [
    "VPC.cut_limit_total",
    "VPC.cut_limit_per_disjunction",
    "VPC.at_limit_adds_nothing",
    "VPC.repeated_use_exceeds_limit"
   ],
   "note": "the per-disjunction limit can be exceeded when a generator is used repeatedly (witness)"
  },
  {
   "property": "C13",
   "status": "proved",
   "theorems": [
    "VPC.failure_limit_complete",
    "VPC.successful_stopped_only_if_slow",
    "VPC.default_time_clause",
    "VPC.failure_constants",
    "VPC.all_failures_stop_at_20",
    "VPC.successful_runs_continue",
    "VPC.failure_limit_table",
    "VPC.failure_limit_monotone"
   ],
   "note": "thresholds are the exact binary64 values, divisions are exact instead of rounded"
  },
  {
   "property": "C14",
   "status": "proved",
   "theorems": [
    "VPC.matchStatus_one_to_one"
   ],
   "note": ""
  },
  {
   "property": "C15",
   "status": "partial",
   "theorems": [
    "VPC.tol_trichotomy",
    "VPC.tol_swap",
    "VPC.tol_less_trans",
    "VPC.tol_infinity_explicit",
    "VPC.tol_negInfinity_default_wrong",
    "VPC.tol_negInfinity_default_partial"
   ],
   "note": "default arguments of isNegInfinity are wrong"
  },
  {
   "property": "C16",
   "status": "partial",
   "theorems": [
    "VPC.timer_accounts",
    "VPC.timer_aborts_iff",
    "VPC.unknown_name_harmless",
    "VPC.unregistered_limit_never_fires",
    "VPC.registered_limit_exact",
    "VPC.reregister_loses_time"
   ],
   "note": "re-registering a name is not harmless (witness); clock is an input of the model"
  },
  {
   "property": "C17",
   "status": "partial",
   "theorems": [
    "VPC.int_set_documented",
    "VPC.int_set_accepts",
    "VPC.dbl_set_documented_partial",
    "VPC.dbl_set_accepts",
    "VPC.INF_accepts_anything",
    "VPC.INF_violates_C17",
    "VPC.params_always_documented_partial"
   ],
   "note": "fails for the parameter INF (witness); proved for every other parameter and every history"
  },
  {
   "property": "C18",
   "status": "partial",
   "theorems": [
    "VPC.setByName_effect",
    "VPC.setByName_violates_C18",
    "VPC.setByName_never_rejects",
    "VPC.setByName_partial",
    "VPC.readParams_only_cutlimit",
    "VPC.getS_setS"
   ],
   "note": "negation proved: setting by name always sets CUTLIMIT"
  },
  {
   "property": "C19",
   "status": "proved",
   "theorems": [
    "VPC.enableBB_spec",
    "VPC.disableBB_spec",
    "VPC.enable_disable_other_bits",
    "VPC.enable_disable_algebra",
    "VPC.bbValue_spec",
    "VPC.bbValue_duplicates",
    "VPC.tempOption_spec"
   ],
   "note": ""
  },
  {
   "property": "C20",
   "status": "partial",
   "theorems": [
    "VPC.switch_ok_partial",
    "VPC.cli_switch_partial",
    "VPC.cli_switch_rejects",
    "VPC.use_best_bound_stuck",
    "VPC.bb_heuristics_sets_presolve",
    "VPC.bb_presolve_sets_heuristics",
    "VPC.C20_violated"
   ],
   "note": "three switches do the wrong thing (witnesses)"
  },
  {
   "property": "C21",
   "status": "partial",
   "theorems": [
    "VPC.update_eq_batch_partial",
    "VPC.updates_eq_batch_partial",
    "VPC.computeStats_spec_partial",
    "VPC.computeStats_max_wrong",
    "VPC.update_from_empty_wrong",
    "VPC.negative_prev_size_wrong",
    "VPC.updateStats_none_iff"
   ],
   "note": "maximum of all-negative data wrong; start from empty statistics and negative previous size wrong (witnesses)"
  },
  {
   "property": "C22",
   "status": "partial",
   "theorems": [
    "VPC.parse_plain",
    "VPC.parse_archived",
    "VPC.parse_rejects_iff",
    "VPC.parse_sound",
    "VPC.parse_dot_in_directory"
   ],
   "note": "a name without extension in a directory with a dot is accepted (witness)"
  },
  {
   "property": "C23",
   "status": "proved",
   "theorems": [
    "VPC.toMinimization_equiv"
   ],
   "note": ""
  },
  {
   "property": "C24",
   "status": "partial",
   "theorems": [
    "VPC.addToObjective_spec",
    "VPC.addToObjective_cols_partial",
    "VPC.addToObjective_unsorted",
    "VPC.addToObjective_zero_mult",
    "VPC.addToObjective_null",
    "VPC.setConstantObjective_spec",
    "VPC.setConstantObjective_all",
    "VPC.add_then_zero",
    "VPC.setObjectiveStructural_undefined",
    "VPC.setObjectiveStructural_wrong",
    "VPC.setObjectiveStructural_uncompressed"
   ],
   "note": "the version with a column list needs sorted input (witness) and the structural-space version reads outside its array (witnesses)"
  },
  {
   "property": "C25",
   "status": "partial",
   "theorems": [
    "VPC.sparse_roundtrip",
    "VPC.dense_faithful_partial",
    "VPC.dense_truncates",
    "VPC.dense_truncation_changes_cut"
   ],
   "note": "dense conversion truncates coefficients to int (witness); proved for integer coefficients"
  },
  {
   "property": "C26",
   "status": "proved",
   "theorems": [
    "VPC.flipObj_involution",
    "VPC.flipObj_same"
   ],
   "note": ""
  },
  {
   "property": "C27",
   "status": "partial",
   "theorems": [
    "VPC.generators_safe_partial",
    "VPC.init_inv",
    "VPC.copy_owner_undefined",
    "VPC.copy_after_generate_undefined",
    "VPC.shared_prlp_double_free",
    "VPC.reset_own_disjunction_undefined",
    "VPC.borrowed_set_double_free",
    "VPC.second_generate_exits",
    "VPC.prlp_leak",
    "VPC.interfaces_safe_partial",
    "VPC.vinit_inv",
    "VPC.vsi_copy_undefined",
    "VPC.vsi_setDisjunction_undefined",
    "VPC.vsi_assign_null_disj_undefined",
    "VPC.set_disjunction_mode",
    "VPC.set_disjunction_set_mode"
   ],
   "note": "fails as stated: copying a generator that owns a disjunction, copying an interface object and VPCSolverInterface::setDisjunction are undefined (proved); memory safety proved for every program that keeps to a stated discipline"
  },
  {
   "property": "C28",
   "status": "proved",
   "theorems": [
    "VPC.dset_reports",
    "VPC.dset_lookup",
    "VPC.disj_updateObj_fold",
    "VPC.setupAll_bounds",
    "VPC.collectInt_value",
    "VPC.doTerm_value"
   ],
   "note": ""
  },
  {
   "property": "C29",
   "status": "partial",
   "theorems": [
    "VPC.termLP_rows_exact_partial",
    "VPC.termLP_bounds_contains",
    "VPC.termLP_bounds_exact_partial",
    "VPC.common_ineqs_ignored",
    "VPC.termLP_loosens",
    "VPC.applyChanges_undefined_iff"
   ],
   "note": "common inequalities are never added (proved); bounds are overwritten, so a looser change lets in points outside the relaxation (witness); exact otherwise"
  },
  {
   "property": "C30",
   "status": "partial",
   "theorems": [
    "VPC.selection_best",
    "VPC.criteria_meaning",
    "VPC.choose_best_partial",
    "VPC.bestBranch_argmax",
    "VPC.doStrong_zero",
    "VPC.doStrong_codes",
    "VPC.doStrong_minus_one",
    "VPC.all_trusted_ignores_scores",
    "VPC.forced_object_overrides",
    "VPC.stale_second_best",
    "VPC.infeasible_side_estimate",
    "VPC.bestBranch_written"
   ],
   "note": "the selection loop is exact; chooseVariable throws scores away if all candidates are trusted, if a side is infeasible and at the time limit (witnesses)"
  },
  {
   "property": "C31",
   "status": "proved",
   "theorems": [
    "VPC.strategy_decodes",
    "VPC.strategy_total"
   ],
   "note": ""
  },
  {
   "property": "C32",
   "status": "proved",
   "theorems": [
    "VPC.bfs_strict_weak",
    "VPC.bfs_shallow_first",
    "VPC.bfs_best_is_shallowest"
   ],
   "note": "for every consistent tie breaking (Cbc)"
  },
  {
   "property": "C33",
   "status": "proved",
   "theorems": [
    "VPC.rounds_totals",
    "VPC.rounds_stop",
    "VPC.rounds_stop_when_solved",
    "VPC.rounds_best"
   ],
   "note": "for every number of rounds and every per-round outcome, over the modelled main loop"
  },
  {
   "property": "C34",
   "status": "proved",
   "theorems": [
    "VPC.saved_terms_eq_leaves",
    "VPC.pbbFinish_no_exit",
    "VPC.failed_save_leaves_room"
   ],
   "note": ""
  },
  {
   "property": "C35",
   "status": "partial",
   "theorems": [
    "VPC.rows_never_checked",
    "VPC.infeasible_incumbent_accepted",
    "VPC.incumbent_columns_partial",
    "VPC.bad_column_exits",
    "VPC.incumbent_objective",
    "VPC.checkCols_values"
   ],
   "note": "the loop over rows is never entered with a good column check, so rows are not checked at all (proved, and witness)"
  },
  {
   "property": "C36",
   "status": "partial",
   "theorems": [
    "VPC.packedSum_exact_partial",
    "VPC.packedSum_error",
    "VPC.packedSum_sorted",
    "VPC.packedSum_one_zero",
    "VPC.packedSum_drops_large",
    "VPC.packedSum_stale"
   ],
   "note": "entries only in the second vector are tested before multiplying; two zero multipliers leave the output stale (witnesses)"
  },
  {
   "property": "C37",
   "status": "proved",
   "theorems": [
    "VPC.dotDense_exact",
    "VPC.dotDense_undefined_iff",
    "VPC.dotSparseDense_exact",
    "VPC.dotSparseDense_undefined_iff",
    "VPC.dotSparse_exact",
    "VPC.dot_forms_agree",
    "VPC.dotSparse_unsorted",
    "VPC.dotSparseDense_error"
   ],
   "note": "exact arithmetic; additionally an error bound for the uncompensated version under relative rounding error"
  },
  {
   "property": "C38",
   "status": "partial",
   "theorems": [
    "VPC.rayCoor_exact",
    "VPC.rayCoor_free_wrong",
    "VPC.packRay_spec",
    "VPC.packRay_scale",
    "VPC.scaleExp_centres"
   ],
   "note": "the ray of a free nonbasic variable is not handled (witness)"
  },
  {
   "property": "C39",
   "status": "proved",
   "theorems": [
    "VPC.generateSplits_spec",
    "VPC.splitPrepare_keeps_var"
   ],
   "note": "for every correct sort; when generation does not terminate the process"
  },
  {
   "property": "C40",
   "status": "partial",
   "theorems": [
    "VPC.index_tables",
    "VPC.index_tables_exit_iff",
    "VPC.index_tables_origOk",
    "VPC.orig_table_partial",
    "VPC.orig_table_not_as_documented",
    "VPC.no_rows_undefined"
   ],
   "note": "the tables of the problem itself are invertible for every basis; the second table (original variables) does not hold what its documentation says for variables still nonbasic (witness), and a problem without rows is undefined behaviour"
  },
  {
   "property": "C41",
   "status": "partial",
   "theorems": [
    "VPC.cutLimit_resolution",
    "VPC.cutLimit_sticks",
    "VPC.cutLimit_second_round_wrong"
   ],
   "note": "resolved limit overwrites the relative one; wrong in later rounds of the same generator (witness)"
  },
  {
   "property": "C42",
   "status": "partial",
   "theorems": [
    "VPC.objLookup_first_partial",
    "VPC.objLookup_no_name",
    "VPC.objLookup_unreadable_skipped",
    "VPC.objLookup_terminates",
    "VPC.objLookup_no_extension"
   ],
   "note": "a first matching line without readable value is skipped or terminates the process (witnesses)"
  },
  {
   "property": "C43",
   "status": "partial",
   "theorems": [
    "VPC.applyCuts_partial",
    "VPC.applyCuts_all_partial",
    "VPC.negative_count_undefined",
    "VPC.null_solver_undefined",
    "VPC.infeasible_exits",
    "VPC.getObjValue_spec",
    "VPC.vpcApplyCuts_mask",
    "VPC.vpcApplyCuts_all"
   ],
   "note": "process exits instead of reporting an infinite bound (witness); a start index without count reads out of range (proved)"
  },
  {
   "property": "C44",
   "status": "partial",
   "theorems": [
    "VPC.status_partition_partial",
    "VPC.bounds_exclusive",
    "VPC.superbasic_in_no_class",
    "VPC.bound_tests_true",
    "VPC.fixed_by_reduced_cost"
   ],
   "note": "superbasic variables are in no class (proved)"
  },
  {
   "property": "C45",
   "status": "partial",
   "theorems": [
    "VPC.split_prepare_accumulates",
    "VPC.split_reset_prepare_partial",
    "VPC.split_reset_keeps_variable",
    "VPC.tree_prepare_replaces_partial",
    "VPC.tree_prepare_stale",
    "VPC.tree_prepare_stale_reason",
    "VPC.tree_prepare_keeps_terms",
    "VPC.tree_needs_two"
   ],
   "note": "fails for splits: terms of both preparations are kept (proved for every pair of successful preparations); for trees the earlier terms are replaced exactly if the search saves its tree, otherwise they stay and change the reported reason (proved)"
  },
  {
   "property": "C46",
   "status": "partial",
   "theorems": [
    "VPC.packCoor_perm",
    "VPC.packCoor_spec",
    "VPC.packCoor_nodup",
    "VPC.packCoor_sorted_partial",
    "VPC.packCoor_unsorted"
   ],
   "note": "indices are not always increasing (witness)"
  },
  {
   "property": "C47",
   "status": "partial",
   "theorems": [
    "VPC.setup_aborts_on_feasible",
    "VPC.setup_aborts_only"
   ],
   "note": "abort on a satisfiable collection (witness)"
  },
  {
   "property": "C48",
   "status": "partial",
   "theorems": [
    "VPC.objectiveCut_sat_iff",
    "VPC.objectiveCut_valid_partial",
    "VPC.objectiveCut_cuts_off_optimum"
   ],
   "note": "coefficients within 1e-7 of EPS are dropped (witness of an invalid cut)"
  },
  {
   "property": "C49",
   "status": "partial",
   "theorems": [
    "VPC.user_objectives_dropped"
   ],
   "note": "negation proved: user objectives are never tried"
  },
  {
   "property": "C50",
   "status": "proved",
   "theorems": [
    "VPC.given_cuts_preserved"
   ],
   "note": ""
  },
  {
   "property": "C51",
   "status": "partial",
   "theorems": [
    "VPC.parseInt_decimal_partial",
    "VPC.parseInt_shape",
    "VPC.parseInt_value_partial",
    "VPC.parseInt_wraps",
    "VPC.parseLong_accepts_iff",
    "VPC.setByName_flag"
   ],
   "note": "out-of-range numbers wrap (witness)"
  },
  {
   "property": "C52",
   "status": "partial",
   "theorems": [
    "VPC.cli_int_option",
    "VPC.longName_matches",
    "VPC.cli_tikz",
    "VPC.cli_temp_partial",
    "VPC.temp_negative_loses",
    "VPC.cli_bbStrategy",
    "VPC.preprocess_not_documented"
   ],
   "note": "negative --temp loses sub-options and --preprocess does not do what its help text says (witnesses); real-valued options rest on strtod, which is a parameter of the model"
  },
  {
   "property": "C53",
   "status": "partial",
   "theorems": [
    "VPC.getName_diverges",
    "VPC.two_timers_print_diverges",
    "VPC.getName_single_partial"
   ],
   "note": "negation proved: lookup diverges for every timer but the first"
  },
  {
   "property": "C54",
   "status": "partial",
   "theorems": [
    "VPC.getSol_spec_partial",
    "VPC.solLine_double_blank",
    "VPC.getSol_edges"
   ],
   "note": "two blanks record 0 (witness)"
  },
  {
   "property": "C55",
   "status": "partial",
   "theorems": [
    "VPC.load_partial",
    "VPC.load_ignores_offset",
    "VPC.load_wrong_value"
   ],
   "note": "objective offset is ignored (witness)"
  },
  {
   "property": "C56",
   "status": "proved",
   "theorems": [
    "VPC.checkSolverOptimality_result",
    "VPC.checkSolverOptimality_calls",
    "VPC.checkSolverOptimality_stable",
    "VPC.resolveLoop_once"
   ],
   "note": "for every solver whose statuses are mutually exclusive"
  },
  {
   "property": "C57",
   "status": "proved",
   "theorems": [
    "VPC.solveFromHotStart_spec"
   ],
   "note": ""
  },
  {
   "property": "C58",
   "status": "partial",
   "theorems": [
    "VPC.objCheck_partial",
    "VPC.objCheck_opposite_sign"
   ],
   "note": "opposite signs are always accepted (proved)"
  },
  {
   "property": "C59",
   "status": "partial",
   "theorems": [
    "VPC.dset_prepare_partial",
    "VPC.dset_prepare_first",
    "VPC.dset_prepare_stale",
    "VPC.dset_int_sol_stale"
   ],
   "note": "values from an earlier preparation survive (witness)"
  },
  {
   "property": "C60",
   "status": "partial",
   "theorems": [
    "VPC.root_bounds_step_partial",
    "VPC.root_bound_up_missing",
    "VPC.rootSide_total",
    "VPC.setupTerm_defined"
   ],
   "note": "the second child of the root updates the bound of the first side (witness)"
  },
  {
   "property": "C61",
   "status": "partial",
   "theorems": [
    "VPC.recorded_improves",
    "VPC.improving_recorded_partial",
    "VPC.improving_not_recorded"
   ],
   "note": "not recorded if the node survives the new cutoff (witness)"
  },
  {
   "property": "C62",
   "status": "partial",
   "theorems": [
    "VPC.clean_counts_partial",
    "VPC.clean_counts_twice"
   ],
   "note": "the sum is an upper bound on the number of changed bounds; a bound can be counted twice (witness)"
  },
  {
   "property": "C63",
   "status": "partial",
   "theorems": [
    "VPC.supplied_disjunction_never_used",
    "VPC.supplied_disjunction_exits",
    "VPC.custom_rounds_no_cuts",
    "VPC.customRound_objs"
   ],
   "note": "negation proved: a supplied disjunction never yields a cut"
  },
  {
   "property": "C64",
   "status": "partial",
   "theorems": [
    "VPC.round_number_lost"
   ],
   "note": "negation proved"
  },
  {
   "property": "C65",
   "status": "partial",
   "theorems": [
    "VPC.crosses_and_custom_exit",
    "VPC.flip_beta_exits",
    "VPC.small_option_undefined",
    "VPC.implemented_modes_return_partial",
    "VPC.disjunctions_used"
   ],
   "note": "proved for the implemented modes; the others terminate the process or are undefined (theorems)"
  },
  {
   "property": "C66",
   "status": "proved",
   "theorems": [
    "VPC.try_reason_true"
   ],
   "note": ""
  },
  {
   "property": "C67",
   "status": "proved",
   "theorems": [
    "VPC.nbReducedCost_nonneg",
    "VPC.nbReducedCosts_spec"
   ],
   "note": ""
  },
  {
   "property": "C68",
   "status": "partial",
   "theorems": [
    "VPC.instanceEps_spec",
    "VPC.empty_matrix_undefined"
   ],
   "note": "full for every instance with at least one matrix element; an empty matrix is undefined behaviour"
  },
  {
   "property": "C69",
   "status": "proved",
   "theorems": [
    "VPC.rootCutOf_sat",
    "VPC.rootChanges_spec",
    "VPC.rootChanges_keeps"
   ],
   "note": "for every cut limit and violation test"
  },
  {
   "property": "C70",
   "status": "partial",
   "theorems": [
    "VPC.savedObj_agree_partial",
    "VPC.savedObj_opposite_sign",
    "VPC.savedObj_near_zero",
    "VPC.doTerm_checked",
    "VPC.rootObj_checked",
    "VPC.finishTerm_iff",
    "VPC.doTerm_value",
    "VPC.rootObj_unchecked"
   ],
   "note": "opposite signs are always accepted (proved)"
  },
  {
   "property": "C71",
   "status": "proved",
   "theorems": [
    "VPC.sameSolution_iff",
    "VPC.repeated_solution_no_cut",
    "VPC.new_solution_tried"
   ],
   "note": ""
  },
  {
   "property": "C72",
   "status": "partial",
   "theorems": [
    "VPC.pool_distinct_partial",
    "VPC.pool_not_parallel_partial",
    "VPC.genCut_pool",
    "VPC.pool_ortho_step",
    "VPC.pool_replace_better",
    "VPC.replacement_leaves_parallel",
    "VPC.root_duplicates",
    "VPC.not_parallel_of_different"
   ],
   "note": "pairwise different for every history after the root changes; a replacement leaves near-parallel cuts, and root cuts are never compared (witnesses)"
  },
  {
   "property": "C73",
   "status": "partial",
   "theorems": [
    "VPC.stronger_duplicate_lost",
    "VPC.duplicate_leaves_pool"
   ],
   "note": "negation proved: for every pool, whatever is found to be a duplicate is dropped, also if it is stronger (witness)"
  },
  {
   "property": "C74",
   "status": "partial",
   "theorems": [
    "VPC.documented_accepted_partial",
    "VPC.undocumented_rejected_partial",
    "VPC.strengthen_three_exits",
    "VPC.undocumented_accepted",
    "VPC.default_strategy"
   ],
   "note": "fails for STRENGTHEN=3 and PRLP_TIMELIMIT=-2 (rejected) and for some values that are accepted without meaning (theorems)"
  },
  {
   "property": "C75",
   "status": "proved",
   "theorems": [
    "VPC.prlpSetupExit_spec",
    "VPC.prlpSetupExit_fail",
    "VPC.prlpSetupExit_fail_iff"
   ],
   "note": ""
  },
  {
   "property": "C76",
   "status": "partial",
   "theorems": [
    "VPC.prlp_limit_given_partial",
    "VPC.prlp_unlimited_is_limited",
    "VPC.prlp_limit_sticks"
   ],
   "note": "the value -1 does not mean what is documented (proved for all durations)"
  },
  {
   "property": "C77",
   "status": "partial",
   "theorems": [
    "VPC.rounds_merged",
    "VPC.reported_totals",
    "VPC.generate_ledger",
    "VPC.roundRecord_ok",
    "VPC.unfilled_round_undefined",
    "VPC.gmic_update",
    "VPC.gmic_update_returns",
    "VPC.update_accumulates",
    "VPC.merge_of_nothing",
    "VPC.copyTypes_ok_iff"
   ],
   "note": "full for rounds whose record was filled; a round of mode CUSTOM without a disjunction leaves an empty record and the merge is then undefined behaviour (proved)"
  },
  {
   "property": "C78",
   "status": "partial",
   "theorems": [
    "VPC.checkCutDensity_eq",
    "VPC.average_support_partial",
    "VPC.average_support_wrong",
    "VPC.average_support_nan",
    "VPC.support_extremes_wrong"
   ],
   "note": "the average is right if the collection holds exactly the new cuts; otherwise wrong, and minimum and maximum are never recorded (proved)"
  },
  {
   "property": "C79",
   "status": "proved",
   "theorems": [
    "VPC.active_counts",
    "VPC.active_by_objective",
    "VPC.activity_returns",
    "VPC.active_by_objective_added"
   ],
   "note": ""
  },
  {
   "property": "C80",
   "status": "partial",
   "theorems": [
    "VPC.disj_averages_partial",
    "VPC.disj_counts",
    "VPC.other_averages_wrong",
    "VPC.set_average_wrong"
   ],
   "note": "two of the ten averages, one disjunction per call; the other eight, and sets of disjunctions, are wrong (proved)"
  },
  {
   "property": "C81",
   "status": "partial",
   "theorems": [
    "VPC.violated_count",
    "VPC.valid_cuts_pass",
    "VPC.pass_means_valid",
    "VPC.check_done_partial",
    "VPC.combined_never_checked"
   ],
   "note": "the count is exact; the main program does not check anything if the option is combined with another one (proved)"
  },
  {
   "property": "C82",
   "status": "proved",
   "theorems": [
    "VPC.best_of_runs",
    "VPC.average_of_runs",
    "VPC.average_accumulates"
   ],
   "note": "for new records, which is how all callers use them; average_accumulates shows what happens otherwise"
  },
  {
   "property": "C83",
   "status": "partial",
   "theorems": [
    "VPC.runs_same_problem_partial",
    "VPC.single_run_unchanged",
    "VPC.more_columns_undefined",
    "VPC.wrong_columns_integer",
    "VPC.column_lost",
    "VPC.cuts_not_permuted",
    "VPC.repeated_runs_undefined",
    "VPC.rows_permuted"
   ],
   "note": "full for one run and for Gurobi/CPLEX; permuted runs are equivalent only for square problems with uniform integrality; otherwise undefined or a different problem, and cuts are not permuted (proved)"
  },
  {
   "property": "C84",
   "status": "partial",
   "theorems": [
    "VPC.seed_documented_partial",
    "VPC.seeds_distinct_partial",
    "VPC.large_seed_exits",
    "VPC.clock_seed_overflows",
    "VPC.clock_seed_exits",
    "VPC.runSeed_undef_iff"
   ],
   "note": "as long as seed times number of runs fits an int; otherwise the process ends or overflows (proved)"
  },
  {
   "property": "C85",
   "status": "partial",
   "theorems": [
    "VPC.bb_report",
    "VPC.mode_digits",
    "VPC.bb_nothing",
    "VPC.all_cuts_never_run",
    "VPC.no_solver_reported_as_zero",
    "VPC.gurobi_check_exits",
    "VPC.mode_100_without_vpcs",
    "VPC.solver_run",
    "VPC.no_cuts_no_exit",
    "VPC.known_solution_no_exit"
   ],
   "note": "full for the runs made; the configuration with all cuts is never run by the main program, a missing solver is reported as zeros, checking cuts with Gurobi ends the process (proved)"
  },
  {
   "property": "C86",
   "status": "proved",
   "theorems": [
    "VPC.split_choice",
    "VPC.split_none_iff",
    "VPC.split_returns_partial"
   ],
   "note": "for every solver behaviour; termination without exit under the assumption that the solver decides every side"
  },
  {
   "property": "C87",
   "status": "proved",
   "theorems": [
    "VPC.recorded_change_iff",
    "VPC.changes_imply_box",
    "VPC.bb_terms_are_leaves",
    "VPC.bb_keep_terms_are_leaves",
    "VPC.small_change_not_recorded"
   ],
   "note": "both modes (keep pruned nodes on and off); the tolerance 1e-7 is part of the statement"
  },
  {
   "property": "C88",
   "status": "proved",
   "theorems": [
    "VPC.pbb_outcome",
    "VPC.pbb_exit_iff"
   ],
   "note": ""
  },
  {
   "property": "C89",
   "status": "partial",
   "theorems": [
    "VPC.first_direction",
    "VPC.doStrong_spec",
    "VPC.forced_branch_feasible",
    "VPC.choose_code",
    "VPC.infeasible_direction_chosen",
    "VPC.choose_first_down"
   ],
   "note": "the direction returned with an infeasible side is the infeasible one whenever the down branch is tried first (witness)"
  },
  {
   "property": "C90",
   "status": "proved",
   "theorems": [
    "VPC.pbb_disjunction_made_iff",
    "VPC.reason_of_preparation",
    "VPC.failed_setup_reported",
    "VPC.gmics_iff",
    "VPC.custom_round_exits",
    "VPC.try_reason_true",
    "VPC.early_reason"
   ],
   "note": ""
  },
  {
   "property": "C91",
   "status": "partial",
   "theorems": [
    "VPC.attribution_partial",
    "VPC.replaced_cut_wrong_disjunction",
    "VPC.reason_of_preparation"
   ],
   "note": "holds for added cuts; a replaced cut keeps the disjunction of the cut it replaces (witness)"
  },
  {
   "property": "C92",
   "status": "partial",
   "theorems": [
    "VPC.log_columns",
    "VPC.field_by_name",
    "VPC.names_unambiguous",
    "VPC.titles_over_blocks",
    "VPC.time_eq",
    "VPC.set_names",
    "VPC.prep_columns_partial",
    "VPC.prep_shifted",
    "VPC.prep_title_shifted",
    "VPC.prep_early_exit"
   ],
   "note": "full for runs that generate cuts (every line, every column); in the preprocessing log the last eight fields stand under wrong names, one title is one column off, and an instance with an integral LP solution gives a line of fourteen fields (proved)"
  },
  {
   "property": "C93",
   "status": "partial",
   "theorems": [
    "VPC.line_splits",
    "VPC.log_line_readable",
    "VPC.joinChars_eq",
    "VPC.commas_shift",
    "VPC.sv_spec",
    "VPC.svI_spec",
    "VPC.nan_printed_as_inf"
   ],
   "note": "for texts without comma; every comma in a file name or parameter adds a field (proved)"
  },
  {
   "property": "C94",
   "status": "partial",
   "theorems": [
    "VPC.gap_between",
    "VPC.gap_blank_iff",
    "VPC.gap_monotone",
    "VPC.gap_degenerate",
    "VPC.sv_num"
   ],
   "note": "full if the LP bound is below the optimal value; if they are equal, inf or -inf is printed (proved)"
  },
  {
   "property": "C95",
   "status": "partial",
   "theorems": [
    "VPC.counters_printed",
    "VPC.log_cut_counts",
    "VPC.objective_cut_hidden",
    "VPC.notes_hidden",
    "VPC.stats_printed",
    "VPC.density_overflow"
   ],
   "note": "totals and types are right for every history; numbers by objective are shown as zero if no objective was counted as tried although there are cuts (reachable witness), and more than 2^31-1 matrix positions overflow (proved)"
  },
  {
   "property": "C96",
   "status": "partial",
   "theorems": [
    "VPC.log_history_partial",
    "VPC.log_lines_partial",
    "VPC.log_readable_partial",
    "VPC.crash_glues_lines",
    "VPC.glued_line_shifted",
    "VPC.crash_loses_header",
    "VPC.header_of_first"
   ],
   "note": "if every run ends its line; a run that stops without a message glues the next line to its own, one that is killed after creating the file loses the header for good, and the header is that of the first mode used (proved)"
  },
  {
   "property": "C97",
   "status": "proved",
   "theorems": [
    "VPC.point_check_iff",
    "VPC.point_opposite_rejected",
    "VPC.ray_store_iff",
    "VPC.collectRay_iff",
    "VPC.collected_consistent"
   ],
   "note": ""
  },
  {
   "property": "C98",
   "status": "proved",
   "theorems": [
    "VPC.prep_equivalent",
    "VPC.prep_bound_valid",
    "VPC.cleanLoop_sol",
    "VPC.cleanLoop_passes",
    "VPC.cleanLoop_stops",
    "VPC.minimise_value",
    "VPC.prep_reads"
   ],
   "note": "relative to the presolved instance: the presolver itself is external"
  },
  {
   "property": "C99",
   "status": "partial",
   "theorems": [
    "VPC.prep_reuse_iff",
    "VPC.prep_reuse_partial",
    "VPC.prep_without_presolver",
    "VPC.prep_reuse_wrong",
    "VPC.prep_counts_fixing_five_times",
    "VPC.prep_range_unnoticed",
    "VPC.presolveDiff_other"
   ],
   "note": "exact condition for copying proved; changes of objective, coefficients, row directions, lower sides of ranges and integrality are not noticed and wrong results are copied, one fixing is counted once per pass (up to five times), and without a commercial presolver an empty instance is saved (proved)"
  },
  {
   "property": "C100",
   "status": "proved",
   "theorems": [
    "VPC.objectives_as_documented",
    "VPC.prlpSetup_wf",
    "VPC.equation_only_when_tight"
   ],
   "note": ""
  },
  {
   "property": "C101",
   "status": "proved",
   "theorems": [
    "VPC.target_is_history",
    "VPC.genCut_never_bad"
   ],
   "note": ""
  },
  {
   "property": "C102",
   "status": "proved",
   "theorems": [
    "VPC.tried_only_below_limits",
    "VPC.tried_total_bounded",
    "VPC.units_abandon",
    "VPC.rays_abandon",
    "VPC.points_abandon",
    "VPC.points2_abandon",
    "VPC.rays2_abandon",
    "VPC.late_abandon",
    "VPC.points_phase_abandon"
   ],
   "note": ""
  },
  {
   "property": "C103",
   "status": "partial",
   "theorems": [
    "VPC.solutions_optimal",
    "VPC.cuts_from_attempts",
    "VPC.target_cuts_valid_partial",
    "VPC.target_cuts_near_partial"
   ],
   "note": "feasibility, optimality and origin in full for truthful solvers; validity of the cuts under the hypotheses of C03 (exact arithmetic)"
  },
  {
   "property": "C104",
   "status": "proved",
   "theorems": [
    "VPC.heuristic_budgets",
    "VPC.heuristic_order",
    "VPC.ceilSqrt_spec",
    "VPC.ray_and_unit_budgets"
   ],
   "note": ""
  },
  {
   "property": "C105",
   "status": "partial",
   "theorems": [
    "VPC.post_gomory_one_cut",
    "VPC.gomoryLoop_next",
    "VPC.resetSolver_solve"
   ],
   "note": "violated: with a solver that repeats its answer at most two objectives are tried and the second always fails, whatever k (proved)"
  },
  {
   "property": "C106",
   "status": "partial",
   "theorems": [
    "VPC.points_targeted",
    "VPC.no_points_undefined",
    "VPC.target_defined",
    "VPC.tight_counters",
    "VPC.candidates_spec",
    "VPC.second_round_points",
    "VPC.failed_ray_marked",
    "VPC.marked_rays_skipped",
    "VPC.reset_forgets"
   ],
   "note": "which points are targeted is proved; the last point is left out of the first round, the first point is never targeted if the lower-bound heuristic is off, and without points an empty vector is read (proved); with a point nothing undefined happens (proved)"
  },
  {
   "property": "C107",
   "status": "partial",
   "theorems": [
    "VPC.disj_lb_point_partial",
    "VPC.disj_lb_point_wrong"
   ],
   "note": "if no comparison of two points answers \"strictly stronger\"; otherwise the lowest point can be dropped altogether (witness)"
  },
  {
   "property": "C108",
   "status": "partial",
   "theorems": [
    "VPC.candidate_list",
    "VPC.candidate_list_infeasible",
    "VPC.numStrong_spec",
    "VPC.nonpositive_values_ignored",
    "VPC.reverse_methods_nonpos",
    "VPC.reverse_method_misses",
    "VPC.sideEstimate_few"
   ],
   "note": "full for values that are positive (methods 0 to 5 with positive estimates); method 6 and the reversed (negative) methods give no positive value and then the first unsatisfied variable is the only candidate, whatever the values (proved)"
  },
  {
   "property": "C109",
   "status": "partial",
   "theorems": [
    "VPC.method7_choice",
    "VPC.method7_inside",
    "VPC.method7_interior_unchanged",
    "VPC.method7_returns_partial",
    "VPC.method7_not_fractional",
    "VPC.method7_deep_aborts",
    "VPC.method7_fixed_aborts"
   ],
   "note": "which variable is chosen and that the value is strictly inside is proved; it need not be fractional, and the program aborts when the depth reaches the number of variables or the remaining ones are fixed (proved)"
  },
  {
   "property": "C110",
   "status": "partial",
   "theorems": [
    "VPC.options_read",
    "VPC.no_options",
    "VPC.right_number_goes_on",
    "VPC.terms_of_round",
    "VPC.terms_unchanged",
    "VPC.set_mode_disjunctions",
    "VPC.small_option_stops",
    "VPC.error_never_reported",
    "VPC.wrong_number",
    "VPC.documented_separators",
    "VPC.set_mode_small_option",
    "VPC.stoi_range",
    "VPC.options_are_ints"
   ],
   "note": "reading and use of the numbers is proved; a wrong number of options is never reported as an error (and the log file is then used after it was closed), an option below 2 in set mode is undefined behaviour, the documented separators do not work (proved)"
  },
  {
   "property": "C111",
   "status": "partial",
   "theorems": [
    "VPC.reported_bounds",
    "VPC.bounds_monotone",
    "VPC.applyAll_ok",
    "VPC.gmic_bound_without_gmics",
    "VPC.no_rounds_infinite",
    "VPC.limit_loses_cuts",
    "VPC.other_gomory_no_cuts",
    "VPC.round_after"
   ],
   "note": "full for solvers that hit no limit and stay optimal when solved again; an LP left at a limit loses the later cuts, without Gomory cuts their bound is reported as infinite, and so are all bounds without rounds (proved)"
  },
  {
   "property": "C112",
   "status": "partial",
   "theorems": [
    "VPC.gurobi_cuts_partial",
    "VPC.given_same_points",
    "VPC.ge_same",
    "VPC.le_reversed",
    "VPC.csr_round_trip",
    "VPC.cplex_cuts",
    "VPC.cbc_no_cut_seen",
    "VPC.gmic_other_side",
    "VPC.gurobi_cuts_lost",
    "VPC.gurobi_second_run_no_cuts",
    "VPC.gurobi_lazy_twice",
    "VPC.cbc_own_cut_ends",
    "VPC.range_reversed",
    "VPC.user_cuts_bit",
    "VPC.osiRow_rhs_cases"
   ],
   "note": "CPLEX gets exactly the cuts; Gurobi if the relaxation of the first pass is solved to optimality; a cut stored as <= is handed over as >=, cuts are lost in Gurobi otherwise or in a second run, lazy cuts are given twice, Cbc ends as soon as it has any cut of its own (proved)"
  },
  {
   "property": "C113",
   "status": "partial",
   "theorems": [
    "VPC.gurobi_passes",
    "VPC.gurobi_first_bound",
    "VPC.gurobi_last_bound",
    "VPC.gurobi_one_pass",
    "VPC.gurobi_sol_time",
    "VPC.gurobi_root_time",
    "VPC.gurobi_root_iters",
    "VPC.cplex_passes",
    "VPC.cplex_first_bound",
    "VPC.cplex_last_bound",
    "VPC.cbc_report_partial",
    "VPC.root_bound_is_incumbent",
    "VPC.cplex_root_closed",
    "VPC.cplex_zero_solution_time",
    "VPC.cbc_uninitialised",
    "VPC.gurobi_no_pass",
    "VPC.cplex_rerun_first_bound"
   ],
   "note": "the statistics of Gurobi and CPLEX when there are passes are proved from the events; if the root is closed without a pass the incumbent value is reported as the bound, CPLEX misses a first solution of value 0, Cbc reads an uninitialised number (proved)"
  },
  {
   "property": "C114",
   "status": "partial",
   "theorems": [
    "VPC.hasExt_iff",
    "VPC.wantsStrong_pos",
    "VPC.gurobi_options",
    "VPC.cplex_options",
    "VPC.cbc_options",
    "VPC.options_that_matter",
    "VPC.options_that_matter_cbc",
    "VPC.gmics_off_ignored",
    "VPC.cbc_ignores",
    "VPC.negative_options",
    "VPC.user_cuts_not_announced",
    "VPC.strong_on_absolute_value",
    "VPC.strong_undefined"
   ],
   "note": "for positive strategies and the options that do something; five documented options do nothing, Cbc ignores two more, negative strategies ignore all of them although they choose the solver, strong branching is tested on the absolute value (proved)"
  },
  {
   "property": "C115",
   "status": "partial",
   "theorems": [
    "VPC.grbLast_spec",
    "VPC.gurobi_result",
    "VPC.gurobi_result_exit",
    "VPC.gurobi_user_result",
    "VPC.gurobi_time_lost",
    "VPC.cpxLast_spec",
    "VPC.cplex_result",
    "VPC.cplex_result_exit",
    "VPC.cplex_no_solution_zero",
    "VPC.cplex_no_solution_ends",
    "VPC.cplex_time_first",
    "VPC.cbc_result"
   ],
   "note": "when a run returns and what it returns is characterised; with CPLEX an objective of 0 is reported at a limit without a solution, asking for a solution then ends the process, and only one of two runs is timed (proved)"
  },
  {
   "property": "C116",
   "status": "partial",
   "theorems": [
    "VPC.tree_name_reads_partial",
    "VPC.tree_name_wrong",
    "VPC.cgsTerm_spec",
    "VPC.cgsIneq_new",
    "VPC.cgsIneq_more",
    "VPC.splitName_spec",
    "VPC.readName_groups",
    "VPC.treeName_count",
    "VPC.numText_int",
    "VPC.numText_below",
    "VPC.numText_big",
    "VPC.cgsIneqs_empty",
    "VPC.numText_frac",
    "VPC.sumText_parts",
    "VPC.factorText_empty_iff"
   ],
   "note": "read back exactly for splits and for trees of depth one; for every tree with a deeper term the name cannot be read as its terms, numbers just below an integer are written one too small, large ones are undefined (proved)"
  },
  {
   "property": "C117",
   "status": "partial",
   "theorems": [
    "VPC.tree_settings_partial",
    "VPC.compare_five",
    "VPC.branch_three",
    "VPC.branch_big",
    "VPC.strong_small",
    "VPC.strategy_min"
   ],
   "note": "for all documented digits except ones digit 5 (gives the default) and tens digit 3 (switches the choice method off); numbers below -2 and INT_MIN are accepted without meaning (proved)"
  },
  {
   "property": "C118",
   "status": "partial",
   "theorems": [
    "VPC.better_after_solution",
    "VPC.better_before_solution_partial",
    "VPC.better_before_even",
    "VPC.better_before_tie_wrong",
    "VPC.better_before_tie",
    "VPC.better_before_any_int",
    "VPC.better_before_int_max"
   ],
   "note": "after a solution in full; before a solution the number of infeasibilities is minimal, but ties are decided by comparing the wrong change (witness)"
  },
  {
   "property": "C119",
   "status": "partial",
   "theorems": [
    "VPC.known_from_parameter",
    "VPC.known_from_file",
    "VPC.known_in_file",
    "VPC.missing_record",
    "VPC.search_only_alone",
    "VPC.combined_option_ignored",
    "VPC.solution_call",
    "VPC.start_file_used",
    "VPC.solutionValue_eq",
    "VPC.given_optimum_used",
    "VPC.optimum_source",
    "VPC.solution_optimum_partial",
    "VPC.solution_offset_wrong",
    "VPC.solution_offset_witness",
    "VPC.parameter_agrees"
   ],
   "note": "sources and their order are proved for every run; the value of the solution found omits the constant of the objective (proved wrong for every such run), and the option is only seen if it is given alone (proved)"
  },
  {
   "property": "C120",
   "status": "partial",
   "theorems": [
    "VPC.run_integral",
    "VPC.integral_optimum_partial",
    "VPC.integral_bound",
    "VPC.integral_optimum_wrong",
    "VPC.run_code",
    "VPC.run_preprocess",
    "VPC.run_cuts",
    "VPC.mode_numbers"
   ],
   "note": "phases proved; an LP solution that is integral only within the tolerance is reported as the optimum (witness), and the return code of a regular end is always 0 (proved)"
  },
  {
   "property": "C121",
   "status": "partial",
   "theorems": [
    "VPC.round_name_injective",
    "VPC.round_name_no_log",
    "VPC.round_place",
    "VPC.round_place_wrong",
    "VPC.round_table",
    "VPC.round_density_value",
    "VPC.round_lines",
    "VPC.round_written",
    "VPC.round_density_wrong",
    "VPC.round_density_constant",
    "VPC.round_no_gomory",
    "VPC.round_times_sum",
    "VPC.round_times_le"
   ],
   "note": "names, lines, columns and sums of times are proved; without a log file the name ignores the instance, without an extension the table goes to the root directory, smallest and largest density are never recorded, without Gomory cuts their bound is infinite (proved)"
  },
  {
   "property": "C122",
   "status": "partial",
   "theorems": [
    "VPC.generator_times",
    "VPC.init_time_multiplied"
   ],
   "note": "sums over the rounds are proved; the time of the one initial solve is added once per round (proved)"
  },
  {
   "property": "C123",
   "status": "partial",
   "theorems": [
    "VPC.iface_same_solutions_partial",
    "VPC.apply_clear_empties",
    "VPC.load_keeps_old",
    "VPC.load_applies_old_cuts",
    "VPC.apply_repeated",
    "VPC.generate_needs_optimal",
    "VPC.generate_disj",
    "VPC.stale_disjunction",
    "VPC.apply_defined"
   ],
   "note": "for all histories that load a problem into an object with an empty collection; otherwise the cuts and the disjunction of the previous problem stay and the cuts are applied to the new problem (witnesses)"
  },
  {
   "property": "C124",
   "status": "partial",
   "theorems": [
    "VPC.read_by_extension_partial",
    "VPC.bad_file_used",
    "VPC.capital_extension",
    "VPC.missing_or_unparsed"
   ],
   "note": "the choice of the reader is proved; a positive status (errors found) is accepted and upper-case extensions are handed to the MPS reader (witnesses)"
  },
  {
   "property": "C125",
   "status": "partial",
   "theorems": [
    "VPC.cpx_columns",
    "VPC.cpx_rval",
    "VPC.cpx_equivalent_partial",
    "VPC.cpx_empty_matrix",
    "VPC.cpx_lp_types",
    "VPC.cpx_variables_changed",
    "VPC.cpx_ranged_row",
    "VPC.cpx_objective_constant"
   ],
   "note": "columns exact for all problems; the same problem for mixed-integer programs with a nonzero, plain rows, bounds below 1e20 and binaries with bounds 0 and 1; outside of these it fails (witnesses)"
  },
  {
   "property": "C126",
   "status": "partial",
   "theorems": [
    "VPC.objects_are_values",
    "VPC.no_basis_leak",
    "VPC.all_freed_partial",
    "VPC.assigned_set_leaks",
    "VPC.reset_set_leaks",
    "VPC.copied_round_undefined",
    "VPC.assigned_round_kept",
    "VPC.isTree_iff",
    "VPC.assign_class_mismatch"
   ],
   "note": "the code violates the property for the number of the round (indeterminate in copies) and loses members of overwritten sets (witnesses); everything else is proved for all programs"
  },
  {
   "property": "C127",
   "status": "partial",
   "theorems": [
    "VPC.cosine_range",
    "VPC.cosine_symm",
    "VPC.cosine_scale",
    "VPC.cosine_eq_one_iff",
    "VPC.cosine_eq_neg_one_iff",
    "VPC.cosine_eq_zero_iff",
    "VPC.parallelism_packed_partial",
    "VPC.parallelism_packed_dense",
    "VPC.parallelism_dense",
    "VPC.parallelism_undefined_iff",
    "VPC.parallelism_unsorted",
    "VPC.orthoLess_iff",
    "VPC.orthoBelow_iff",
    "VPC.tooParallel_iff_partial",
    "VPC.added_cut_angle",
    "VPC.howDupAngleLoop_generic",
    "VPC.stationary_iff_partial",
    "VPC.stationary_same",
    "VPC.stationary_wrong",
    "VPC.minPar_number"
   ],
   "note": "exact for sorted packed vectors and for arrays; unsorted packed vectors give wrong values, and the stationarity test is wrong at the origin and for different points in one direction (witnesses)"
  },
  {
   "property": "C128",
   "status": "partial",
   "theorems": [
    "VPC.handlers_are_values_partial",
    "VPC.handlers_undefined",
    "VPC.handlers_own_solvers",
    "VPC.handlers_leak_exactly",
    "VPC.handlers_all_freed_iff",
    "VPC.tree_handler",
    "VPC.copy_without_solver",
    "VPC.handlers_leak",
    "VPC.foreign_solver",
    "VPC.getMaxTime_partial",
    "VPC.getMaxTime_wrong",
    "VPC.event_stops",
    "VPC.event_end",
    "VPC.default_handler_stops",
    "VPC.event_other",
    "VPC.event_bad_status"
   ],
   "note": "exact for all histories: undefined exactly if a source without solver is copied or names are misused, leaked exactly the overwritten solvers; getters return truncated integers (witnesses)"
  },
  {
   "property": "C129",
   "status": "partial",
   "theorems": [
    "VPC.setup_live_partial",
    "VPC.genDepth1_live",
    "VPC.collectPoint_live",
    "VPC.collectRay_live",
    "VPC.collectInt_live",
    "VPC.collectInt_exits_iff",
    "VPC.collectPoint_tiny_exits",
    "VPC.Tri.incumbent_outside_exits",
    "VPC.Tri.ranged_row_exits"
   ],
   "note": "exact arithmetic and exact LP answers; the excluded cases (incumbent outside the relaxation, ranged rows, very many columns) end the process in the code, with exact condition or witnesses"
  },
  {
   "property": "C130",
   "status": "partial",
   "theorems": [
    "VPC.prlpResolve_total",
    "VPC.prlpResolve_plain",
    "VPC.prlpResolve_retried",
    "VPC.prlpCode_spec",
    "VPC.prlpCode_never_primal",
    "VPC.prlpResolve_runs",
    "VPC.prlpResolve_time",
    "VPC.prlp_time_exceeded",
    "VPC.prlp_nan_accepted",
    "VPC.prlp_inf_accepted",
    "VPC.lpParameters_spec",
    "VPC.lpParameters_silent",
    "VPC.setupCbc_spec",
    "VPC.setupCbc_twice"
   ],
   "note": "the time limit is not kept (up to 12 times, attained), NaN and minus infinity are accepted after the retry, preparing a solver twice switches the option off: shown by witnesses; solver is any state machine, its runs keep to their deadline by hypothesis"
  },
  {
   "property": "C131",
   "status": "proved",
   "theorems": [
    "VPC.dotDense_kahan_error",
    "VPC.dotSparseDense_kahan_error",
    "VPC.dotSparse_kahan_error",
    "VPC.fl_relRnd",
    "VPC.dotDense_double_error",
    "VPC.dotDense_kahan_relative",
    "VPC.dotSparseDense_double_int",
    "VPC.fl_int",
    "VPC.dot_plain_worse",
    "VPC.dot_forms_differ"
   ],
   "note": "for every rounding function of relative error u (no overflow or underflow); fl 53 is shown to be one"
  },
  {
   "property": "C132",
   "status": "partial",
   "theorems": [
    "VPC.tmp_run",
    "VPC.tmp_run_killed",
    "VPC.tmp_run_no_zlib",
    "VPC.tmp_runs_leak",
    "VPC.tmp_runs_limit",
    "VPC.tmpCopyModel_named",
    "VPC.tmpCopyModel_short",
    "VPC.presolved_name",
    "VPC.tmp_concurrent",
    "VPC.tmp_concurrent_left",
    "VPC.tmp_files_left",
    "VPC.tmp_overwrites",
    "VPC.tmp_no_zlib_wrong",
    "VPC.tmp_fds_exhausted",
    "VPC.tmpCopyModel_tmp",
    "VPC.tmpCopyOsi_named"
   ],
   "note": "Proved for all disks, names and schedules: the problem solved is the one written, also with any number of processes interleaved (tmp_concurrent), the copy is removed and no other file changes (tmp_run, tmp_concurrent_left). The full statement is false of the code: each run leaves one empty file and one open descriptor (tmp_runs_leak, tmp_files_left), so the process ends when descriptors run out (tmp_runs_limit, tmp_fds_exhausted); a file of the name of the copy is overwritten (tmp_overwrites); without zlib the wrong file is read (tmp_no_zlib_wrong)."
  },
  {
   "property": "C133",
   "status": "partial",
   "theorems": [
    "VPC.idx_strictWeak_iff",
    "VPC.sort_values_unique",
    "VPC.sort_ties_open",
    "VPC.rayInfo_not_strictWeak",
    "VPC.rayInfo_strictWeak_partial",
    "VPC.rayInfo_lost",
    "VPC.names_strictWeak",
    "VPC.setInsert_spec"
   ],
   "note": "Exact condition for the comparisons by array entries (idx_strictWeak_iff): they are strict weak orders unless NaN occurs together with different entries, which nothing in the code excludes. The order of rays violates the laws (rayInfo_not_strictWeak) and an ordered set with it loses rays (rayInfo_lost)."
  },
  {
   "property": "C134",
   "status": "partial",
   "theorems": [
    "VPC.program_value_eq",
    "VPC.run_value_partial",
    "VPC.run_value_negated",
    "VPC.best_run_partial",
    "VPC.best_run_is_worst",
    "VPC.best_run_full_fails",
    "VPC.stopsAtBound_iff",
    "VPC.stop_proves_partial",
    "VPC.stop_too_early",
    "VPC.stop_never",
    "VPC.stop_too_early_ex",
    "VPC.last_solution_partial",
    "VPC.last_solution_first",
    "VPC.gap_program_sense",
    "VPC.gap_file_sense"
   ],
   "note": "Holds for every minimization instance, and for Cbc. False for maximization instances with Gurobi or CPLEX: values are negated (run_value_negated), the best of several runs is the worst (best_run_is_worst), the known value stops Gurobi too early or never (stop_too_early, stop_never), only the first solution counts as improving (last_solution_first). How Gurobi treats BestBdStop is an assumption on the external solver."
  },
  {
   "property": "C135",
   "status": "proved",
   "theorems": [
    "VPC.strong_leaves_problem",
    "VPC.strong_counts",
    "VPC.strong_refines",
    "VPC.strong_all",
    "VPC.fixing_keeps",
    "VPC.fixing_excludes",
    "VPC.fixing_only",
    "VPC.strong_copies",
    "VPC.strong_copies_fail",
    "VPC.restoreAll_live",
    "VPC.strong_time"
   ],
   "note": "for branching information that refers to the solver's own arrays, as OsiBranchingInformation does (external); with copies nothing would be restored (strong_copies, strong_copies_fail). External: which bounds a branch sets, the LP outcomes, OsiSimpleInteger::createBranch"
  },
  {
   "property": "C136",
   "status": "partial",
   "theorems": [
    "VPC.plot_tree",
    "VPC.plot_step",
    "VPC.pStep_defined",
    "VPC.tikz_edges",
    "VPC.tikz_tree_partial",
    "VPC.tikz_finished_partial",
    "VPC.tikz_clash",
    "VPC.tikz_clash_witness",
    "VPC.tikz_labels",
    "VPC.tikz_marks"
   ],
   "note": "The plot string is the tree for every history (plot_tree, plot_step). The tikz tables are built without undefined behaviour or failed assertion (tikz_edges) and are the tree if strong branching found no solution (tikz_tree_partial) or if no node is open (tikz_finished_partial). False otherwise: whenever a solution was found by strong branching and a node is open, two edges go into node numNodes (tikz_clash). The drawing itself is C154."
  },
  {
   "property": "C137",
   "status": "proved",
   "theorems": [
    "VPC.chooser_values",
    "VPC.chooser_no_leak",
    "VPC.cstep_refines"
   ],
   "note": "for every program; base class OsiChooseVariable and pseudocosts are plain values (external copies)"
  },
  {
   "property": "C138",
   "status": "partial",
   "theorems": [
    "VPC.prlp_copy_partial",
    "VPC.prlp_copy_loses",
    "VPC.prlp_copy_inconsistent"
   ],
   "note": "Counters, indices and pointers are copied (prlp_copy_partial). The LP is not: the base class is neither copied nor assigned, so a clone has an empty LP (prlp_copy_loses) with counts of points and rays that do not fit it (prlp_copy_inconsistent)."
  },
  {
   "property": "C139",
   "status": "partial",
   "theorems": [
    "VPC.gen_copies_freed_partial",
    "VPC.gen_copies_count",
    "VPC.gen_leaves_solvers",
    "VPC.gen_changes_solver",
    "VPC.main_copies_freed_partial",
    "VPC.main_leaves_solvers",
    "VPC.main_leaves_count",
    "VPC.bb_copies_freed",
    "VPC.cbcFile_copies_freed",
    "VPC.cleaning_copies_freed",
    "VPC.termSolver_runs",
    "VPC.gomoryRounds_leaks",
    "VPC.gen_runs",
    "VPC.main_runs",
    "VPC.tree_runs",
    "VPC.saveStats_runs",
    "VPC.save_runs",
    "VPC.bb_mixed_undef",
    "VPC.cond1_leaks"
   ],
   "note": "No undefined behaviour on any path; everything freed and unchanged for minimization problems without kept pruned nodes. With PARTIAL_BB_KEEP_PRUNED_NODES one solver per open node is never deleted (gen_leaves_solvers, exact number gen_copies_count, main_leaves_count); the const solver given is changed for a maximization problem (gen_changes_solver). Branch-and-bound tests and cleaning: proved outright."
  },
  {
   "property": "C140",
   "status": "partial",
   "theorems": [
    "VPC.cond1_correct_partial",
    "VPC.cond1_excess",
    "VPC.cond1_ge",
    "VPC.cond1_wrong",
    "VPC.basisArray_spec",
    "VPC.cond2_correct_partial",
    "VPC.cond2_undef",
    "VPC.cond2_empty",
    "VPC.cond_other"
   ],
   "note": "Norm 1 is the product of the norms if a slack is basic or the norm of the basis is at least 1 (cond1_correct_partial), otherwise too large (cond1_excess, witness cond1_wrong). Norm 2 gives LAPACK exactly the basis matrix (basisArray_spec) and divides its extreme singular values; undefined for m = 0 or m >= 46341 (cond2_empty, cond2_undef)."
  },
  {
   "property": "C141",
   "status": "partial",
   "theorems": [
    "VPC.start_file_solvers",
    "VPC.start_cbc_solver",
    "VPC.start_cbc_solver_outer",
    "VPC.start_cbc_file_ignored",
    "VPC.start_cbc_file_partial",
    "VPC.start_unreadable",
    "VPC.cbc_wrong_problem",
    "VPC.gurobi_le_cut_wrong"
   ],
   "note": "Proved for Gurobi and CPLEX in both forms and for Cbc with a solver object; the Cbc versions with a file name search FILENAME whatever name is given (negation), proved only for that name; cuts bounded from above are reversed for Gurobi and CPLEX (negation)"
  },
  {
   "property": "C142",
   "status": "partial",
   "theorems": [
    "VPC.status_right",
    "VPC.status_free_partial",
    "VPC.superbasic_differs",
    "VPC.fixed_clp",
    "VPC.fixed_never_found",
    "VPC.other_solver_undefined",
    "VPC.stat_no_rows_undefined",
    "VPC.slack_side"
   ],
   "note": "Basic, ray, upper and lower are proved for every solver the program can ask; free without superbasic variables; negations: superbasic variables, fixed variables without Clp, other solvers in a program built with Clp, problems without rows"
  },
  {
   "property": "C143",
   "status": "partial",
   "theorems": [
    "VPC.prep_saved",
    "VPC.prep_copy_removed",
    "VPC.prep_tested_partial",
    "VPC.prep_tests_memory",
    "VPC.prep_both",
    "VPC.presolveAll_ok",
    "VPC.prep_tests_fail",
    "VPC.prep_tests_old",
    "VPC.prep_tests_fail_now",
    "VPC.prep_tests_old_now",
    "VPC.prep_cplex_leaves",
    "VPC.prep_result",
    "VPC.presolveAll_holds"
   ],
   "note": "Saving, restoring the user's files and removal of the copy are proved in full. That the tests solve the cleaned instance is violated: they read X_cleaned.mps although X_cleaned.mps.gz was written (prep_tests_old: an old file is tested; prep_tests_fail: the process ends); with CPLEX alone two temporary files stay (prep_cplex_leaves)."
  },
  {
   "property": "C144",
   "status": "partial",
   "theorems": [
    "VPC.gen_timers_partial",
    "VPC.split_without_variable_aborts",
    "VPC.terms_limit_never",
    "VPC.main_timers_partial",
    "VPC.integral_total_zero",
    "VPC.preprocess_total_short",
    "VPC.alternating_run"
   ],
   "note": "Proved for all worlds, clocks and numbers of calls and rounds except a split disjunction with no variable to choose, which leaves GEN_DISJ_TIME running and makes the next preparation abort (split_without_variable_aborts). Violated for the program when the LP solution is integral (total written is 0) and after preprocessing or a wrong option (part is missing), and for the limit in the loop over terms (never fires)."
  },
  {
   "property": "C145",
   "status": "partial",
   "theorems": [
    "VPC.rounds_keep_solutions",
    "VPC.rounds_bounds_valid",
    "VPC.rounds_keep_optimum",
    "VPC.bound_at_limit_invalid",
    "VPC.gmic_bound_not_below",
    "VPC.applyAll_rows",
    "VPC.boundRound_admits",
    "VPC.boundRound_grows",
    "VPC.rounds_of_vpcs_valid_partial"
   ],
   "note": "No solution lost, optimum unchanged: proved for every solver. Bounds and no early end: proved for a solver that solves every LP with a feasible point. Missing because false: a bound reported when the LP is stopped by the time limit need not be one (bound_at_limit_invalid), and without Gomory cuts their bound is infinite (gmic_bound_not_below)."
  },
  {
   "property": "C146",
   "status": "partial",
   "theorems": [
    "VPC.time_limit_stops_partial",
    "VPC.time_limit_gomory_ignores"
   ],
   "note": "Proved for all LPs, solvers, clocks and sorts, for all heuristics but one: the loop of post-Gomory iterations tests the cut and failure limits only (src/cut/PRLP.cpp:1778-1781), so it goes on after the time limit; time_limit_gomory_ignores proves the unrestricted statement false."
  },
  {
   "property": "C147",
   "status": "proved",
   "theorems": [
    "VPC.no_solution_no_cut",
    "VPC.infeasible_reason_no_cut",
    "VPC.flipped_solvable",
    "VPC.no_solution_derives"
   ],
   "note": "Exact arithmetic. Hypotheses on the collection: right-hand sides are 0 or not negligible, no ray consists of one negligible entry, indices are columns."
  },
  {
   "property": "C148",
   "status": "proved",
   "theorems": [
    "VPC.optimal_strongest",
    "VPC.optimal_strongest_at",
    "VPC.point_cuts_strongest",
    "VPC.more_cuts_strongest",
    "VPC.ray_cuts_strongest",
    "VPC.unit_cuts_strongest"
   ],
   "note": "Exact arithmetic, truthful LP answers for the run; ray entries that stand alone at least EPS. The bilinear heuristic is covered by optimal_strongest only (its objective comes from outside)"
  },
  {
   "property": "C149",
   "status": "proved",
   "theorems": [
    "VPC.not_cut_off_meets",
    "VPC.meets_not_cut_off",
    "VPC.rows_meet",
    "VPC.valid_on_closed"
   ],
   "note": "Exact arithmetic, hypotheses on the collection as for C147."
  },
  {
   "property": "C150",
   "status": "proved",
   "theorems": [
    "VPC.objective_cut_valid",
    "VPC.bound_moved_gives_cut",
    "VPC.no_solution_bound_not_moved",
    "VPC.genDepth1_costs",
    "VPC.better_terms_give_cut"
   ],
   "note": "Exact arithmetic; no nonzero entry below the packing tolerances (NoTiny)."
  },
  {
   "property": "C151",
   "status": "partial",
   "theorems": [
    "VPC.feas_valid",
    "VPC.valid_feas",
    "VPC.smaller_hull_stronger",
    "VPC.same_hull_same_cuts",
    "VPC.order_irrelevant",
    "VPC.fewer_terms_stronger",
    "VPC.int_point_irrelevant",
    "VPC.cone_mono",
    "VPC.redundant_term"
   ],
   "note": "Exact arithmetic: no comparison of two rows answers within tolerance what is not true (Exact). Missing because false: with tolerances two rows can eliminate each other (C10, dedup_drops_both), then the LP has solutions that are not valid inequalities."
  },
  {
   "property": "C152",
   "status": "partial",
   "theorems": [
    "VPC.repair_idle",
    "VPC.repair_exact",
    "VPC.repaired_history",
    "VPC.repaired_covers_partial",
    "VPC.missed_without_entry",
    "VPC.save_before_repair",
    "VPC.unknown_object_exits",
    "VPC.choose_not_repaired",
    "VPC.stale_bounds_lose"
   ],
   "note": "Proved for all histories if the solver still has the bounds of the node at the event and the branching object knows its object. Violated otherwise: the disjunction is saved before the repair, so no disjunction is ever saved if the limit is reached at that event (save_before_repair, undefined reads); with other bounds in the solver points are lost (stale_bounds_lose); an unknown object ends the process (unknown_object_exits); with a choose method nothing is repaired (choose_not_repaired)."
  },
  {
   "property": "C153",
   "status": "partial",
   "theorems": [
    "VPC.reported_point",
    "VPC.bound_le_disjunction_partial",
    "VPC.disjunction_bound_reached_partial",
    "VPC.disjunction_bound_exact_partial",
    "VPC.gap_le_disjunction",
    "VPC.late_bound_exceeds",
    "VPC.program_bound_le_disjunction_partial"
   ],
   "note": "Exact arithmetic (Exact, NoTiny, NoTinyCut), truthful LP answers, no time limit during the collection. Missing because false: a term whose LP is solved when the time is up reports its value but is not collected (src/cut/CglVPC.cpp:1198-1222), and the cuts then move the bound beyond the value reported (late_bound_exceeds)."
  },
  {
   "property": "C154",
   "status": "partial",
   "theorems": [
    "VPC.drawing_closed",
    "VPC.drawing_open_partial",
    "VPC.drawing_open_twice",
    "VPC.draw_tree",
    "VPC.dangle_spec"
   ],
   "note": "Searches that ended: in full, also if Cbc dropped nodes without an event. With open nodes: if strong branching found no solution; otherwise an open node and the solution get the same number and both are drawn (drawing_open_twice)."
  },
  {
   "property": "C155",
   "status": "proved",
   "theorems": [
    "VPC.optimal_touches",
    "VPC.optimal_rhs_largest",
    "VPC.extreme_touches",
    "VPC.run_touches",
    "VPC.cut_touches",
    "VPC.untouched_optimal"
   ],
   "note": "Under the exactness hypotheses of C03 (Exact; for the original variables no coordinate or coefficient small enough to be dropped). untouched_optimal shows that the exception occurs."
  },
  {
   "property": "C156",
   "status": "partial",
   "theorems": [
    "VPC.violation_after_cleaning",
    "VPC.violation_is_beta",
    "VPC.collected_violation",
    "VPC.cuts_off_partial",
    "VPC.violation_le_beta",
    "VPC.run_cuts_off_partial",
    "VPC.collected_but_not_violated",
    "VPC.violation_any",
    "VPC.collected_violation_any",
    "VPC.cuts_off_any_partial",
    "VPC.violation_le_any",
    "VPC.run_cuts_off_any_partial"
   ],
   "note": "Proved: the exact violation of every cut, and that the LP optimum is cut off if the bounds are near enough for EPS_COEFF. Not true in general: collected_but_not_violated is a vertex solution of a point-ray LP whose cut, once cleaned, is satisfied by all points of the LP and is collected, as genCutHelper asks cleanCut to check the violation only outside the nonbasic space. Coefficients too small to be stored are accounted for (the _any theorems). Missing: arithmetic errors."
  },
  {
   "property": "C157",
   "status": "partial",
   "theorems": [
    "VPC.derived_slack_error",
    "VPC.cleaned_violation_error",
    "VPC.float_cut_valid",
    "VPC.float_cut_violation",
    "VPC.float_exact",
    "VPC.rounding_cuts_off",
    "VPC.run_float_partial",
    "VPC.run_float_tol_partial"
   ],
   "note": "Proved: explicit bounds on all rounding errors between a solution of the point-ray LP and the cut handed out, for every rounding with relative error u per operation and all data. Missing because false: validity without error (rounding_cuts_off). Overflow and underflow are not modelled."
  }
 ]
}