# automatic mutants that survived: theorems added (AT) or why the program is not wrong (AN)
AT={'coinIntMax':['better_before_any_int','better_before_int_max'],'takeFirst':['choose_first_down'],'expensive':['infeasible_side_estimate'],
'rootObjExits':['rootObj_unchecked']}
AN={'saveFromStats':'the index only names the answers of the LP solver for the node; the theorems hold for all answers',
'keepActive':'the index only names the answers of the LP solver for the node; the theorems hold for all answers',
'prunedStat':'the field is never read for pruned nodes: the edited program behaves the same',
'fracViol':'at a fraction of exactly 1/2 only the sign differs and only the absolute value is compared with a tolerance: same behaviour',
'checkRows':'the row number is only tested for being nonnegative: same behaviour',
'rowBad':'rows are examined only when the first column already failed (rows_never_checked), and the process ends either way'}
T.update({'mainCfg':['run_cuts'],'modeOf':['mode_numbers'],'roundZero':['round_table'],'svDens':['round_density_value'],'roundDensity':['round_density_value'],'mergedTimers':['generator_times']})
NOTE.update({'cutPhase':'the changed branch is unreachable (error_never_reported): same behaviour'})

AT.update({'runSeed':['runSeed_undef_iff']})
AN.update({'updateCutInfo':'the edit only inserts an identity function: same behaviour'})
T.update({'cpxWrite':['cpx_objective_constant']})
NOTE.update({'cpxColEnd':'for the last column both expressions give the number of nonzeros in the model, whose array of starts has no end; same behaviour','cpxRval':'the changed branch is unreachable (copyCpxCols_eq): same behaviour'})
AT.update({'Gen.startRound':['early_reason']})
AN.update({'objectiveCut':'the edit only inserts an identity function: same behaviour'})
AT.update({'gtLo':['clean_lower_from_lp'],'ltHi':['clean_upper_from_lp']})
AT.update({'rootCut':['one_sided_record']})
NOTE.update({'orthoBelow':'the smallest orthogonality is never NaN (minPar_number): same behaviour'})
AN.update({'density':'the edit only inserts an identity function: same behaviour'})
AT.update({'prepBlocks':['prep_title_shifted']})
AT.update({'cpxColEnd':['beg_eq','cpxColEnd_eq'],'Extra.isTree':['isTree_iff','assign_class_mismatch'],'OsiRow.rhs':['osiRow_rhs_cases']})
AT.update({'runProblem':['rows_permuted'],'factorText':['factorText_empty_iff'],'gomoryLoop':['gomoryLoop_next']})
AT.update({'packRay':['packRay_scale','scaleExp_centres']})
T.update({"createTmpFilename":["tmpCopyModel_tmp"],"tmpCopyOsi":["tmpCopyOsi_named"]})
AT.update({'longMax':['parseLong_accepts_iff']})
T.update({'hitTimeLimit':['lpParameters_spec']})
T.update({'setInsert':['setInsert_spec']})
T.update({'strongLoop':['strong_time']})
AT.update({'Solve.isOptimal':['exitGenCut_exit_iff']})
AN.update({'phaseUnits':'with a limit of 0 the loop returns at once: same behaviour'})
AN.update({'orthoBelow':'the smallest orthogonality is never NaN (minPar_number): same behaviour','Inst.empty':'an instance without columns has no column to be integer: same behaviour'})
AT.update({'unitsLoop':['units_abandon','late_abandon'],'raysLoop':['rays_abandon'],'pointsLoop':['points_abandon'],'points2Loop':['points2_abandon'],'rays2Loop':['rays2_abandon']})
AT.update({'Params.setByName':['setByName_flag'],'countDiff':['presolveDiff_other'],'parseLong':['parseLong_accepts_iff']})
AN.update({'insertName':'k ≠ nm in this branch, so < and ≤ agree','updateStatsBeforeFinalize':'size ≠ 0 there, 0 ≤ size and 1 ≤ size agree','findCont':'with maxObj = 1 the candidate loop makes 0 passes and restores objective and row: same state at rest','changed':'candidate indices are in range, default never used'})
AT.update({'nodeStat':['nodeStat_child'],'resetSolver':['resetSolver_solve']})
AT.update({'Params.getS':['getS_setS'],'copyTypes':['copyTypes_ok_iff']})

AT.update({'resolveLoop':['resolveLoop_once']})
NOTE.update({'vpcTimeNames':'the two numbers exchanged are never used by the generator and all timers are registered in any order: same behaviour'})
AT.update({'sideEstimate':['sideEstimate_few']})
AT.update({'TSt.ticked':['time_limit_stops_partial'],'customLoop':['customRound_objs']})
AT.update({'chooseDisj':['disjunctions_used']})
AN.update({'toMinimization':'the sense is 1 or -1 in every Osi solver; for these the edited program does the same','repairedStat':'the entry of a child taken for pruned already holds that branch index (missedStat): same behaviour'})
NOTE.update({'repairedStat':'the entry of a child taken for pruned already holds that branch index (missedStat): same behaviour'})
