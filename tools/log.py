import json,os
# definition -> theorems added/strengthened because the mutant survived
T={'setupConstraints':['intSol_valid_partial'],'sameSolution':['sameSolution_iff'],
'reachedFailureLimit':['failure_limit_complete','successful_stopped_only_if_slow'],
'intDefaults':['documented_accepted_partial','undocumented_rejected_partial'],
'cliStep':['cli_switch_rejects'],'tempValidate':['cli_temp_partial'],
'ownFlag':['set_disjunction_mode'],'fractionality':['split_choice','split_none_iff'],'fracCore':['split_choice','split_none_iff'],
'Split.setupAsNew':['split_reset_keeps_variable'],
'bndDiffers':['bb_terms_are_leaves'],'pbbFinish':['pbb_outcome'],
'clipLo':['checkCols_values'],'roundInt':['checkCols_values'],'checkSolution':['incumbent_objective'],
'chooseDisj':['pbb_disjunction_made_iff'],'prepStatus':['reason_of_preparation'],'addObjCut':['attribution_partial'],
'disjPass':['failed_setup_reported'],'customRound':['custom_round_exits'],'roundGmics':['gmics_iff']}
T.update({'updateGMICInfo':['gmic_update'],'mergeCounts':['update_accumulates'],'mergeHeur':['update_accumulates'],'mergeTypes':['update_accumulates'],
'updateCutInfo':['update_accumulates'],'resetCutInfo':['merge_of_nothing'],'setCutInfo':['merge_of_nothing'],'resizeActive':['active_by_objective_added'],
'pickSolver':['solver_run'],'gurobiCheckExits':['no_cuts_no_exit'],'sv':['sv_spec'],'svI':['svI_spec'],'svN':['nan_printed_as_inf'],
'attempt':['target_defined'],'bumpTight':['tight_counters','marked_rays_skipped'],'ubTight':['tight_counters'],'colCands':['candidates_spec'],
'maxRays':['ray_and_unit_budgets'],'maxUnits':['ray_and_unit_budgets'],'resetSolver':['reset_forgets'],'points2Loop':['second_round_points'],
'MRow.rightHandSide':['prep_reuse_partial'],'readBack':['prep_reads']})
T.update({'pointRatio':['point_check_iff','point_opposite_rejected'],'pointCheckExits':['point_check_iff'],'collectRay':['collectRay_iff'],'finishTerm':['finishTerm_iff'],
'collectInt':['collectInt_value'],'setupAll':['setupAll_bounds'],'prlpSetupExit':['prlpSetupExit_fail_iff']})
CHT=['first_direction','doStrong_spec','choose_strong','choose_other','choose_code']
CH=['Cand.way','doStrong','chooseFinish','chooseVariable','fixedSides']
T.update({'stoi':['stoi_range','options_are_ints'],'gomoryRound':['other_gomory_no_cuts'],'boundStop':['round_after'],'OsiRow.rhs':['range_reversed'],'withUserCuts':['user_cuts_bit'],'grbReport':['gurobi_no_pass'],'cpxLate':['cplex_rerun_first_bound']})
T.update({'numText':['numText_frac'],'sumText':['sumText_parts'],'prepareTree':['tree_needs_two'],'wayBefore':['better_before_tie']})
NOTE={'sideEstimate':'at num = trusted the factor is (t+1)/(t+1)=1: equivalent','putAtEnd':'branch proved unreachable by candidate_list','setupEnd':'assert proved to hold always by candidate_list','newBound':'gmic value stays at its initial infinity unless Gomory cuts are made: equivalent','TSt.after':'attempts are only made below the cut limit (tried_only_below_limits), so the edited case never arises','iterate':'the caller has just tested the limit: the edited program behaves the same',
'keepCol':'the two tests are redundant here: the edited program computes the same columns, so no claim becomes false',
'dotStep':'the sign matters only when the additions round; the exact-arithmetic claim stays true of the edited program',
'Mode.perDisj':'that mode ends with exit(1) before the flag is read: the edited program behaves the same',
'Split.setupAsNew':'the edit repairs a defect; at first no theorem pinned the defect'}
exec(open('/tmp/w/auto_t.py').read())
out=[]
n=0
for b in list(range(1,36))+['autoA','autoB0','autoB1','autoC0','autoC1']:
    p=f'/tmp/w/m{b}.out' if isinstance(b,int) else f'/tmp/w/{b}.out'
    if not os.path.exists(p): continue
    for l in open(p):
        r=json.loads(l)
        if r['result'].startswith('old string'): continue
        d=r['def']
        if not isinstance(b,int) and r['result']=='failed' and all(x.split(':',1)[1].split()[0] in ('def','instance','structure','?') for x in r.get('failed',[])): continue
        e=dict(batch=b,definition=d,file='lean/Verif/Model/'+r['file'],edit={'old':r['old'],'new':r['new']},claim=r['claim'],
               theorems_failed=r.get('failed',[]),outcome='killed' if r['result']=='failed' else 'survived',theorems_tightened=[])
        if not isinstance(b,int) and r['result']!='failed':
            e['theorems_tightened']=AT.get(d,[])
            if d in AN: e['note']=AN[d]
            if d=='updateStatsBeforeFinalize' and 'if size = 0' in r['claim']: e.pop('note',None); e['theorems_tightened']=['updateStats_none_iff']
        elif r['result']!='failed':
            t=T.get(d,[])
            if d in CH: t=CHT
            e['theorems_tightened']=t
            if d=='findCont' and 'rowTight' in r['old']: e['theorems_tightened']=['equation_only_when_tight']
            elif d=='findCont' and 'maxObj' in r['old']: e['note']='the number of objectives per point is twice the cut limit, never 1: the edited program behaves the same'
            elif d=='findCont': e['note']='the loop over the candidates repeats the test: the edited program makes the same attempts'
            elif d in NOTE: e['note']=NOTE[d]
        out.append(e)
open('/verif/seeded/LOG.jsonl','w').write(''.join(json.dumps(e)+'\n' for e in out))
print(len(out),sum(e['outcome']=='survived' for e in out),[ (e['batch'],e['definition']) for e in out if e['outcome']=='survived' and not e['theorems_tightened'] and 'note' not in e])
