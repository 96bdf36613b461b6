import json
F='RunTimers.lean'
ms=[]
def m(d,old,new,claim,f=None):
    f=f or F
    ss=open('/verif/lean/Verif/Model/'+f).read()
    assert ss.count(old)==1,(d,old,ss.count(old))
    ms.append({'file':f,'def':d,'old':old,'new':new,'claim':claim})
m('genCutOps','[gStart "PRLP_SOLVE_TIME", gStop "PRLP_SOLVE_TIME"]','[gStart "PRLP_SOLVE_TIME"]','an early return of genCut leaves the timer on; next LP aborts')
m('genCutOps','[gStart "PRLP_SOLVE_TIME", gStop "PRLP_SOLVE_TIME"]','[gStop "PRLP_SOLVE_TIME", gStart "PRLP_SOLVE_TIME"]','stop before start aborts')
m('phaseOps','gStart nm :: (solvesOps k ++ [gStop nm])) ++','gStart nm :: (solvesOps k ++ if p.stop then [] else [gStop nm])) ++','abandoned heuristic leaves its timer on')
m('targetOps','phaseOps "TIGHT_RAYS2_TIME" w.rays2 [])','phaseOps "TIGHT_POINTS2_TIME" w.rays2 [gStart "TIGHT_POINTS2_TIME"])','timer left on')
m('targetOps','phaseOps "UNIT_VECTORS_TIME" w.units','phaseOps "GEN_CUTS_TIME" w.units','timer of the caller started again')
m('prlpSetupOps','[.startIx 4, .stopIx 4] ++','[.startIx 4, .stopIx 5] ++','wrong timer stopped')
m('prlpSetupOps','[.startIx 4, .stopIx 4] ++','[.startIx 2, .stopIx 2] ++','other timer measures the set-up (DISJ_SETUP not 0)')
m('prlpSetupOps','[gStart "DUMMY_OBJ_TIME", gStop "DUMMY_OBJ_TIME"]','[gStart "DUMMY_OBJ_TIME"]','timer left on')
m('tryOps','gStart "GEN_CUTS_TIME" :: (targetOps t ++ [gStop "GEN_CUTS_TIME"])','targetOps t','heuristics outside of GEN_CUTS_TIME')
m('tryOps','gStart "GEN_CUTS_TIME" :: (targetOps t ++ [gStop "GEN_CUTS_TIME"])','gStart "GEN_CUTS_TIME" :: gStop "GEN_CUTS_TIME" :: targetOps t','timer stopped before the search')
m('tryOps','gStart "GEN_CUTS_TIME" :: (targetOps t ++ [gStop "GEN_CUTS_TIME"])','gStart "GEN_CUTS_TIME" :: targetOps t','timer left on')
m('termsOps','gStop "TIME_TYPE1_TOTAL", gStop (t1Name i)]','gStop "TIME_TYPE1_TOTAL"]','timer of the term left on')
m('termsOps','[gStart "TIME_TYPE1_TOTAL", gStart (t1Name i),','[gStart "TOTAL_TIME", gStart (t1Name i),','running timer started')
m('termsOps','[.op (.register (t1Name i) 0), .op (.register (t2Name i) 0)]','[.op (.register (t1Name i) 0), .op (.register "TIME_TYPE1_TOTAL" 0)]','the limit over terms would work')
m('prepOps','| .tree => [gStart "GEN_DISJ_TIME", gStop "GEN_DISJ_TIME"]','| .tree => [gStart "GEN_DISJ_TIME"]','timer left on after a tree')
m('prepOps','if var < 0 ∧ core = 0 then [gStart "GEN_DISJ_TIME"] else','if core = 0 then [gStart "GEN_DISJ_TIME"] else','timer left on for a given variable')
m('prepOps','if var < 0 ∧ core = 0 then [gStart "GEN_DISJ_TIME"] else','if False then [gStart "GEN_DISJ_TIME"] else','the bug is repaired: negation fails')
m('generateOps','[gStop "TOTAL_TIME"])','match w.prep with | none => [] | some _ => [gStop "TOTAL_TIME"])','early return without finish')
m('generateOps','gStart "TOTAL_TIME" ::\n','','never started')
m('roundOps','.startIx 3 ::\n','.startIx 14 ::\n','running total started again')
m('roundOps','(.stopIx 3 :: .startIx 13 ::','(.startIx 13 :: .stopIx 3 ::','application overlaps cut generation: sums exceed the total')
m('roundOps','[.startIx 1, .stopIx 1, .startIx 2, .stopIx 2]','[.startIx 1, .startIx 2, .stopIx 1, .stopIx 2]','Gomory timers overlap')
m('roundOps','[.startIx 5, .stopIx 5]','[.startIx 5]','timer left on: second round aborts')
m('mainOps','(if bb then [.startIx 12, .stopIx 12] else []) ++ [.stopIx 14]','[.stopIx 14] ++ (if bb then [.startIx 12, .stopIx 12] else [])','branch and bound outside of the total')
m('mainOps','| .integral => []','| .integral => [.stopIx 14]','repaired: negation fails')
m('mainOps','| .preprocess => [.stopIx 14, .startIx 14]','| .preprocess => [.stopIx 14, .startIx 14, .stopIx 14]','repaired: negation fails')
m('mainOps','[.startIx 14, .startIx 0, .stopIx 0] ++','[.startIx 0, .startIx 14, .stopIx 0] ++','initial solve outside of the total')
m('vpcTimeNames','"TOTAL_TIME", "INIT_SOLVE_TIME", "DISJ_SETUP_TIME"','"TOTAL_TIME", "DISJ_SETUP_TIME", "INIT_SOLVE_TIME"','order of names differs from the numbers (numbers 1 and 2 are not used in the generator)')
m('vpcTimeNames','"GEN_DISJ_TIME", "PRLP_SETUP_TIME"','"PRLP_SETUP_TIME", "GEN_DISJ_TIME"','order of names differs from the numbers')
m('mainTimeNames','"CUT_TOTAL_TIME", "VPC_GEN_TIME"','"VPC_GEN_TIME", "CUT_TOTAL_TIME"','order of names differs from the numbers')
json.dump(ms,open('m26.json','w'))
print(len(ms))
