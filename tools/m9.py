import json
M=[]
def a(f,d,o,n,c): M.append(dict(file=f,**{'def':d},old=o,new=n,claim=c))
for l in open('m8.out'):
    r=json.loads(l)
    if r['result']=='ok': a(r['file'],r['def'],r['old'],r['new'],r['claim']+' [rerun]')
T='Target.lean'
a(T,'addObj','o.set e.1 (o.getD e.1 0 + e.2)','o.set e.1 e.2','C100: coefficient set, not added')
a(T,'addObj','(o.getD e.1 0 + e.2)) obj','(o.getD e.1 0 - e.2)) obj','C100: wrong sign')
a(T,'clearObj','| [] => constObj obj.length 0','| [] => obj','C100: empty vector leaves objective')
a(T,'clearObj','o.set e.1 0) obj','o.set e.1 1) obj','C100: objective not cleared')
a(T,'attempt','| none => .exit','| none => .undef','kind of failure')
a(T,'TSt.after','cur := if st.g.reachedCutLimit then st.cur else s.sol?','cur := s.sol?','C101: solution recorded though nothing was solved')
a(T,'TSt.after','pCuts := st.pCuts + r.cuts','pCuts := st.pCuts','C101: own counter of cuts not increased')
a(T,'TSt.after','pFails := st.pFails + r.fails','pFails := st.pFails','C102: failures not counted')
a(T,'Ret.fails','| .num (_ + 1) => 0\n  | _ => 1','| .num _ => 0\n  | _ => 1','C102: failure without code not counted')
a(T,'bumpTight','if t ≥ 0 then t + 1 else t - 1','t + 1','C106: marked row loses its mark')
a(T,'bumpTight','if t ≥ 0 then t + 1','if t > 0 then t + 1','C106: first tightness counted as negative')
a(T,'rowTight','isVal (L.act k x) (L.rhs k)','isVal (L.act k x) 0','tightness of rows')
a(T,'lbTight','!(isNegInfinity (L.lb.getD j 0)) &&','','lower bound tightness test')
a(T,'ubTight','!(isInfinity (L.ub.getD j 0)) &&','','upper bound tightness test')
a(T,'updateTight','| none => st\n  | some x =>\n    { st with\n      tr','| none => { st with tr := st.tr.map bumpTight }\n  | some x =>\n    { st with\n      tr','counters without solution')
a(T,'updateTight','tr := st.tr.mapIdx fun k t => tightStep (rowTight st.lp.base x k) t','tr := st.tr','C106: rows not updated')
a(T,'updateTight','tl := st.tl.mapIdx fun j t => tightStep (lbTight st.lp.base x j) t','tl := st.tl','column counters not updated')
a(T,'tryOne','.ok (updateTight p.1, p.2)','.ok (p.1, p.2)','C106: counters not updated after an objective')
a(T,'limits','W.timeUp st.tick ||','','C102: time limit ignored')
a(T,'limits','st.g.reachedCutLimit || W.timeUp','W.timeUp','C102: cut limit ignored')
a(T,'limits','W.prlpTimeLimit st.pCuts st.pFails\n\n/-- A limit','W.prlpTimeLimit st.pFails st.pCuts\n\n/-- A limit','C102: arguments swapped')
a(T,'colCands','decide (st.tl.getD j 0 ≥ 0)','decide (st.tl.getD j 0 ≤ 0)','candidates')
a(T,'rowCands','if !(isZero (st.lp.base.act k x - st.lp.base.rhs k)) then','if isZero (st.lp.base.act k x - st.lp.base.rhs k) then','candidates: tight rows')
a(T,'candidates','rowCands st x (v - st.lp.cols)','rowCands st x v','candidates: wrong row index')
a(T,'candidates','if v < st.lp.cols','if v ≤ st.lp.cols','candidates: wrong boundary')
a(T,'candVec','| .ub j => [(j, -1)]','| .ub j => [(j, 1)]','C100: sign of upper bound objective')
a(T,'candVec','| .lb j => [(j, 1)]','| .lb j => [(j, -1)]','C100: sign of lower bound objective')
a(T,'changed','st.tr.getD k 0 ≠ saved.tr.getD k 0','st.tr.getD k 0 = saved.tr.getD k 0','skips wrong candidates')
a(T,'candLoop','if badRet r || limits W st then .ok st.ticked\n    else match cs','if badRet r then .ok st.ticked\n    else match cs','C102: limits not tested between candidates')
a(T,'candLoop','      | [_] => .ok st.ticked\n','','C104?: last candidate tried')
a(T,'candLoop','let st\' := p.1.setObj (clearObj p.1.lp.obj (candVec p.1.lp.base c))','let st\' := p.1','C100: old candidate stays in objective')
a(T,'candLoop','candLoop W heur saved k rest\' p.2 (addCand st\' rest\')','candLoop W heur saved k rest\' p.2 st\'','C100: next candidate not added')
a(T,'TSt.restore','(st.setObj (constObj st.lp.cols 0)).setEq none','st.setObj (constObj st.lp.cols 0)','C100: row stays an equation')
a(T,'TSt.restore','(st.setObj (constObj st.lp.cols 0)).setEq none','st.setEq none','C100: objective not zeroed')
a(T,'findMore','st.setEq (some row)','st.setEq (some 0)','C100: wrong row')
a(T,'findMore','(maxObj - 1).toNat cs','maxObj.toNat cs','C104: one objective too many')
a(T,'findCont','if badRet r || limits W st then .ok st.ticked\n  else match st.ticked.cur','if badRet r then .ok st.ticked\n  else match st.ticked.cur','C102: limit not tested')
a(T,'findCont','decide (maxObj ≤ 1)','decide (maxObj ≤ 0)','C104')
a(T,'findCont','!(rowTight st.lp.base x row) ||','','C100/C106: row that is not tight becomes an equation')
a(T,'findCuts','(p.1.setObj (clearObj p.1.lp.obj v))','p.1','C100: first objective stays')
a(T,'gomoryLoop','let st := { st with n := st.n + 1, cur := s.sol? }','let st := { st with n := st.n + 1 }','C105: the solution of the presolve is not the current one')
a(T,'gomoryLoop','if st.g.reachedCutLimit ||\n        reached','if reached','C102')
a(T,'gomoryLoop','(attempt W .ITER_BILINEAR st).bind fun p =>\n            match p.2 with\n            | .fail _ => .ok p.1','(attempt W .ALL_ONES st).bind fun p =>\n            match p.2 with\n            | .fail _ => .ok p.1','C100: label')
a(T,'iterate','if W.useIterBilinear = 1 then .ok p.1\n          else gomoryLoop W (W.useIterBilinear - 1)','if W.useIterBilinear = 1 then .ok p.1\n          else gomoryLoop W W.useIterBilinear','C104: one iteration too many')
a(T,'iterate','if st.g.reachedCutLimit || decide','if decide','C102?: limit at start of iterations')
a(T,'pointRows','!(isZero (L.rhs k))','isZero (L.rhs k)','C106: points and rays swapped')
a(T,'rayRows','fun k => isZero (L.rhs k)','fun k => !(isZero (L.rhs k))','C100: rays are points')
a(T,'ceilSqrt','else Nat.sqrt n + 1','else Nat.sqrt n','C104: rounding')
a(T,'maxObjPerPoint','-1 * (-2) * cutLimit','2','C104')
a(T,'maxRays','-1 * W.useTightRays * ceilSqrt (rayRows L).length','-1 * W.useTightRays','C104: budget of rays')
a(T,'maxUnits','min L.nz.length W.useUnitVectors','W.useUnitVectors','C104: budget of unit vectors')
a(T,'maxUnits','ceilSqrt W.numCols','ceilSqrt L.nz.length','C104: budget of unit vectors relative to columns')
a(T,'Phase.next','if q.2 then .ok q else f q.1','f q.1','C102: goes on after abandon')
a(T,'abandonTest','badRet st.rc || limits W st)','badRet st.rc)','C102')
a(T,'phaseAllOnes','(st.setObj (constObj st.lp.cols 1))','(st.setObj (constObj st.lp.cols 0))','C100: all ones')
a(T,'phaseAllOnes','{ p.1.setObj (constObj p.1.lp.cols 0) with rc := p.2 }','{ p.1 with rc := p.2 }','C100: ones stay')
a(T,'phaseGomory','abandonTest W (st.setObj (constObj st.lp.cols 0))','abandonTest W st','C100: Gomory objective stays')
a(T,'resetSolver','.map fun _ => constObj st.lp.cols 0','','C101?: solution after reset')
a(T,'phaseDisjLB','if W.useDisjLB > 0 then','if W.useDisjLB ≥ 0 then','C104')
a(T,'phaseDisjLB','findCuts W .DISJ_LB','findCuts W .TIGHT_POINTS','C100: label')
a(T,'pointsLoop','if (tried : ℤ) ≥ W.useTightPoints then .ok (st.ticked, false, tried)','if (tried : ℤ) > W.useTightPoints then .ok (st.ticked, false, tried)','C104: one point too many')
a(T,'pointsLoop','else if st.tr.getD k 0 ≠ 0 then pointsLoop','else if st.tr.getD k 0 < 0 then pointsLoop','C106: tight points tried')
a(T,'pointsLoop','pointsLoop W maxObj ks (tried + 1) st','pointsLoop W maxObj ks tried st','C104: number of points not counted')
a(T,'middlePoints','(ps.drop 1).dropLast','ps.drop 1','C106: boundary')
a(T,'newLower','(List.zipWith (· * ·) p.obj x).sum','0','bound after unit vector')
a(T,'newLower','if greaterThanVal (x.getD j 0) (p.base.lb.getD j 0)','if lessThanVal (x.getD j 0) (p.base.lb.getD j 0)','C103: bound')
a(T,'tryUnit','st.lp.obj.set j 1','st.lp.obj.set j (-1)','C100')
a(T,'tryUnit','.ok (st.setObj (st.lp.obj.set j 0))','.ok st','C100: unit vector stays')
a(T,'unitsLoop','if (tried : ℤ) ≥ max then .ok (st, false)\n    else if badRet','if (tried : ℤ) > max then .ok (st, false)\n    else if badRet','C104')
a(T,'unitsLoop','else if st.tl.getD j 0 ≠ 0 then unitsLoop','else if st.tl.getD j 0 = 0 then unitsLoop','C106')
a(T,'markRay','((tr.getD k 0 + 1) * -1)','(tr.getD k 0 + 1)','rays that failed are tried again')
a(T,'tryRay','clearObj st.lp.obj (st.lp.base.vec k)','st.lp.obj','C100: ray stays')
a(T,'raysLoop','raysLoop W max ks (tried + 1) st','raysLoop W max ks tried st','C104')
a(T,'raysLoop','tryRay W .TIGHT_RAYS true','tryRay W .TIGHT_RAYS false','failed rays not marked')
a(T,'points2Loop','else if st.tr.getD k 0 < 0 then points2Loop','else if st.tr.getD k 0 ≤ 0 then points2Loop','C106')
a(T,'points2Loop','else if k = first then points2Loop W first maxObj ks tried st.ticked\n    ','','C106: first point again')
a(T,'phasePoints2','points2Loop W first maxObj ps tried st','points2Loop W first maxObj ps 0 st','C104: second round starts from zero')
a(T,'rays2Loop','if st.tr.getD k 0 < 0 then rays2Loop','if st.tr.getD k 0 > 0 then rays2Loop','rays')
a(T,'phaseRays2','rays2Loop W max rs tried st','rays2Loop W max rs 0 st','C104: budget')
a(T,'phasesPoints','| [] => .undef','| [] => .ok (st, false)','C106: no points')
a(T,'phasesPoints','if q.2.1 then .ok (q.1, true) else phasesLate','if q.2.1 then .ok (q.1, true) else if q.2.2 = 0 then .ok (q.1, true) else phasesLate','C106: stops if no point was tried')
a(T,'targetCuts','if g.reachedCutLimit || W.timeUp 0 then','if g.reachedCutLimit then','C102')
a(T,'targetCuts','(maxObjPerPoint g.cutLimit)','(g.cutLimit)','C104')
P='Prep.lean'
a(P,'Inst.minimise','cost := I.cost.map (-1 * ·)','cost := I.cost','C98: cost not negated')
a(P,'Inst.minimise','offset := -1 * I.offset','offset := I.offset','C98: offset')
a(P,'Inst.minimise','{ I with sense := 1, cost','{ I with cost','C98: sense')
a(P,'MRow.rightHandSide','r.ub.getD (r.lb.getD 0)','r.lb.getD (r.ub.getD 0)','C99: rhs')
a(P,'countDiff','if a.length = b.length then','if a.length ≠ b.length then','C99')
a(P,'presolveDiff','+ countDiff sameBound I.relax.hi J.relax.hi','','C99: upper bounds')
a(P,'cleanLoop','if s.clean then .ok (s.bs, nb + s.numBounds, sb + s.numSB)','if s.clean then .ok (s.bs, nb, sb)','C99: last call not counted')
a(P,'cleanLoop','if s.clean then .ok (s.bs,','if s.clean then .ok (P,','C98: last call dropped')
a(P,'readBack','if useBB strategy .gurobi && !w.hasGurobi then .exit','if useBB strategy .gurobi && !w.hasGurobi then .ok (w.leftover.getD Inst.empty)','C98: missing presolver')
a(P,'wasCleaned','decide (sb > 0) || decide (nb > 0) ||','decide (sb > 0) ||','C99')
a(P,'wasCleaned',' || decide (cleaned.nnz ≠ orig.nnz)','','C99')
a(P,'customClean','if mode > 1 then','if mode ≥ 1 then','C98: mode')
a(P,'customClean','if r.2.1 > 0 ∨ r.2.2 > 0 then','if r.2.1 > 0 then','C99: LP value not updated')
a(P,'customClean','cleanLoop I w.clean 5 0','cleanLoop I w.clean 6 0','number of calls')
a(P,'cleanedTests','else if cleaned.nnz = 0 then .ok {}','else if cleaned.nnz = 0 then .ok origBB','C99: empty instance')
a(P,'performCleaning','(presolveDiff orig I0)','(presolveDiff orig I0.minimise)','equivalent?')
a(P,'performCleaning','if c.1.nnz > 0 then c.2.2.2 else ipObj','c.2.2.2','C99: value of empty instance')
json.dump(M,open('m9.json','w'))
for m in M:
    s=open('/verif/lean/Verif/Model/'+m['file']).read()
    if s.count(m['old'])!=1: print(s.count(m['old']),m['def'],m['old'][:70])
print(len(M))
