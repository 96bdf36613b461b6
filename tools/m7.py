import json
M=[]
def a(f,d,o,n,c): M.append(dict(file=f,**{'def':d},old=o,new=n,claim=c))
# re-runs of survivors
seen=set()
for k in range(1,7):
    for l in open(f'm{k}.out'):
        r=json.loads(l)
        if r['result']=='ok': a(r['file'],r['def'],r['old'],r['new'],r['claim']+' [rerun]')
# ambiguous
a('NBSpace.lean','packCoor','    mergeTiny (tiny.map (·.1)) kept nonTiny\n  else nonTiny','    nonTiny\n  else nonTiny','C38: tiny coefficients lost')
a('NBSpace.lean','packRay','((mergeTiny (tiny.map (·.1)) kept nonTiny).map fun','(nonTiny.map fun','C46: tiny coefficients lost in rays')
a('PRLP.lean','scaledRhs','then r.rhs * scale else','then r.rhs else','C47: rhs not scaled')
a('PRLP.lean','prlpSetup rows','(compress r.vec, r.rhs * scale)','(compress r.vec, r.rhs)','C47: rhs not scaled')
a('GenCut.lean','noCutsObj','def noCutsObj (few : ℚ) : ℤ := ⌈1 / (1 - few)⌉','def noCutsObj (few : ℚ) : ℤ := ⌊1 / (1 - few)⌋','C13')
a('Params.lean','IntP.set','def IntP.set (p : IntP) (v : Int) : Option IntP :=\n  let q := { p with val := v }\n  if q.ok','def IntP.set (p : IntP) (v : Int) : Option IntP :=\n  let q := { p with val := v }\n  if p.ok','C19: old value checked')
a('Params.lean','DblP.set','def DblP.set (p : DblP) (v : ℚ) : Option DblP :=\n  let q := { p with val := v }\n  if q.ok then some q else none','def DblP.set (p : DblP) (v : ℚ) : Option DblP :=\n  let q := { p with val := v }\n  some q','C19: not checked')
a('Params.lean','enableBB','def enableBB (s : BitVec 32) (o : BBOpt) : BitVec 32 := s ||| o.val','def enableBB (s : BitVec 32) (o : BBOpt) : BitVec 32 := s ^^^ o.val','C21: toggles')
a('Params.lean','enableTemp','def enableTemp (s : BitVec 32) (o : TempOpt) : BitVec 32 := s ||| o.val','def enableTemp (s : BitVec 32) (o : TempOpt) : BitVec 32 := s &&& o.val','C21: clears')
a('SolverOps.lean','isNonBasicUBCol','decide (s = .atUpperBound) || (decide (s = .isFixed) && lessThanVal reducedCost 0)','decide (s = .atLowerBound) || (decide (s = .isFixed) && lessThanVal reducedCost 0)','C44')
a('SolverOps.lean','isNonBasicUBSlack','decide (s = .atLowerBound) || (decide (s = .isFixed) && greaterThanVal rowPrice 0)','decide (s = .atUpperBound) || (decide (s = .isFixed) && greaterThanVal rowPrice 0)','C44')
a('Own.lean','Vsi.takeDisj','| some _ => (h.free v.disj).bind fun h1','| some _ => (Res.ok h).bind fun h1','C27: leak of the old disjunction')
a('Own.lean','Vsi.free','(h.free v.disj).bind fun h =>\n','(Res.ok h).bind fun h =>\n','C27: leak of the disjunction')
# Collect
C='Collect.lean'
a(C,'pointRatio','then 10 ^ 100','then 1','C70/C46: opposite signs accepted for points')
a(C,'pointRatio','if got / viol < 1 then viol / got','if got / viol > 1 then viol / got','ratio inverted')
a(C,'pointCheckExits','&& greaterThanVal (pointRatio E.EPS got viol) (103 / 100)','&& greaterThanVal (pointRatio E.EPS got viol) 0','always exits')
a(C,'collectPoint','let viol := s.obj - o.obj','let viol := o.obj - s.obj','C03: sign of the objective violation')
a(C,'collectPoint','setCompNBCoorPoint E.sortDecr E.EPS viol o.lp o.sol s.x','setCompNBCoorPoint E.sortDecr E.EPS viol o.lp s.x o.sol','C03: points swapped')
a(C,'rayVals','rayCoor j k (s.isUB j) (o.isUB k)','rayCoor j k (o.isUB k) (s.isUB j)','C03: bound tests swapped')
a(C,'rayVals','genRay (s.isLB j) (s.tab j)','genRay (!s.isLB j) (s.tab j)','C03: ray direction')
a(C,'collectRay','dotRC o.rc p.1 / p.2','dotRC o.rc p.1','check forgets scale')
a(C,'collectRays','if s.isFixed j then collectRays E o s js','if s.isUB j then collectRays E o s js','C03: upper-bound variables skipped')
a(C,'genDepth1','.ok (.collected p.1 p.2 rs)','.ok (.collected p.1 p.2 [])','C03: rays dropped')
a(C,'LPAns.check','| .dualInfeasible => .exit','| .dualInfeasible => .ok none','C56: unbounded term dropped')
a(C,'termLP','.ok (applyIneqs t.ineqs Q)','.ok Q','C03/C29: inequalities of the term')
a(C,'savedRatio','if new / saved < 1 then 1 / (new / saved) else','if new / saved < 1 then new / saved else','C70')
a(C,'savedObjExits','if isInfinity saved then false\n  else if isVal new saved DIFFEPS then false','if isVal new saved DIFFEPS then false\n  else if isInfinity saved then true','C70: infinite saved value')
a(C,'strengthenTerm','(w.solve2 (applyIneqs (w.gmics Q) Q)).check','(w.solve2 Q).check','strengthening cuts not applied')
a(C,'finishTerm','| none => .ok (none, { t with feasible := false }, .notOptimal)','| none => .ok (none, t, .notOptimal)','feasibility flag')
a(C,'finishTerm','if w.timeUp then .ok (some s.obj, t, .timeLimit)','if w.timeUp then .ok (some s.obj, t, .notOptimal)','C03: time limit treated as infeasible')
a(C,'doTerm','if !t.feasible then .ok (none, t, .infeasible)','if t.feasible then .ok (none, t, .infeasible)','C03: feasible terms skipped')
a(C,'doTerm','if !w.warmOk then .exit','if w.warmOk then .exit','warm start')
a(C,'doTerm','if savedObjExits E.DIFFEPS t.obj s.obj then .exit','if savedObjExits E.DIFFEPS s.obj t.obj then .exit','C70: swapped')
a(C,'doTerms','(doTerm E o strengthen V (w k) t)','(doTerm E o strengthen V (w 0) t)','C03: answers of the first term')
a(C,'doTerms','.ok (r.1.toList ++ rs.1, r.2.1 :: rs.2.1, r.2.2 :: rs.2.2)','.ok (r.1.toList ++ rs.1, r.2.1 :: rs.2.1, rs.2.2)','C03: outcome of a term lost')
a(C,'doTerms','.ok (r.1.toList ++ rs.1,','.ok (rs.1,','objective of a term not reported')
a(C,'collectInt','if sol = [] then .ok (none, [])','if sol ≠ [] then .ok (none, [])','C03: integer solution ignored')
a(C,'collectInt','let viol := dot x - dot o.sol','let viol := dot x','C03')
a(C,'collectInt','[dot x - offset]','[dot x + offset]','offset of reported value')
a(C,'setupAll','(p.2 ++ r.1).foldl Disj.updateObj','r.1.foldl Disj.updateObj','C28: integer solution not in best objective')
a(C,'rootCutOf','mult * c.value⟩','c.value⟩','C69: rhs sign')
a(C,'rootCutOf','if c.bound ≤ 0 then 1 else -1','if c.bound ≤ 0 then -1 else 1','C69: side')
a(C,'rootBounds','if limit s.cuts.length then .ok (true, s)\n    else (applyChange','if limit s.cuts.length then .ok (false, s)\n    else (applyChange','C69: limit not reported')
a(C,'rootBounds','if bad (rootCutOf c) then s.cuts else s.cuts ++ [rootCutOf c]⟩','if bad (rootCutOf c) then s.cuts ++ [rootCutOf c] else s.cuts⟩','C69')
a(C,'rootIneqs','rootIneqs limit bad cs ⟨applyIneqs [c] s.V, if','rootIneqs limit bad cs ⟨s.V, if','C69: inequality not added')
a(C,'rootObjExits','if D.commonIneqs = [] then','if D.commonIneqs ≠ [] then','C70')
a(C,'rootObjExits','if isInfinity D.rootObj then new else D.rootObj','D.rootObj','C70: infinite root value')
a(C,'rootChanges','| none => .exit','| none => .ok r','not optimal after root changes')
a(C,'rootChanges','(rootBounds limit bad D.common ⟨P, []⟩)','(rootBounds limit bad [] ⟨P, []⟩)','C69: common bounds not applied')
# PrlpTime
T='PrlpTime.lean'
a(T,'prlpInitLimit','min TIMELIMIT (max 60 (10 * tl))','max 60 (10 * tl)','C76: ignores total limit')
a(T,'prlpLimitAfter','max 5 dur','min 5 dur','C76')
a(T,'prlpLimitAfter','if isVal tl (-1) then','if isVal tl 1 then','C76')
a(T,'prlpSetupExit','if a.primalInf && !a.abandoned then (.PRLP_INFEASIBLE,','if a.primalInf && !a.abandoned then (.SUCCESS,','C75')
a(T,'prlpSetupExit','!(lessThanVal a.dur maxTime)','lessThanVal a.dur maxTime','C75')
a(T,'prlpSetupExit','a.iterLimit || a.hitMax then (.PRLP_NUMERICAL_ISSUES, some .NUMERICAL_ISSUES_NO_OBJ)','a.iterLimit || a.hitMax then (.PRLP_NUMERICAL_ISSUES, some .UNKNOWN)','C75: counter')
json.dump(M,open('m7.json','w'))
print(len(M))
