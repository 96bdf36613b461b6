import json
M=[]
def m(file,d,old,new,claim): M.append(dict(file=file+'.lean',**{'def':d},old=old,new=new,claim=claim))
f='PRLP'
m(f,'termRows','((rays.filter fun r => !r.1.isEmpty).map fun r => ⟨r.1, 0, r.2⟩)','((rays.filter fun r => r.1.length > 1).map fun r => ⟨r.1, 0, r.2⟩)','C02/C03: singleton rays dropped from the collection')
m(f,'termRows','((rays.filter fun r => !r.1.isEmpty).map fun r => ⟨r.1, 0, r.2⟩)','((rays.filter fun r => !r.1.isEmpty).map fun r => ⟨r.1, 1, r.2⟩)','C02: rays get the rhs of points')
m(f,'setupConstraints','| none => []) ++ terms.flatMap (termRows flip)','| none => []) ++ (terms.drop 1).flatMap (termRows flip)','C03: the first term is skipped')
m(f,'setupConstraints','| some p => [⟨p.1, 1, p.2⟩]','| some _ => []','C03: integer solution not entered in the collection')
m(f,'singletonBound','some (if st.ub var > rhs / coeff then\n        { st with ub','some (if st.ub var < rhs / coeff then\n        { st with ub','C02/C10: singleton upper bound kept at the weaker value')
m(f,'singletonBound','if st.lb var < 0 then { st with lb := fun k => if k = var then 0','if st.lb var < 0 then { st with ub := fun k => if k = var then 0','C02: wrong bound set for a singleton ray')
m(f,'singletonBound','{ st with lb := fun k => if k = var then rhs / coeff else st.lb k }','{ st with lb := fun k => if k = var then rhs * coeff else st.lb k }','C02: rhs not divided')
m(f,'scaledRhs','r.rhs * scale','r.rhs','C02: singleton bound not scaled')
m(f,'setupRow','if r.vec.length > 1 || !(isZero rhs) then','if r.vec.length > 1 then','C02: singleton points not kept as rows')
m(f,'setupRow','if r.vec.length > 1 || !(isZero rhs) then','if r.vec.length > 2 || !(isZero rhs) then','C02: rays with two entries lost')
m(f,'rhsLineUp','(greaterThanVal r1.rhs 0 && greaterThanVal r2.rhs 0) || (lessThanVal r1.rhs 0 && lessThanVal r2.rhs 0)','true','C10: constants need not line up')
m(f,'dupInner','if d = -1 then (true, (r2, true) :: t)','if d = 1 then (true, (r2, true) :: t)','C10: dominating row removed')
m(f,'dupInner','else if d ≠ 2 then (true, (r2, false) :: t)','else if d = 2 then (true, (r2, false) :: t)','C10: different rows removed')
m(f,'dupInner','if !(isVal r1.depth r2.depth) then (false','if !(isVal r1.depth r2.depth) then (true','C10: row with other depth removed')
m(f,'dupInner','if d = -1 then (true, (r2, true) :: t)','if d = -1 then (false, (r2, true) :: t)','C10: (benign or not) keeps r1 when it dominates - actually fixes the bug; claim not broken')
m(f,'retained','.filter fun p => !p.2','.filter fun p => p.2','C10: removed rows kept and vice versa')
m(f,'keepCol','!ignoreLb || !ignoreUb','!ignoreLb && !ignoreUb','C02: column with one finite bound deleted')
m(f,'prlpSetup','rows := pts.map (fun r => (compress r.vec, r.rhs * scale))','rows := pts.map (fun r => (compress r.vec, r.rhs))','C02: rhs of points not scaled')
m(f,'prlpSetup','let rays := retained false DIFFEPS (sortP st.rays)','let rays := retained true DIFFEPS (sortP st.rays)','C10: duplicates of rays treated as points')
m(f,'prlpSetup','ub := nz.map st.ub','ub := nz.map st.lb','C02: wrong upper bounds')
m(f,'prlpSetup','++ rays.map (fun r => (compress r.vec, r.rhs)) }','}','C02: rays lost')
f='GenCut'
m(f,'matchStatus','else if s = .TOO_FEW_TERMS then .TOO_FEW_TERMS','else if s = .TOO_FEW_TERMS then .NO_DISJUNCTION','C14: two statuses mapped to the same reason')
m(f,'getCutLimit','else if CUTLIMIT > 0 then CUTLIMIT','else if CUTLIMIT > 0 then CUTLIMIT + 1','C41: positive limit changed')
m(f,'getCutLimit','-1 * CUTLIMIT * numFracVar','CUTLIMIT * numFracVar','C41: sign of relative limit')
m(f,'reachedLimit','num ≥ limit','num > limit','C12: off by one')
m(f,'Gen.reachedForDisj','(g.disjID.take g.numCuts).count d','(g.disjID.take g.numCuts).length','C12: (stricter) counts all disjunctions')
m(f,'Gen.reachedForDisj','(g.disjID.take g.numCuts).count d','(g.disjID.take (g.numCuts - 1)).count d','C12: last cut not counted')
m(f,'Gen.reachedCutLimit','if g.perDisj then g.reachedForDisj g.currDisj else','if !g.perDisj then g.reachedForDisj g.currDisj else','C12: scopes swapped')
m(f,'Gen.addCut','numCuts := g.numCuts + 1 }','numCuts := g.numCuts }','C11: number of cuts not updated')
m(f,'Gen.addCut','disjID := g.disjID ++ [disj]','disjID := disj :: g.disjID','C11: disjunction recorded for the wrong cut')
m(f,'Gen.addCut','numCutsOfType := bump g.numCutsOfType ty 1','numCutsOfType := g.numCutsOfType','C11: type counter not updated')
m(f,'Gen.replaceCut','(bump g.numCutsOfType (g.cutType.getD pos .VPC) (-1)) .VPC 1','g.numCutsOfType .VPC 1','C11: old type not decremented')
m(f,'Gen.replaceCut','cuts := g.cuts.set k c }','cuts := g.cuts.set pos c }','C11/C50: wrong cut replaced')
m(f,'genCutHelper','let start := if g.canReplace then 0 else g.initNumCuts','let start := 0','C50: cuts given by the caller replaced')
m(f,'genCutHelper','| some f => (g, .fail f.toFail)','| some f => (g, .num 0)','C11: failure of cleaning not reported')
m(f,'genCutHelper','if g.reachedCutLimit then (g, .fail .CUT_LIMIT)\n  else\n    let cc','if false then (g, .fail .CUT_LIMIT)\n  else\n    let cc','C12: (redundant check) limit ignored in helper')
m(f,'exitGenCut','| .num (_ + 1) => g\n','| .num _ => g\n','C11: tries without a cut not counted as failures')
m(f,'exitGenCut','numFailsFromHeur := bump g.numFailsFromHeur heur 1 }','numFailsFromHeur := g.numFailsFromHeur }','C11: failures per heuristic not counted')
m(f,'exitGenCut','| .fail f => { g with numFails := bump g.numFails f 1 }','| .fail f => { g with numFails := bump g.numFails f 2 }','C11: reason counted twice')
m(f,'genCut','numObj := g.numObj + 1,','numObj := g.numObj,','C11: objectives not counted')
m(f,'genCut','if g.reachedCutLimit then exitGenCut','if false then exitGenCut','C12: (redundant check) limit ignored in genCut')
m(f,'sameSolution','isZero ((List.zipWith','!isZero ((List.zipWith','C11?: duplicate test inverted')
m(f,'rootCut','if g.reachedCutLimit then g\n','if false then g\n','C12: limit ignored for root cuts')
m(f,'rootCut','.ONE_SIDED_CUT .ONE_SIDED g.currDisj','.ONE_SIDED_CUT .ONE_SIDED 0','C12: root cut recorded for disjunction 0')
m(f,'Gen.setupAsNew','numFailures := 0','numFailures := g.numFailures','C11: failures of the previous round carried over')
m(f,'Gen.setupAsNew','disjID := if g.repeatedUse then g.disjID else []','disjID := g.disjID','C11/C12: disjunction ids carried over')
m(f,'Gen.setupAsNew','userObjectives := [] }','userObjectives := g.userObjectives }','C49: (fix) user objectives kept')
m(f,'Gen.startRound','else if g1.reachedCutLimit then .early g1 (if numFrac0 > 0 then .CUT_LIMIT else .NO_DISJUNCTION)\n','','C12: no early exit')
m(f,'failRatioReached','else if cuts < 1 ∧ (tried : ℤ) ≥ noCutsObj few then true','else if cuts < 1 ∧ (tried : ℤ) > noCutsObj few then true','C13: off by one in hopeless runs')
m(f,'failRatioReached','else if cuts ≥ 1 ∧ greaterThanVal ratio few then true','else if cuts ≥ 1 ∧ greaterThanVal ratio many then true','C13: runs with some success stopped too early')
m(f,'manyCuts','⌈(1 / 4 : ℚ) * L⌉','⌊(1 / 4 : ℚ) * L⌋','C13: rounding of MANY_CUTS')
m(f,'noCutsObj','⌈1 / (1 - few)⌉','⌊1 / (1 - few)⌋','C13: rounding of NO_CUTS_OBJ_LIMIT')
m(f,'reachedFailureLimit','decide (time > 10)','decide (time > 0)','C13: time threshold')
m(f,'objectiveCut','lb := integerObj + offset','lb := integerObj','C48: offset ignored')
m(f,'objectiveCut','if !(isVal (obj i) EPS) then','if !(isZero (obj i) EPS) then','C48: (fix of the bug)')
json.dump(M,open('/tmp/w/m2.json','w'))
