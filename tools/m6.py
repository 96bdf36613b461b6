import json
M=[]
def m(file,d,old,new,claim): M.append(dict(file=file+'.lean',**{'def':d},old=old,new=new,claim=claim))
f='BB'
m(f,'bndDiffers','| some a, some b => !isVal a b','| some a, some b => decide (a < b)','C12/C13: relaxed bound change')
m(f,'bndDiffers','| _, _ => true','| _, _ => false','C12: change from infinite bound lost')
m(f,'changedAt','[⟨i, 1, u.getD dblMax⟩]','[⟨i, 0, u.getD dblMax⟩]','C12: upper bound stored as lower')
m(f,'nodeStat','if n.way > 0 then (⌈n.value⌉ : ℤ) else n.prevLB','if n.way > 0 then (⌊n.value⌋ : ℤ) else n.prevLB','C12: up branch bound')
m(f,'nodeStat','if n.way > 0 then n.prevUB else (⌊n.value⌋ : ℤ)','if n.way > 0 then n.prevUB else (⌈n.value⌉ : ℤ)','C12: down branch bound')
m(f,'pushStat','if st.id = l.id + 1 then .ok (stats ++ [st]) else .exit','.ok (stats ++ [st])','benign: assertion removed')
m(f,'updOrig','if c.bound ≤ 0 then updOrig','if c.bound > 0 then updOrig','C12: root bounds swapped')
m(f,'bbInit','changedBounds nd.lo nd.hi P.lo P.hi','[]','C12: root changes dropped')
m(f,'parentAgain','branchIndex := p.branchIndex + 1','branchIndex := p.branchIndex + 2','C13: second branch lost')
m(f,'parentAgain','(nodeStat p\' s.count2 p.number (parentNo s p) [])','(nodeStat p\' s.count2 s.count2 (parentNo s p) [])','C12: original number lost')
m(f,'parentNo','some k => ((s.cur.getD k 0 : ℕ) : ℤ)','some k => (k : ℤ)','C31?: present number of parent')
m(f,'bbStep','(changedBounds c.lo c.hi s.oLo s.oHi)','[]','C12: node changes dropped')
m(f,'bbStep','.dropped o => parentAgain { s with pruned := s.pruned ++ [prunedStat s p o] } p rest','.dropped o => parentAgain s p rest','C13: pruned nodes forgotten')
m(f,'prunedStat','parent := p.number','parent := p.first','C13: parent entry of pruned node')
m(f,'origChanges','if orig = 0 then some []','if orig = 1 then some []','C12: changes of root child dropped')
m(f,'rootSide','some (i == 0)','some (i != 0)','C31: root side')
m(f,'bbTerm','if way = 1 then 0 else 1','if way = 1 then 1 else 0','C12: branch direction')
m(f,'bbTerm','changes := cs ++ [⟨var','changes := [⟨var','C12: ancestor changes dropped')
m(f,'bbTerm','feasible := ans.isSome','feasible := true','C15?: infeasible terms marked feasible')
m(f,'bbTerm','obj := ans.getD st0.obj','obj := st0.obj','C15?: term objective')
m(f,'setupTerm','if ans.isSome || keep then','if ans.isSome then','C13: infeasible kept terms dropped')
m(f,'setupTerm','numTerms := s.D.numTerms + 1','numTerms := s.D.numTerms','C14: count')
m(f,'setupTerm','else .ok { s with numLeaf := s.numLeaf - 1 }','else .ok s','C14: leaf count')
m(f,'setupTerm','if lessThanVal t.obj s.boundD then { s with boundD := t.obj }','if lessThanVal s.boundD t.obj then { s with boundD := t.obj }','C31: down bound')
m(f,'childLP','⟨var, if way ≤ 0 then 1 else 0, value⟩','⟨var, if way ≤ 0 then 0 else 1, value⟩','C12: LP of child')
m(f,'nodeLP','(applyChanges true common P).bind','(Res.ok P).bind','C12: LP of node')
m(f,'saveNode','let v1 := if st.way ≤ 0 then st.ub else st.lb','let v1 := if st.way < 0 then st.ub else st.lb','C12: value for way 0')
m(f,'saveNode','let v2 := if way2 ≤ 0 then v1 - 1 else v1 + 1','let v2 := v1','C13: second branch value')
m(f,'saveNode','if !status && st.branchIndex == 0 then','if !status && st.branchIndex == 1 then','C13: second branch condition')
m(f,'saveNode','if !env.warmOk ind then .exit\n        else if','if','(benign) warm start rejected')
m(f,'saveLoop','saveLoop P maxLeaf stats env (ind + 1) rest r.1 r.2','saveLoop P maxLeaf stats env (ind + 1) rest r.1 s','C13: terms lost')
m(f,'saveLoop','2 * (s.D.numTerms + 2 * (rest.length + 1)) ≤ maxLeaf','(s.D.numTerms + 2 * (rest.length + 1)) ≤ maxLeaf','C13/C14: gives up too early')
m(f,'saveStart','common := r.changes','common := []','C12: root changes')
m(f,'saveStart','if withObj then r.obj else dblMax','dblMax','C15: root_obj')
m(f,'saveInformation','{ D with numTerms := D.numTerms + 1, intSol := intSol }','{ D with intSol := intSol }','C14: count of integer solution')
m(f,'saveInformation','decide (2 * r.2.D.numTerms ≤ maxLeaf) then (true','decide (2 * r.2.D.numTerms ≤ maxLeaf) then (false','C14: too few terms accepted')
m(f,'keepBranches','let way := if b = 0 then initWay else 1 - initWay','let way := initWay','C13: both ways the same')
m(f,'keepBranches','if way ≤ 0 then initVal - 1 else initVal + 1','if way ≤ 0 then initVal + 1 else initVal - 1','C13: gap or overlap')
m(f,'keepNode','((List.range 2).drop st.branchIndex)','(List.range 2)','C14: explored branch repeated')
m(f,'keepPruned','let way : ℤ := if st.way = 1 then 1 else 0','let way : ℤ := 0','C13: pruned up branch')
m(f,'saveFromStats','keepPruned b.stats b.pruned s','.ok s','C13: pruned nodes not saved')
m(f,'leafCount','(if keep then (b.pruned.length : ℤ) else','(if keep then (0 : ℤ) else','C14: leaf count')
m(f,'treeStatus','if decide (maxLeaf ≤ n) || timeUp then','if decide (maxLeaf < n) || timeUp then','C14: stops one leaf late')
m(f,'treeStatus','.ok (!r.1, r.2.numLeaf, some r.2)','.ok (r.1, r.2.numLeaf, some r.2)','C14: search stopped on rejection')
m(f,'pbbFinish','else if D.numTerms ≤ 1 then .ok (.TOO_FEW_TERMS, D)','else if D.numTerms ≤ 1 then .ok (.SUCCESS, D)','C14: one term')
m(f,'pbbFinish','else if D.numTerms ≠ numLeaf ∨','else if','C14: count mismatch accepted')
m(f,'pbbFinish','intObj := c.obj, intSol := c.sol','intObj := dblMax, intSol := []','C15: solution lost')
f='BBSol'
m(f,'clipLo','some (v + (l - v)) else some v','some v else some v','C34: value below bound')
m(f,'clipLo','if greaterThanVal (l - v) 0 then none','if false then none','C34: violated bound accepted')
m(f,'clipHi','some (v - (v - u)) else some v','some (v + (v - u)) else some v','C34: clip')
m(f,'fracViol','then v - (⌊v⌋ : ℤ) else v - ((⌊v⌋ : ℤ) + 1)','then v - (⌊v⌋ : ℤ) else v - (⌊v⌋ : ℤ)','C34: near-integer above')
m(f,'roundInt','some (v - fracViol v) else some v','some v else some v','C34: not rounded')
m(f,'checkCols','| none => (i, c.val','| none => (-1, c.val','C34: error forgotten')
m(f,'checkRows','if error = 0 then','if error < 0 then','(fix) C34: rows really checked')
m(f,'checkSolution','- objOffset','+ objOffset','C34: offset')
m(f,'beforeSolution2','else if e.childObj ≥ e.cutoff then .ok { s with prune := .BOUND }','','C34: bound')
m(f,'beforeSolution2','{ s with prune := .INTEGRALITY, saved := e.best, obj := e.objective }','{ s with prune := .INTEGRALITY, obj := e.objective }','C34: solution not saved')
m(f,'beforeSolution2','if g.2 < e.cutoff then','if true then','C34: worse solution saved')
f='Clean'
m(f,'cleanFrac','!isVal v (⌊v⌋ : ℤ) away && !isVal v (⌈v⌉ : ℤ) away','!isVal v (⌊v⌋ : ℤ) away','C06: near-integer from below')
m(f,'cleanSB','bs := s.bs.setLo col ce','bs := s.bs.setHi col fl','C06: wrong bound set')
m(f,'cleanSB','if !down && !up then .exit\n    else','','C06: infeasible problem')
m(f,'cleanSB','let up := !env.sb (P.setLo col ce)','let up := !env.sb (P.setLo col fl)','C06: up LP')
m(f,'cleanLB','bs := s.bs.setLo col (⌈l⌉ : ℤ)','bs := s.bs.setLo col (⌈l⌉ + 1 : ℤ)','C06: cuts off a point')
m(f,'cleanLB','clean := false, bs := s.bs.setLo col (⌈l⌉ : ℤ)','bs := s.bs.setLo col (⌈l⌉ : ℤ)','C06: reported clean')
m(f,'cleanUB','bs := s.bs.setHi col (⌊u⌋ : ℤ)','bs := s.bs.setHi col (⌊u⌋ - 1 : ℤ)','C06: cuts off a point')
m(f,'cleanTightLB','if gtLo (y col) (P.loAt col) then','if true then','C06: (weaker bound) overwritten')
m(f,'cleanTightUB','env.opt env.sense (-1) col','env.opt env.sense 1 col','C06: upper bound from minimum')
m(f,'cleanCol','if env.isInt col then','if true then','C06: continuous variable rounded')
m(f,'cleanProblem','(List.range P.lo.length)','(List.range (P.lo.length - 1))','C06: last column')
m(f,'cleanProblem','{ P with lo := s.bs.lo, hi := s.bs.hi }','P','C06: nothing changed')
f='Choose'
m(f,'bfsTest','x.depth > y.depth','x.depth < y.depth','C30: depth-first')
m(f,'bestBranchStep','if c.up > s.crit then 1 else 0','if c.up ≥ s.crit then 1 else 0','C32: last instead of first tie')
m(f,'bestBranchStep','if c.up ≤ c.down then','if c.up ≥ c.down then','C32: way')
m(f,'bestBranchStep','crit := min c.up c.down','crit := max c.up c.down','C32: criterion')
m(f,'bestBranch','bestBranchFrom 0 cs {}','bestBranchFrom 1 cs {}','C32: index')
m(f,'calcValue','if second then 1 - coeff else coeff','coeff','C62: criterion 2')
m(f,'calcValue','coeff * min up down + (1 - coeff) * max up down','coeff * max up down + (1 - coeff) * min up down','C62: min and max swapped')
m(f,'calcValue','if chosen < 0 then -1 else 1','1','C62: negative methods')
m(f,'Cand.way','if c.up > c.down then 0 else 1','if c.up > c.down then 1 else 0','C62: way')
m(f,'processObject','if v1 > s.best then','if v1 < s.best then','C62: smallest chosen')
m(f,'processObject','else if v1 > s.sec then','else if v1 < s.sec then','C62: second best')
m(f,'doStrong','then (-1, 1, some (r.cand.obj, -1))','then (2, 1, some (r.cand.obj, -1))','C62: infeasible node')
m(f,'doStrong','if first then 0 else 1','if first then 1 else 0','C62: way when a side is infeasible')
m(f,'chooseFinish','{ s with idx := s.secIdx, way := s.secWay }','{ s with idx := s.secIdx }','C62: way of second best')
m(f,'chooseFinish','if fixed = unsat ∧ fixed ≠ 0 then 4 else rc','rc','C62: return code')
m(f,'chooseVariable','let rc : ℤ := if d.1 ≠ 0 then (if s.idx ≥ 0 then 3 else 4) else 0','let rc : ℤ := 0','C62: return code')
m(f,'fixedSides','if r.downInf then 1 else 0).sum','if r.upInf then 1 else 0).sum','C62: fixed count')
f='Rounds'
m(f,'Mode.perDisj','|| decide (m = .CROSSES)','','C64?: crosses (never gets that far?)')
m(f,'tryStatus','else if g.reachedCutLimit then .CUT_LIMIT','','C64: cut limit not reported')
m(f,'tryObjectives','else if g.reachedCutLimit then .ok (g, .CUT_LIMIT)\n','','C04/C64: generation past limit')
m(f,'tryObjectives','if c.flipBeta then .exit else .ok r','.ok r','(fix) C64')
m(f,'chooseDisj','if c.hasDisj then .ok (some (.CUSTOM, 1))','if c.hasDisj then .ok (some (.SPLITS, 1))','C02/C63: supplied disjunction handled')
m(f,'chooseDisj','if c.disjTerms < 2 then .ok none','if c.disjTerms < 1 then .ok none','C63: one term')
m(f,'prepStatus','matchStatus .UNKNOWN else','matchStatus .SUCCESS else','C63: empty set reports success')
m(f,'addObjCut','if m.perDisj then w.objDisj else 0','0','C63: disjunction of the objective cut')
m(f,'disjPass','if w.setup ≠ .SUCCESS then .ok (g, w.setup, true)','if w.setup ≠ .SUCCESS then .ok (g, w.setup, false)','C63: continue after failed setup')
m(f,'disjLoop','disjLoop c w k (d + 1) p.1 p.2.1','disjLoop c w k d p.1 p.2.1','C63: same disjunction')
m(f,'prepareAndCut','if st ≠ .SUCCESS then .ok (g, st) else','','C63: continues after failed preparation')
m(f,'generateCuts','else if w.timeUp then .ok ⟨g, .TIME_LIMIT, had, 0⟩','','C63: time limit')
m(f,'runMax','if a < b then b else a','if a < b then a else b','C65: best bound')
m(f,'plainRound','⟨o.reason, o.gen.cuts, o.gen.numCuts, o.gen.numCuts,','⟨o.reason, o.gen.cuts, 0, o.gen.numCuts,','C65: total count')
m(f,'customLoop','p.dTotal + o.gen.numCuts','o.gen.numCuts','C65: total count in custom rounds')
m(f,'customRound','.tdiv n) n 0','.tdiv n) (n - 1) 0','C65: last disjunction')
m(f,'roundGmics','c.gomory = -1 ∨ c.gomory = 1','c.gomory = 1','C65: gomory -1')
m(f,'roundTerms','c.disjOptions.length > round','c.disjOptions.length > round + 1','C66: last option unused')
m(f,'stopRounds','|| !w.optimal ||','||','C66: continues on non-optimal LP')
m(f,'stopRounds','w.timeUp\n','false\n','C66: ignores time')
m(f,'recordRound','numVpc := s.numVpc + p.dTotal','numVpc := p.dTotal','C33/C65: total')
m(f,'recordRound','vpcs := s.vpcs ++ p.cuts','vpcs := p.cuts','C33/C65: cuts of earlier rounds lost')
m(f,'recordRound','byRound := s.byRound ++ [p.cuts]','byRound := s.byRound','C33: per-round collection')
m(f,'roundsLoop','then .ok (recordRound c (w r) s terms p, r)','then .ok (recordRound c (w r) s terms p, r + 1)','C66: round index')
m(f,'mainRounds','if p.2 < ROUNDS then p.2 + 1 else ROUNDS','p.2','C66: number of rounds')
json.dump(M,open('m6.json.tmp','w'))
import os; os.rename('m6.json.tmp','m6.json'); print(len(M))
