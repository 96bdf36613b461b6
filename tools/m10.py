import json
M=[]
def a(f,d,o,n,c): M.append(dict(file=f,**{'def':d},old=o,new=n,claim=c))
S='SetupList.lean'
a(S,'numStrongOf','if p = -2 then ceilSqrt cols','if p = -2 then ceilSqrt (cols + 1)','number of strong candidates')
a(S,'numStrongOf','if p = -1 then cols','if p = -1 then cols + 1','number of strong candidates for -1')
a(S,'multiplier','(1 + totals.sum) / (1','(totals.sum) / (1','multiplier without the one')
a(S,'sideEstimate','if num ≠ 0 then est','if num = 0 then est','estimate')
a(S,'sideEstimate','if (num : ℤ) < trusted','if (num : ℤ) ≤ trusted','trust boundary')
a(S,'scoreOf','(multiplier (objs.map (·.upTotal)) (objs.map (·.upNum))) trusted) false','(multiplier (objs.map (·.upTotal)) (objs.map (·.upNum))) trusted) true','score uses change form')
a(S,'scoreOf','(sideEstimate o.upEst o.upTotal o.upNum','(sideEstimate o.downEst o.upTotal o.upNum','swapped estimate')
a(S,'flushFrom','list := (s.list.set j none).set p (some o)','list := s.list.set p (some o)','flushed object stays on the list')
a(S,'flushFrom','useful := s.useful.set j 0\n','','old value stays')
a(S,'flush','(flushFrom s.maxStrong s).bind','(flushFrom (s.maxStrong - 1) s).bind','last entry not flushed')
a(S,'flush','bestPrio := prio, check := -dblMax','check := -dblMax','best priority not updated')
a(S,'flush','check := -dblMax, checkIndex := 0 }','checkIndex := 0 }','threshold not reset')
a(S,'flush','checkIndex := 0 }','}','check index not reset')
a(S,'putAtEnd','| some (some _) => .exit\n','| some (some _) => .ok { s with list := s.list.set p (some i), putOther := p }\n','overwrites')
a(S,'findWorst','| none => (0, j)','| none => (check, j)','free place')
a(S,'findWorst','if useful.getD j 0 < check then','if useful.getD j 0 > check then','best replaced instead of worst')
a(S,'SetSt.shrink','min s.maxStrong s.putOther }','s.maxStrong }','limit not shrunk')
a(S,'evict','| some (some o) => putAtEnd o s','| some (some o) => .ok s','evicted object lost')
a(S,'store','useful := s.useful.set s.checkIndex v }','useful := s.useful }','value not stored')
a(S,'offer','if v > s.check then','if v ≥ s.check then','ties')
a(S,'place','if p < s.bestPrio then flush','if p ≤ s.bestPrio then flush','flush on equal priority')
a(S,'place','if p = s.bestPrio then offer i v s','if p ≥ s.bestPrio then offer i v s','worse priority offered')
a(S,'setupLoop','if o.infeas > 0 then','if o.infeas ≥ 0 then','satisfied objects on the list')
a(S,'setupLoop','else setupLoop score (i + 1) os u s','else setupLoop score i os u s','index of object wrong after a satisfied one')
a(S,'setupLoop','os (u + 1) s','os u s','not counted')
a(S,'setupInit','min numStrong n, -dblMax','numStrong, -dblMax','limit larger than the array')
a(S,'onListOf','(-(s.useful.getD j 0), o)','(s.useful.getD j 0, o)','order of candidates reversed')
a(S,'moveOthers','(i + 1) (p + 1)','(i + 1) p','others lost')
a(S,'setupEnd','if numStrong = 0 then 0 else c.length','c.length','numStrong 0')
a(S,'setupEnd','if c.length + (n - s.putOther) = u then','if c.length + (n - s.putOther) ≥ u then','assert weakened')
a(S,'setupListWith','.ok ⟨[], 0, -1⟩','.ok ⟨[], 0, 0⟩','infeasible object reported as none')
a(S,'FObj.moved','o.val - (o.hi - o.lo) / 2','o.val + (o.hi - o.lo) / 2','moved outside')
a(S,'FObj.moved','o.val ≤ o.lo + 1 / 1000','o.val < o.lo','lower bound not noticed')
a(S,'firstFree','if o.hi > o.lo then some','if o.hi ≥ o.lo then some','fixed variable chosen')
a(S,'choose7','decide (depth < objs.length)','decide (depth ≤ objs.length)','depth boundary')
a(S,'choose7','match firstFree depth (objs.drop depth)','match firstFree 0 (objs.drop depth)','index of chosen object')
a(S,'choose7','.ok ⟨0, i, 0, v⟩','.ok ⟨0, i, 1, v⟩','way')
D='DisjOpts.lean'
a(D,'tokensOf','if cur = [] then [] else [cur]','[cur]','trailing separator gives an empty token')
a(D,'tokensOf','if c = sep then cur :: tokensOf sep [] t','if c = sep then (if cur = [] then tokensOf sep [] t else cur :: tokensOf sep [] t)','empty tokens skipped')
a(D,'stoi','decide (intMax < v)','decide (intMax ≤ v)','range')
a(D,'stoi','decide (v < intMin) ||','','range below')
a(D,'stoi','if nothing then .exit','if nothing then .ok 0','atoi instead of stoi')
a(D,'stoiAll','.ok (v :: vs)','.ok (vs ++ [v])','order')
a(D,'errorStatus','def errorStatus : ℤ := 0','def errorStatus : ℤ := 1','status 1: program stops (repair)')
a(D,'countOptions','mode ≠ .DISJ_SET_PBB ∧ (vs','mode = .DISJ_SET_PBB ∧ (vs','test for the wrong mode')
a(D,'countOptions','(vs.length : ℤ) ≠ rounds','(vs.length : ℤ) < rounds','too many accepted')
a(D,'parseDisjOptions','if text = [] then','if text = [\':\'] then','empty text')
a(D,'mainOptions','if logOpen && p.message then .undef','if logOpen && p.message then .ok (.stops 1)','undefined')
B='Bounds.lean'
a(B,'startLps','if gomory ≠ 0 then ⟨s, some s','if gomory > 0 then ⟨s, some s','solvers not made for negative gomory')
a(B,'gomoryPart','(if gomory > 0 then applyAll I cs (some l.solver)','(if gomory < 0 then applyAll I cs (some l.solver)','sign of gomory swapped')
a(B,'gomoryPart','.ok (⟨s, some g, l.vpc, some a⟩, I.objValue g)','.ok (⟨s, some g, l.vpc, some a⟩, I.objValue a)','gmic value from the wrong LP')
a(B,'gomoryPart','.ok (⟨s, some g, l.vpc, some a⟩,','.ok (⟨s, some g, l.vpc, l.all⟩,','GMICs not in the all-cuts LP')
a(B,'gomoryRound','if gomory = -1 ∨ gomory = 1 then','if gomory ≠ 0 then','other values of gomory')
a(B,'gomoryRound','.ok (r.1, some r.2, w.gomoryCuts l.solver)','.ok (r.1, some r.2, [])','gmics not recorded')
a(B,'vpcApply','.ok ⟨s, l.gmic, some v, some a⟩','.ok ⟨s, some v, l.vpc, some a⟩','VPCs in the GMIC LP')
a(B,'vpcApply','.ok ⟨s, l.gmic, some v, some a⟩','.ok ⟨l.solver, l.gmic, some v, some a⟩','VPCs not in the LP')
a(B,'vpcApply','if cs.length > 0 then','if cs.length > 1 then','single cut dropped')
a(B,'roundVals','.ok (v, a)','.ok (a, v)','swapped')
a(B,'newBound','gmicVpc := va.2, all := va.2','gmicVpc := va.1, all := va.2','gmic+vpc value')
a(B,'newBound','g.getD old.gmic','g.getD dblMax','gmic value lost')
a(B,'newRoundBound','newBound {} g va','newBound { gmic := 0 } g va','default')
a(B,'boundRound','[(I.objValue s.lps.solver, newRoundBound','[(I.objValue l.solver, newRoundBound','lp value after the round')
a(B,'boundRound','vpcs := s.vpcs ++ w.disjCuts r.1.solver','vpcs := s.vpcs ++ w.disjCuts s.lps.solver','cuts for the LP before GMICs')
a(B,'boundStop','!(I.isOptimal s.lps.solver) ||','','not optimal goes on')
a(B,'boundLoop','else boundLoop gomory w k (r + 1) s\'','else boundLoop gomory w k r s\'','round number')
a(B,'analysed','if gomory ≤ 0 then some l.solver else l.vpc','if gomory < 0 then some l.solver else l.vpc','which LP')
a(B,'analysed','if gomory ≥ 0 then some l.solver else l.all','if gomory > 0 then some l.solver else l.all','which LP')
U='UserCuts.lean'
a(U,'OsiRow.rhs','| some u, _ => u\n  | none, some l => l','| _, some l => l\n  | some u, none => u','rhs is the lower side')
a(U,'wantsStrong','if s.toInt < 0 then -s else s','s','abs dropped')
a(U,'hasExt','decide (ext.length < solfile.length)','decide (ext.length ≤ solfile.length)','name equal to the extension')
a(U,'grbBest','best - 1 / 10 ^ 7','best + 1 / 10 ^ 7','bound stop')
a(U,'grbStart','hasExt f "_gurobi.mst".toList','hasExt f "_cplex.mst".toList','start file')
a(U,'grbOptions','if useBB s .presolve_off then [.presolve 0] else []) ++\n  (if useBB s .heuristics_off then [.heuristics 0]','if useBB s .presolve_off then [.presolve 0] else []) ++\n  (if useBB s .heuristics_on then [.heuristics 0]','option bit')
a(U,'grbAlways','.threads 1] ++ (if c.seed ≥ 0 then [.seed c.seed] else []) ++\n  (if c.verbosity = 0 then [.outputFlag 0]','.threads 0] ++ (if c.seed ≥ 0 then [.seed c.seed] else []) ++\n  (if c.verbosity = 0 then [.outputFlag 0]','threads')
a(U,'grbSettings','if s.toInt ≤ 0 then [] else grbOptions c s best','if s.toInt < 0 then [] else grbOptions c s best','strategy 0 (equivalent: no bits)')
a(U,'cpxBest','best + 1 / 10 ^ 7','best - 1 / 10 ^ 7','cutoff below the optimum')
a(U,'CpxCut.all','.mirCut, .mcfCut, .rlt, .zeroHalf]','.mcfCut, .rlt, .zeroHalf]','a family left on')
a(U,'cpxOptions','CpxCut.all.map (.cut · (-1))','CpxCut.all.map (.cut · 0)','automatic instead of off')
a(U,'cbcOptions','[.cutPassesRoot 0, .cutPasses 0, .whenCuts 0]','[.cutPassesRoot 0, .cutPasses 0]','cuts')
a(U,'cbcSettings','(if s.toInt ≤ 0 then [.defaultStrategy] else cbcOptions s)','(if s.toInt < 0 then [.defaultStrategy] else cbcOptions s)','default strategy for 0')
a(U,'withUserCuts','if useBB s .user_cuts then s else enableBB s .user_cuts','s','user cuts not announced')
a(U,'nodeObj','e.1 * e.2) c.offset','e.1 * e.2) 0','offset forgotten')
a(U,'grbAdd','if c.lazy then [k.asGe, k.asGe]','if c.lazy then [k.asGe]','lazy')
a(U,'grbSol','if obj < s.obj then','if obj ≤ s.obj then','time of last improvement')
a(U,'grbMip','if nodes > 0 then s\n  else if s.passes = 0 then','if nodes ≥ 0 then s\n  else if s.passes = 0 then','root events ignored')
a(U,'grbMip','firstCut := bound, lastCut := bound, setFirst := true }','firstCut := bound, lastCut := bound }','first bound overwritten')
a(U,'grbNodeOpt','if s.passes > 1 then','if s.passes > 2 then','cuts given twice')
a(U,'grbNodeOpt','given := s.given ++ grbAdd c }','given := s.given }','cuts not given')
a(U,'grbNode','else { s with passes := s.passes + 1, rootTime := time }','else s','passes counted only if optimal')
a(U,'grbRuns','[first, again]\n','[again]\n','events of the first run forgotten')
a(U,'grbLast','= true) then again else first','= true) then first else again','result of which run')
a(U,'GrbStatus.ends','| .infeasible | .unbounded | .infOrUnbd | .other => true','| .infeasible | .unbounded | .other => true','inf or unbd goes on')
a(U,'grbCheck','if isVal (nodeObj c x) r.objVal then .ok (some x) else .exit','.ok (some x)','unchecked')
a(U,'grbBB','bound := r.objBound, iters','bound := r.objVal, iters','bound')
a(U,'grbReport','rootPasses := cb.passes, firstCutPass := cb.firstLp, lastCutPass := cb.firstLp,','rootPasses := cb.passes, firstCutPass := info.obj, lastCutPass := cb.firstLp,','bounds without passes')
a(U,'grbReport','if cb.passes > 0 then','if cb.passes > 1 then','one pass')
a(U,'csrAdd','beg := a.beg ++ [a.ind.length]','beg := a.beg ++ [a.ind.length + k.row.length]','starts are ends')
a(U,'csrAdd','rhs := a.rhs ++ [k.rhs]','rhs := k.rhs :: a.rhs','order of right-hand sides')
a(U,'cpxGiven','if lazy then csrRows (csrOf l) else []','if lazy then [] else csrRows (csrOf l)','lazy')
a(U,'cpxLog','if |i.obj - v| > 1 / 10 ^ 7 then','if |i.obj - v| < 1 / 10 ^ 7 then','time of incumbent')
a(U,'cpxFirst','i.rootPasses = 1 ∧','i.rootPasses = 0 ∧','first bound')
a(U,'cpxCount','nodes = 0 ∧ wh = .cutLoop','wh = .cutLoop','passes beyond the root')
a(U,'cpxLate','{ i with firstCutPass := bound } else i\n\n/-- src/test/CplexHelper.cpp:339','i else i\n\n/-- src/test/CplexHelper.cpp:339','late bound')
a(U,'cpxEnd','lastCutPass := bound, rootTime := elapsed, rootIters := iters','lastCutPass := bound, rootTime := elapsed','iterations')
a(U,'cpxUserCb','if nodes > 1 then i','if nodes > 0 then i','node')
a(U,'cpxAgain','&& !(decide (0 < s.toInt) && useBB s .presolve_off)','','second run even without presolve')
a(U,'cpxEventsOf','first.events ++ again.events','again.events','events')
a(U,'cpxValues','| .limitInfeas => .ok { i with bound := r.bestBound }','| .limitInfeas => .ok { i with obj := r.objVal, bound := r.bestBound }','objective without a solution')
a(U,'cpxSol','| true, none => .exit','| true, none => .ok none','no solution')
a(U,'cpxBB','time := first.runtime','time := r.runtime','time of which run (repair)')
a(U,'cpxReport','if i.rootPasses = 0 then','if i.rootPasses ≤ 1 then','report')
a(U,'cpxUser','{ info with firstCutPass := -dblMax, lastCutPass := -dblMax }','info','bounds of an earlier run kept')
a(U,'cbcBegin','e.nodes = 0 ∧ h.rootPasses = 1','h.rootPasses = 1','first bound after the root')
a(U,'cbcNode','if e.nodes ≤ 1 then','if e.nodes < 1 then','node')
a(U,'cbcCuts','rootPasses := h.rootPasses + 1, lastCutPass := e.best','rootPasses := h.rootPasses + 1','last bound')
a(U,'cbcStep','if e.hasCuts then .exit else .ok','.ok','cuts in the model (repair)')
a(U,'cbcBB','if r.fails then .exit\n  else','if false then .exit\n  else','failure')
a(U,'cbcReport','| none => .undef\n    | some v => .ok { i with rootPasses','| none => .ok i\n    | some v => .ok { i with rootPasses','uninitialised')
# reruns after tightening (m9 survivors)
T='Target.lean'
P='Prep.lean'
for m in json.load(open('m9.json')):
    if (m['def'],m['old'][:14]) in []: pass
surv=[json.loads(l) for l in open('m9.out')]
for r in surv:
    if r['result']=='ok' and r['def'] not in ('TSt.after','iterate') and not (r['def']=='findCont' and 'rowTight' not in r['old']):
        a(r['file'],r['def'],r['old'],r['new'],r['claim']+' [rerun]')
json.dump(M,open('m10.json','w'))
for m in M:
    s=open('/verif/lean/Verif/Model/'+m['file']).read()
    if s.count(m['old'])!=1: print(s.count(m['old']),m['def'],m['old'][:70])
print(len(M))
