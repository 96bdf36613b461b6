import json
M=[]
def a(f,d,o,n,c): M.append(dict(file=f,**{'def':d},old=o,new=n,claim=c))
for l in open('m7.out'):
    r=json.loads(l)
    if r['result']=='ok' and r['def'] in('pointRatio','pointCheckExits','collectRay','finishTerm','doTerm','collectInt','setupAll','prlpSetupExit','rayCheckExits'):
        a(r['file'],r['def'],r['old'],r['new'],r['claim']+' [rerun]')
C='Collect.lean'
a(C,'collectRay','if rayCheckExits E (dotRC o.rc p.1 / p.2) (s.rayObj j) then .exit\n  else if p.1 = [] then .ok none','if p.1 = [] then .ok none','C97: an empty ray of a variable with large slope is dropped silently')
a(C,'rayStoreExits','!(isVal viol got E.DIFFEPS) ||','','C97: wrong slope is stored')
a(C,'rayStoreExits',' || (lessThanVal got 0 E.EPS && lessThanVal got 0 E.DIFFEPS)\n\n/-- One ray','\n\n/-- One ray','C97: ray that improves the objective is stored')
a(C,'rayStoreExits','!(isVal viol got E.DIFFEPS) || (lessThanVal got 0 E.EPS && lessThanVal got 0 E.DIFFEPS)','!(isVal viol got E.DIFFEPS) || (lessThanVal got 0 E.EPS || lessThanVal got 0 E.DIFFEPS)','C97: small numerical error ends the process')
a(C,'collectRay','(dotRC o.rc p.1 / p.2) (s.rayObj j) then .exit\n  else .ok (some','(dotRC o.rc p.1) (s.rayObj j) then .exit\n  else .ok (some','C97: slope not unscaled')
a(C,'finishTerm','| none => .ok (none, { t with feasible := false }, .notOptimal)','| none => .ok (none, t, .notOptimal)','C28: unsolved term stays feasible')
a(C,'finishTerm','if w.timeUp then .ok (some s.obj, t, .timeLimit)','if w.timeUp then .ok (none, t, .timeLimit)','C28: value of a term lost at the time limit')
a(C,'collectInt','[dot x - offset])','[dot x + offset])','C28: wrong sign of the constant')
a(C,'setupAll','(p.2 ++ r.1).foldl Disj.updateObj','r.1.foldl Disj.updateObj','C28: integer solution not reported')
I='CutInfo.lean'
a(I,'checkCutDensity','c.row.length - c.row.countP fun e : ℕ × ℚ => isZero e.2 eps','c.row.length','density counts zeros')
a(I,'newAvg','a * old + total','a * old','average support')
a(I,'newAvg','((old + size : ℕ) : ℚ)','((size : ℕ) : ℚ)','average support: wrong divisor')
a(I,'updateGMICInfo','numCuts := ci.numCuts + cs.length\n      cutType','numCuts := cs.length\n      cutType','number of GMICs is not accumulated')
a(I,'updateGMICInfo','List.replicate cs.length CutType.GMIC','List.replicate cs.length CutType.VPC','type of GMICs')
a(I,'mergeCounts','| some f => fun k => f k + b k','| some f => fun k => b k','counters overwritten')
a(I,'mergeHeur','objHeur := some fun k => b k + g.numObjFromHeur k','objHeur := some fun k => b k + g.numCutsFromHeur k','wrong counter added')
a(I,'mergeHeur','failsHeur := some g.numFailsFromHeur }','failsHeur := some g.numObjFromHeur }','wrong counter copied')
a(I,'mergeTypes','if g.repeatedUse then','if !g.repeatedUse then','types of cuts duplicated')
a(I,'mergeTypes','cutType := ci.cutType ++ g.cutType, objType','cutType := g.cutType ++ ci.cutType, objType','order of types')
a(I,'mergeSupport','if cs.length < num then .exit','if cs.length ≤ num then .exit','exit for exact number of cuts')
a(I,'mergeSupport','cs.length ≠ old + num','cs.length ≠ num','exit when there are old cuts')
a(I,'mergeSupport','cs.drop (cs.length - num)','cs.take num','support of the wrong cuts')
a(I,'updateCutInfo','failures := ci.failures + g.numFailures } g','failures := ci.failures } g','failures not counted')
a(I,'updateCutInfo','objTried := ci.objTried + g.numObj\n','objTried := g.numObj\n','objectives not accumulated')
a(I,'resetCutInfo','rounds := numRounds,','rounds := numRounds + 1,','number of rounds')
a(I,'resetCutInfo','numCuts := 0, activeGmic','activeGmic','number of cuts not reset')
a(I,'resetCutInfo','cutType := [], objType := []','objType := []','types not reset')
a(I,'addActive','| none => .ok a','| none => .undef','UB if no activity')
a(I,'addRound','numCuts := ci.numCuts + r.numCuts','numCuts := max ci.numCuts r.numCuts','cuts of rounds not added')
a(I,'addRound','activeVpc := ci.activeVpc + r.activeVpc','activeVpc := ci.activeVpc + r.activeGmic','activity mixed up')
a(I,'addRound','(addCounts ci.fails r.fails).bind','(addCounts ci.fails ci.fails).bind','failures of rounds lost')
a(I,'copyTypes','r.cutType.take r.numCuts ++ t.1','t.1 ++ r.cutType.take r.numCuts','order of types')
a(I,'copyTypes','r.numCuts ≤ r.cutType.length ∧ r.numCuts ≤ r.objType.length','r.numCuts < r.cutType.length ∧ r.numCuts ≤ r.objType.length','boundary')
a(I,'setCutInfo','| none => .ok (resetCutInfo ci 0)','| none => .ok ci','not reset')
a(I,'checkCutActivity','| some x => isVal (sdot c.row x) c.lb','| some x => lessThanVal (sdot c.row x) c.lb','violated counted as active')
a(I,'checkCutActivity','| none => false','| none => true','no solution counted as active')
a(I,'activateHeur','bump f h 1','bump f h 2','active counted twice')
a(I,'activityLoop','activeVpc := ci.activeVpc + one (checkCutActivity sv c) } i','activeVpc := ci.activeVpc + one (checkCutActivity sa c) } i','wrong solver')
a(I,'activityLoop','(checkCutActivity sv c)).bind fun c1','(checkCutActivity sg c)).bind fun c1','objective counter from wrong solver')
a(I,'activityLoop','sg sv sa cs (i + 1)','sg sv sa cs i','index not advanced')
a(I,'resizeActive','| some f => some f','| some f => some fun _ => 0','counters cleared')
a(I,'analyzeVpcs','activeGmic := 0, activeVpc := 0, activeAll := 0, activeHeur := resizeActive','activeGmic := 0, activeAll := 0, activeHeur := resizeActive','not reset')
a(I,'runAvg','(avg * (n - 1) + val) / n','(avg * n + val) / n','running average')
a(I,'updateDisj1','numIntSol := di.numIntSol + one d.hasIntSol','numIntSol := one d.hasIntSol','number of integer solutions')
a(I,'updateDisjInfo','if numDisj ≤ 0 then di','if numDisj < 0 then di','division by zero')
a(I,'checkCutsAgainst','if lessThanVal (sdot c.row x) c.lb then 1 else 0','if lessThanVal c.lb (sdot c.row x) then 1 else 0','direction')
a(I,'roundCheck','if temp = TempOpt.CHECK_CUTS_AGAINST_BB_OPT.val','if temp ≠ TempOpt.CHECK_CUTS_AGAINST_BB_OPT.val','check made when not asked')
B='BBTests.lean'
a(B,'bestMin','if best < cur then best else cur','if cur < best then best else cur','worst instead of best')
a(B,'bestMax','if first then cur else if cur < best then best else cur','if first then best else if cur < best then best else cur','first not taken')
a(B,'updateBestBBInfo','nodes := bestMin first b.nodes c.nodes','nodes := bestMax first b.nodes c.nodes','nodes worst')
a(B,'updateBestBBInfo','bound := bestMax first b.bound c.bound','bound := bestMin first b.bound c.bound','bound worst')
a(B,'updateBestBBInfo','rootTime := bestMin first b.rootTime c.rootTime','rootTime := bestMin first b.time c.time','wrong field')
a(B,'addBBInfo','time := a.time + c.time\n\n','time := a.time\n\n','time not added')
a(B,'divBBInfo','rootTime := a.rootTime / n','rootTime := a.rootTime','not divided')
a(B,'divBBInfo','nodes := a.nodes.tdiv n','nodes := a.nodes / (n + 1)','wrong divisor')
a(B,'summarize','first := runs.headD {}','first := runs.getLastD {}','last instead of first')
a(B,'summarize','numCuts := numCuts\n  first','numCuts := s.numCuts\n  first','number of cuts')
a(B,'permuted','rhi i := p.rhi (rp.getD i 0)','rhi i := p.rhi i','upper sides not permuted')
a(B,'permuted','obj j := p.obj (cp.getD j 0)','obj j := p.obj j','objective not permuted')
a(B,'permuted','offset := p.offset\n\n','offset := 0\n\n','constant lost')
a(B,'initPerms','if p.m < p.n then .undef','if p.m ≤ p.n then .undef','boundary')
a(B,'numBBRuns','c.disjTerms = 0 ∨ 0 < numVpcs','c.disjTerms = 0','no runs with cuts')
a(B,'bbDigits','(mode.tmod 100 - mode.tmod 10).tdiv 10','(mode.tmod 100).tdiv 100','wrong digit')
a(B,'bbBranch','decide (d.2.1 > 0) && decide (numVpcs > 0)','decide (d.2.1 > 0) && decide (numGmics > 0)','wrong condition')
a(B,'shouldPermute','decide (runs ≥ 2)','decide (runs > 2)','boundary')
a(B,'initialSeed','if c.seed > 0','if c.seed ≥ 0','seed 0')
a(B,'runSeed','Int.bmod (initial * (run + 1))','Int.bmod (initial * run)','same seed')
a(B,'pickSolver','(if c.hasGurobi then some .gurobi else none)','(if c.hasGurobi then some .gurobi else some .cbc)','fallback')
a(B,'gurobiCheckExits','&& decide (numVpcs > 0) && !haveSol','&& !haveSol','exit without cuts')
a(B,'testRun','oneSolve w (pickSolver c) seed q vpcs,','oneSolve w (pickSolver c) seed p vpcs,','VPC run on the unpermuted problem')
a(B,'testRun','oneSolve w (pickSolver c) seed q [], oneSolve','oneSolve w (pickSolver c) seed q vpcs, oneSolve','cuts in the reference run')
a(B,'allCuts','(if b.2.1 then vpcs else [])','vpcs','cuts although switched off')
a(B,'bbFinish','summarize s.2.2 (numVpcs + numGmics)','summarize s.2.2 numGmics','number of cuts')
a(B,'bbFinish','if b.2.1 then summarize s.2.1 numVpcs (l.map (·.2.1))','if b.2.1 then summarize s.2.1 numVpcs (l.map (·.1))','wrong results')
a(B,'runBBTests','if runs = 0 then .ok s','if runs ≤ 1 then .ok s','single run skipped')
L='LogTable.lean'
a(L,'sv','if isInfinity v then .inf else if','if','infinity printed as number')
a(L,'svI','if v ≥ intMax then .inf','if v ≥ 0 then .inf','numbers printed as inf')
a(L,'svN','| none => .inf','| none => .ninf','NaN')
a(L,'finiteCell','if isInfinity |v| then .blank','if isInfinity v then .blank','-inf printed')
a(L,'ifCuts','if n > 0 then .val','if n ≥ 0 then .val','bound without cuts')
a(L,'printBound','.val (sv b.bestDisj), .val (sv b.worstDisj)','.val (sv b.worstDisj), .val (sv b.bestDisj)','columns swapped')
a(L,'printBound','ifCuts b.numVpc b.vpc, finiteCell','finiteCell','column missing')
a(L,'gapVal','sv (100 * (x - b.lp) / (b.ip - b.lp))','sv (100 * (x - b.lp) / (b.lp - b.ip))','sign')
a(L,'gapVal','if 100 * (x - b.lp) < 0 then .ninf','if 100 * (x - b.lp) > 0 then .ninf','sign of infinity')
a(L,'gapCell','if isInfinity |x| then .blank','if isInfinity x then .blank','blank')
a(L,'printGap','gapCell b b.unstrGmic, gapCell b b.gmic','gapCell b b.gmic, gapCell b b.unstrGmic','columns swapped')
a(L,'printGap','List.replicate 5 .blank','List.replicate 4 .blank','column missing')
a(L,'printSummaryBB','show_ (fun s => .int s.best.nodes)','show_ (fun s => .int s.first.nodes)','best nodes')
a(L,'printSummaryBB','.num s.best.time','.num s.avg.time','best time')
a(L,'bbPrinters','fun i => .num i.rootTime, fun i => .num i.lastSolTime','fun i => .num i.lastSolTime, fun i => .num i.rootTime','swapped')
a(L,'printFullBB','(l.map fun s => Cell.val (f s.best))','(l.map fun s => Cell.val (f s.avg))','best')
a(L,'printFullBB','List.replicate (11 * l.length * 4) .blank','List.replicate (11 * l.length * 3) .blank','blanks')
a(L,'printFullBB','l.flatMap fun s => createStringFromBBInfoVec s.vec','[]','all runs missing')
a(L,'rowStep','assign := if r.size = 1 && e then','assign := if r.size = 1 then','assign rows')
a(L,'rowStep','bound := if r.size = 1 && !e then','bound := if r.size = 1 && e then','bound rows')
a(L,'fracStep','if isVal f 0 (1 / 10 ^ 5) then s','if isVal f 0 then s','tolerance')
a(L,'fracStep','mx := if f > s.mx then f else s.mx','mx := if f < s.mx then f else s.mx','max')
a(L,'colStep','if !c.isInt then','if c.isInt then','continuous')
a(L,'colStep','gen := if c.isBin then s1.gen else s1.gen + 1','gen := s1.gen + 1','binary counted as general')
a(L,'density','> intMax then .undef','≥ intMax then .undef','boundary')
a(L,'density','(p.rows.length * p.cols.length : ℚ)','(p.cols.length : ℚ)','density')
a(L,'printOrig','.val (svI r.eq), .val (svI r.bound)','.val (svI r.bound), .val (svI r.eq)','swapped')
a(L,'printPost','(p.cols.filter (·.isInt)).foldl','p.cols.foldl','continuous columns counted as fractional')
a(L,'printPost','.val (svI g.activeVpc), .val (svI v.activeVpc)','.val (svI v.activeVpc), .val (svI g.activeVpc)','swapped')
a(L,'printDisj','.val (svI d.numIntSol), .val (svI d.numDisj)','.val (svI d.numDisj), .val (svI d.numIntSol)','swapped')
a(L,'typeCells','if c.numCuts > 0 then\n    match','if c.numCuts > 1 then\n    match','single cut')
a(L,'supportCells','if c.numCuts > 0 then [.val','if c.numCuts ≥ 0 then [.val','no cuts')
a(L,'heurCells','if c.objTried > 0 then','if c.numCuts > 0 then','condition')
a(L,'heurCells','.val (svI (o t)), .val (svI (k t))','.val (svI (k t)), .val (svI (o t))','swapped')
a(L,'failCells','if c.failures > 0','if c.failures ≥ 0','condition')
a(L,'printCut','supportCells c ++ supportCells g','supportCells g ++ supportCells c','swapped')
a(L,'ObjType.name','.TIGHT_RAYS => "TIGHT_RAYS"','.TIGHT_RAYS => "TIGHT_POINTS"','name')
a(L,'Fail.name','.UNKNOWN => "UNKNOWN"\n\n/-- `CglVPC::ExitReasonName`','.UNKNOWN => "TIME_LIMIT"\n\n/-- `CglVPC::ExitReasonName`','name')
a(L,'ExitReason.name','.CUT_LIMIT => "CUT_LIMIT" | .FAIL_LIMIT => "FAIL_LIMIT"','.CUT_LIMIT => "FAIL_LIMIT" | .FAIL_LIMIT => "FAIL_LIMIT"','reason ambiguous')
a(L,'bbContents','"ITERS", "NODES"','"NODES", "ITERS"','names swapped')
a(L,'timeNames','"VPC_GEN_TIME",\n   "VPC_APPLY_TIME"','"VPC_APPLY_TIME",\n   "VPC_GEN_TIME"','names swapped')
a(L,'paramNames','o.ints.map (fun i => lowerCase (p.ints i).name) ++ o.dbls.map (fun i => lowerCase (p.dbls i).name)','o.dbls.map (fun i => lowerCase (p.dbls i).name) ++ o.ints.map (fun i => lowerCase (p.ints i).name)','order')
a(L,'boundNames','"LP OBJ", "BEST DISJ OBJ"','"BEST DISJ OBJ", "LP OBJ"','swapped')
a(L,'headerNames','++ timeNames ++ versionNames','++ versionNames ++ timeNames','blocks swapped')
a(L,'titleBlocks','("GAP INFO", 5)','("GAP INFO", 6)','count')
a(L,'wrapCells','.text w.gurobiVersion,\n   .text w.cplexVersion','.text w.cplexVersion,\n   .text w.gurobiVersion','swapped')
a(L,'timeCells','.val (.num (t.getTimeId id))','.val (.num (t.getTimeId 0))','index')
a(L,'logRow','++ og ++ pc ++ printDisj d.disj','++ pc ++ og ++ printDisj d.disj','blocks swapped')
a(L,'logRow','(printCut d.gmics d.vpcs)','(printCut d.vpcs d.gmics)','arguments swapped')
a(L,'prepRow','.val (sv d.origLp), .val (sv d.cleanedLp)','.val (sv d.cleanedLp), .val (sv d.origLp)','swapped')
a(L,'joinChars',"(if acc.isEmpty then [] else [';'])","(if acc.isEmpty then [] else [','])",'comma')
a(L,'lineChars',"[','].intercalate fields","[';'].intercalate fields",'separator')
F='LogFile.lean'
a(F,'appendRun','if f.isNone then r.header else []','r.header','header every time')
a(F,'appendRun',"| .done => some (f.getD [] ++ h ++ r.line ++ ['\\n'])","| .done => some (f.getD [] ++ h ++ r.line)",'no newline')
a(F,'appendRun',"| .done => some (f.getD [] ++ h ++ r.line ++ ['\\n'])","| .done => some (h ++ r.line ++ ['\\n'])",'overwrites')
a(F,'appendRun',"r.line.take k ++ ['|', '|', ','] ++ msg","['|', '|', ','] ++ msg",'line lost on error')
json.dump(M,open('m8.json','w'),indent=0)
import os
bad=0
for m in M:
    s=open('/verif/lean/Verif/Model/'+m['file']).read()
    if s.count(m['old'])!=1: print('BAD',s.count(m['old']),m['def'],m['old'][:60]); bad+=1
print(len(M),bad)
