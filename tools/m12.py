import json
M=[]
def a(f,d,o,n,c): M.append(dict(file=f,**{'def':d},old=o,new=n,claim=c))
F='MainRun.lean'
a(F,'givenOptimum','if !isInfinity ipParam then ipParam else dblMax','dblMax','C119: parameter ignored')
a(F,'givenOptimum','if !isInfinity ipParam then ipParam else dblMax','if !isInfinity ipParam then -ipParam else dblMax','C119: sign')
a(F,'takeLookup','| .value v => (setIpObj p v).bind fun q => .ok (v, q)','| .value v => (setIpObj p v).bind fun _ => .ok (v, p)','C119: parameter not set')
a(F,'takeLookup','| .lowest => (setIpObj p (-dblMax)).bind fun q => .ok (-dblMax, q)','| .lowest => (setIpObj p 0).bind fun q => .ok (0, q)','C119: missing record as 0')
a(F,'readsOptFile','isInfinity b && optfile ≠ []','optfile ≠ []','C119: file overrides the parameter')
a(F,'readsOptFile',' && hasExt optfile ".csv".toList','','C119: other files read')
a(F,'knownAtStart','(p.text .OPTFILE) (p.text .FILENAME) lines','(p.text .FILENAME) (p.text .OPTFILE) lines','C119: names swapped')
a(F,'startFile','"_gurobi.mst.gz".toList','"_cplex.mst.gz".toList','C119: start file')
a(F,'findSolfile','p.text .SOLFILE = [] ∧ fexists','fexists','C119: given file replaced')
a(F,'solutionStrategy','then enableBB s .use_best_bound else s','then s else s','C119: start not enabled')
a(F,'solutionStrategy','then enableBB s .use_best_bound else s','then enableBB s .presolve_off else s','C119: other option')
a(F,'solutionCall','file := p.text .FILENAME','file := p.text .SOLFILE','C119: file of the call')
a(F,'solutionCall','best := best\n    solfile','best := 0\n    solfile','C119: bound of the call')
a(F,'wantsSolution','decide (temp = 8)','decide (temp ≠ 0)','C119: any option')
a(F,'findSolution','&& w.hasGurobi then w.gurobi','then w.gurobi','C119: Gurobi missing')
a(F,'afterSolution','x.length > 0 ∧ isInfinity |best| = true','x.length > 0','C119: known value replaced')
a(F,'afterSolution','(solutionValue I x).bind fun v => (setIpObj p v).bind fun q => .ok (v, q)','(solutionValue I x).bind fun v => .ok (v, p)','C119: parameter not set')
a(F,'afterSolution','(solutionValue I x).bind fun v => (setIpObj p v).bind fun q => .ok (v, q)','(solutionValue I x).bind fun v => (setIpObj p (v - I.offset)).bind fun q => .ok (v - I.offset, q)','C119: negation: constant repaired (fix)')
a(F,'keepSolfile','p.setS .SOLFILE','p.setS .OPTFILE','C119: wrong parameter')
a(F,'cutPhase','.ok ⟨code, .UNKNOWN, best, .badOptions, p⟩','.ok ⟨1, .UNKNOWN, best, .badOptions, p⟩','C120: return code')
a(F,'cutPhase','fun r => .ok ⟨0, r.1.reason, best','fun r => .ok ⟨0, .UNKNOWN, best','C120: reason lost')
a(F,'cutPhase','.val.toNat (p.ints .DISJ_TERMS).val','.val.toNat (p.ints .CUTLIMIT).val','C120: terms')
a(F,'prepPhase','p.setI .BB_MODE 1','p.setI .BB_MODE 0','C120: mode of the runs in preprocessing')
a(F,'prepPhase','w.prob).bind','w.prob).bind fun o => .ok ⟨1, .UNKNOWN, best, .cleaned o, q⟩ --','C120: return code')
a(F,'prepPhase','(q.ints .PREPROCESS).val best w.prep','(q.ints .PREPROCESS).val 0 w.prep','C120: bound in cleaning')
a(F,'workPhase','.PREPROCESS).val ≠ 0','.PREPROCESS).val > 1','C120: mode 1')
a(F,'afterLp','⟨0, .OPTIMAL_SOLUTION_FOUND, lp, .integral, q⟩','⟨0, .OPTIMAL_SOLUTION_FOUND, best, .integral, q⟩','C120: value')
a(F,'afterLp','⟨0, .OPTIMAL_SOLUTION_FOUND, lp, .integral, q⟩','⟨0, .UNKNOWN, lp, .integral, q⟩','C120: reason')
a(F,'afterLp','(afterSolution w.prob best (keepSolfile w p) x)','(afterSolution w.prob best p x)','C119: solution file kept (harmless to reports)')
a(F,'mainRun','| none => .exit','| none => afterLp w 0 k.1 k.2','C120: LP not solved')
a(F,'mainCfg','gomory := (p.ints .GOMORY).val','gomory := 0','C120: Gomory switched off')
a(F,'mainCfg','cutLimit := (p.ints .CUTLIMIT).val','cutLimit := (p.ints .ROUNDS).val','C120: limit')
a(F,'modeOf','if v = 1 then .SPLITS','if v = 1 then .CROSSES','C120: mode')
R='RoundFile.lean'
a(R,'roundFileStem','if log = [] then "cutrounds".toList','if log = [] then "cutrounds_".toList ++ inst','C121 negation (fix)')
a(R,'roundFileStem','"/cutrounds_".toList ++ inst','"/cutrounds_".toList','C121: instance missing')
a(R,'roundFileName','++ "_d".toList ++ svIText terms','','C121: terms missing')
a(R,'roundHeader','"bound_gmic", "bound_vpc"','"bound_vpc", "bound_gmic"','C121: header swapped')
a(R,'roundZero','[.val (.int 0), .val (sv lp)','[.val (.int 1), .val (sv lp)','C121: number of round 0')
a(R,'roundZero','.val (.num 0), .val (.num initTime)]','.val (.num 0)]','C121: short line')
a(R,'roundZero','.val (sv lp), .val (sv lp), .val (sv lp)','.val (sv 0), .val (sv 0), .val (sv 0)','C121: bounds of round 0')
a(R,'svDens','if isInfinity v (10 ^ 100) then .inf','if isInfinity v then .inf','C121: infinity')
a(R,'roundDensity','(100 * ·)','(1 * ·)','C121: percent')
a(R,'roundDensity','if num > 0 then','if num ≥ 0 then','C121: no cuts')
a(R,'roundLine','.val (.int (r + 1))','.val (.int r)','C121: number of the round')
a(R,'roundLine','.val (sv x.bounds.gmic), .val (sv x.bounds.vpc)','.val (sv x.bounds.vpc), .val (sv x.bounds.gmic)','C121: swapped')
a(R,'roundLine','.val (.num x.times.gmicGen), .val (.num x.times.gmicApply)','.val (.num x.times.gmicApply), .val (.num x.times.gmicGen)','C121: times swapped')
a(R,'roundTable','roundZero lp initTime ::\n','\n','C121: round 0 missing')
a(R,'writeRounds','if f = name then some t else fs f','some t','C121: other files')
a(R,'writeRounds','if canOpen name then','if true then','C121: cannot open')
a(R,'writeRounds','else .ok fs','else table.bind fun t => .ok (fun f => if f = name then some t else fs f)','C121: unrequested')
a(R,'timeOutside','s2.totalTime nm t.2.2.2 - s.totalTime nm t.1)','s2.totalTime nm t.2.2.2)','C121: total instead of difference')
a(R,'timeInside','(s2, s1.totalTime nm t.2.2.1 - s1.totalTime nm t.2.1)','(s2, s2.totalTime nm t.2.2.1 - s1.totalTime nm t.2.1)','C121: after stop')
a(R,'measureAll','(measureAll m r.1 ts)','(measureAll m s ts)','C121: old timers')
a(R,'mergedTimers','("GEN_DISJ_TIME", "VPC_DISJ_GEN_TIME")','("GEN_DISJ_TIME", "VPC_GEN_CUTS_TIME")','C122: wrong timer')
a(R,'mergedTimers','("DISJ_SETUP_TIME", "VPC_DISJ_SETUP_TIME")','("GEN_DISJ_TIME", "VPC_DISJ_SETUP_TIME")','C122: wrong source')
a(R,'mergeTimers','s.addId (s.getId p.2) (gen.getValue p.1)','s.addId (s.getId p.2) 0','C122: nothing added')
a(R,'genTimers','(s.getValue "INIT_SOLVE_TIME")','0','C122 negation (fix)')
a(R,'mergeRounds','(genTimers work fresh s) s) s','(genTimers work s s) s) s','C122: timers not fresh')
N='NBSpace.lean'
a(N,'packCoor','filter fun e => !(isZero e.1 EPS)).map fun e => (e.2, e.1)\n  let tiny : SVec := (vals.zipIdx.filter fun e =>\n    isZero e.1 EPS &&','filter fun e => (isZero e.1 EPS)).map fun e => (e.2, e.1)\n  let tiny : SVec := (vals.zipIdx.filter fun e =>\n    isZero e.1 EPS &&','C03: keeps the tiny ones')
a(N,'packRay','((mergeTiny (tiny.map (·.1)) kept nonTiny).map fun e => (e.1, e.2 * scale), scale)','((mergeTiny (tiny.map (·.1)) kept nonTiny).map fun e => (e.1, e.2 * scale), 1)','C03: scale not reported')
P='PRLP.lean'
a(P,'dupInner','if d = -1 then (true, (r2, true) :: t)','if d = -1 then (true, (r2, false) :: t)','C03: which duplicate is kept')
a(P,'dupInner','else if d ≠ 2 then (true, (r2, false) :: t)','else if d = 2 then (true, (r2, false) :: t)','C03: different rows dropped')
for l in open('m11.out'):
    r=json.loads(l)
    if r['result']=='ok' and r['def'] in('numText','sumText','prepareTree','wayBefore'):
        M.append({k:r[k] for k in('file','def','old','new','claim')}|{'claim':r['claim']+' [rerun]'})
json.dump(M,open('m12.json','w'))
for m in M:
    s=open('/verif/lean/Verif/Model/'+m['file']).read()
    if s.count(m['old'])!=1: print(m['def'],s.count(m['old']),m['old'])
print(len(M))
