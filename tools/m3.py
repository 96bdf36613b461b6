import json
M=[]
def m(file,d,old,new,claim): M.append(dict(file=file+'.lean',**{'def':d},old=old,new=new,claim=claim))
f='Num'
m(f,'lessThanVal','v1 ≤ v2 - eps','v1 ≤ v2 + eps','C15: tolerance with the wrong sign')
m(f,'isVal','|v1 - v2| < eps','|v1 - v2| ≤ eps','C15: boundary in two classes')
m(f,'isInfinity','(v ≥ inf) || !(lessThanVal v inf eps)','(v ≥ inf)','C15: values just below infinity')
f='Params'
m(f,'rangeAllowed','else !(lessThanVal val mn || greaterThanVal val mx)','else !(lessThanVal val mn && greaterThanVal val mx)','C17: out of range accepted')
m(f,'rangeAllowed','else if isVal mn mx then isVal val mn','else if isVal mn mx then true','C17: anything accepted when both bounds agree')
m(f,'IntP.ok','if p.allowed ≠ [] then p.allowed.contains p.val','if p.allowed ≠ [] then true','C17: allowed list not checked')
m(f,'IntP.set','if q.ok then some q else none','if p.ok then some q else none','C17: old value checked instead of new')
m(f,'DblP.set','if q.ok then some q else none','some q','C17: no check')
m(f,'intDefaults','⟨"GOMORY", 0, -1, 1, []⟩','⟨"GOMORY", 0, -1, 2, []⟩','C17: wrong upper bound of a parameter')
m(f,'intDefaults','⟨"MODE", 0, 0, 4, [0, 1, 3, 4]⟩','⟨"MODE", 0, 0, 4, [0, 1, 2, 3, 4]⟩','C17: value not documented allowed')
m(f,'Params.setI','if j = i then q else p.ints j','if j = i then q else if j = .CUTLIMIT then q else p.ints j','C18/C52: another parameter changed too')
m(f,'Params.setS','if j = i then ((p.strs i).1, v) else p.strs j','((p.strs i).1, v)','C52: all string parameters changed')
m(f,'strtol','if neg then -(digitsVal ds : Int) else digitsVal ds','digitsVal ds','C51: sign ignored')
m(f,'parseLong','nothing || rest ≠ [] ||','nothing ||','C51: trailing garbage accepted')
m(f,'digitsVal','10 * a + (c.toNat','8 * a + (c.toNat','C51: wrong base')
m(f,'namedIntValue','else if (parseInt tmp.toList).1 then 1 else 0','else (parseInt tmp.toList).2','C18: (fix) parsed value is used')
m(f,'readParamsLine','| none => none\n    | some (tok, _)','| none => some p\n    | some (tok, _)','C18: line without value ignored')
m(f,'enableBB','s ||| o.val','s ^^^ o.val','C19: enabling twice switches off')
m(f,'disableBB','(s : BitVec 32) (o : BBOpt) : BitVec 32 := s &&& ~~~ o.val','(s : BitVec 32) (o : BBOpt) : BitVec 32 := s - o.val','C19: disabling an option that is off')
m(f,'BBOpt.val','| .gmics_off => 128','| .gmics_off => 64','C19: two options share a bit')
m(f,'bbValue','os.foldl (fun v o => v + o.val) 0','os.foldl (fun v o => v - o.val) 0','C19: value')
m(f,'enableTemp','s ||| o.val','s &&& o.val','C19: temp options')
m(f,'switchBits','| .cbc, true => disableBB (disableBB (enableBB s .cbc) .cplex) .gurobi','| .cbc, true => enableBB s .cbc','C20: other solver not switched off')
m(f,'switchBits','| .bb_gmics, false => disableBB (enableBB s .gmics_off) .gmics_on','| .bb_gmics, false => disableBB (enableBB s .gmics_on) .gmics_off','C20: switch inverted')
m(f,'switchBits','| .bb_strong_branching, false => disableBB s .strong_branching_on','| .bb_strong_branching, false => s','C20: cannot be switched off')
m(f,'longName','| "rounds" => some (.int .ROUNDS)','| "rounds" => some (.int .CUTLIMIT)','C52: option sets another parameter')
m(f,'cliStep','  | .int i =>\n    let (rc, v) := parseInt arg\n    if rc then p.setI i v else none','  | .int i =>\n    let (_, v) := parseInt arg\n    p.setI i v','C52: unreadable argument accepted')
m(f,'cliStep','if !rc || (v ≠ 0 && v ≠ 1) then none','if !rc then none','C20: switch accepts other numbers')
m(f,'tempValidate','enableTemp v .GEN_TIKZ_STRING\n  else v','v\n  else v','C52: sub-option does not enable output')
m(f,'getCbcStrategies','let branch := (strategy.tmod 100 - compare).tdiv 10','let branch := (strategy.tmod 100).tdiv 100','C31: wrong digit')
m(f,'getCbcStrategies','(sign * (strategy.tmod 1000 - compare - 10 * branch)).tdiv 100','(strategy.tmod 1000 - compare - 10 * branch).tdiv 100','C31: sign ignored')
f='Timer'
m(f,'TimeStats.endId','value := t.value + (now - t.start), running := false } }','value := now - t.start, running := false } }','C16: overwritten instead of accumulated')
m(f,'TimeStats.endId','value := t.value + (now - t.start), running := false } }','value := t.value + (now - t.start), running := true } }','C16: timer keeps running')
m(f,'TimeStats.startId','if t.running then none\n','if false then none\n','C16: restart of a running timer loses time')
m(f,'TimeStats.endAll','if t.running then { t with value := t.value + (now - t.start), running := false } else t','{ t with value := t.value + (now - t.start), running := false }','C16: stopped timers advanced')
m(f,'TimeStats.step','(v * clocksPerSec)','v','C16: add_time unit')
m(f,'TimeStats.totalTicks','if t.running then t.value + now - t.start else t.value','t.value','C16: running interval not included')
m(f,'TimeStats.reachedTimeLimit','s.totalTime nm now > maxTime','s.totalTime nm now ≥ maxTime','C16: boundary of time limit')
m(f,'insertName','else (k, i) :: insertName nm id t','else (nm, id) :: (k, i) :: t','C16: map not sorted / duplicates (benign for lookups?)')
m(f,'TimeStats.getNameFuel','if i = id then some nm else s.getNameFuel id fuel','if i = id then some nm else some ""','C53: terminates with a wrong name')
f='VecOps'
m(f,'dotStep','rnd (rnd (x * y) - s.comp)','rnd (rnd (x * y) + s.comp)','C37: compensation sign (matters only with rounding)')
m(f,'dotStep','rnd (s.acc + currterm)','rnd (currterm)','C37: accumulator dropped')
m(f,'dotDenseLoop','dotDenseLoop rnd kahan a b (i + 1) n','dotDenseLoop rnd kahan a b i n','C37: index not advanced')
m(f,'dotSparseLoop','else if x.1 < y.1 then','else if x.1 > y.1 then','C37: wrong side advanced')
m(f,'sumSkip','(y.1, mult2 * y.2) :: r.1','(y.1, y.2) :: r.1','C36: multiplier missing')
m(f,'sumTail','(w.filter fun y => !(isZero y.2 eps)).map','(w.filter fun y => (isZero y.2 eps)).map','C36: tail filter inverted')
m(f,'sumNew','(mult1 * x.2 + mult2 * y.2, w)','(mult1 * x.2 + mult2 * y.2, y :: w)','C36: matched entry not consumed')
m(f,'packedSortedVectorSum','let mult := if isZero mult1 eps then mult2 else mult1','let mult := if isZero mult1 eps then mult1 else mult2','C36: wrong multiplier')
m(f,'rowSquares','p + e * e','p + e','C37: norm wrong (is it covered?)')
f='Stats'
m(f,'updateStat','min := Min.min s.min val','min := val','C21: minimum')
m(f,'updateStat','if statIsZero val then s.numNonzero else s.numNonzero + 1','s.numNonzero + 1','C21: nonzero count')
m(f,'finalizeStats','s.stddev / divisor - avg * avg','s.stddev / divisor + avg * avg','C21: variance')
m(f,'unfinalizeStats','(s.stddev * s.stddev + s.avg * s.avg) * (oldSize : K)','(s.stddev * s.stddev) * (oldSize : K)','C21: second moment restored wrongly')
m(f,'updateAndFinalizeStats','let newSize : ℤ := prevSize + vals.length','let newSize : ℤ := vals.length','C21: size')
f='Files'
m(f,'lastSplit','some (pre.reverse, (s.reverse.takeWhile','some (pre, (s.reverse.takeWhile','C22: prefix reversed')
m(f,'finishParts',"fun c => c = '/' || c = '\\\\'","fun c => c = '/'",'C22: backslash not a separator')
m(f,'parseFilename',"ext = ['g', 'z'] ∨ ext = ['b', 'z', '2']","ext = ['g', 'z']",'C22: bz2 not recognized')
m(f,'objLoop','if name = inst then','if name ≠ inst then','C42: comparison inverted')
m(f,'objLoop','| none => objLoop stod inst lines\n        else','| none => .lowest\n        else','C42: unreadable ends the search')
m(f,'solLine','(if tok = [] ∨ tok = [\' \'] then [0] else []) ++','','C54: (fix) double blank no zero')
m(f,'getSolFromFile','some (lines.flatMap (solLine stod))','some (sol ++ lines.flatMap (solLine stod))','C54: old content kept')
m(f,'getSolFromFile','some (lines.flatMap (solLine stod))','some ((lines.drop 1).flatMap (solLine stod))','C54: first line skipped')
json.dump(M,open('/tmp/w/m3.json','w'))
