import json
M=[]
def m(file,d,old,new,claim): M.append(dict(file=file+'.lean',**{'def':d},old=old,new=new,claim=claim))
f='Solver'
m(f,'negateObjective','coeff := o.coeff.map fun c => -1 * c','coeff := o.coeff','C23/C26: coefficients not negated')
m(f,'negateObjective','offset := if o.offset ≠ 0 then -1 * o.offset else o.offset','offset := o.offset','C23/C26: offset not negated')
m(f,'toMinimization','if o.sense < 1 / 10 ^ 3 then negateObjective o 1','if o.sense < 1 / 10 ^ 3 then negateObjective o (-1)','C23: sense stays maximize')
m(f,'toMinimization','if o.sense < 1 / 10 ^ 3 then','if o.sense > 1 / 10 ^ 3 then','C23: minimization negated')
m(f,'flipObj','if !(isVal o.sense sense) then','if (isVal o.sense sense) then','C26: flipped when equal')
m(f,'loadVar',"⟨0, 1, true⟩","⟨v.lb, v.ub, true⟩",'C55: binary bounds')
m(f,'loadProblemData','flipObj 1 {','flipObj (-1) {','C55: maximization problem loaded')
m(f,'newObjCoeff','old + elem * mult / twoNorm','elem * mult / twoNorm','C24: overwrites instead of adding')
m(f,'addToObjective','let c := if zeroOut then c.map fun _ => 0 else c','let c := c','C24: old objective not cleared')
m(f,'addToObjective','if !(isZero mult) && scale && greaterThanVal real 0 then real else 1','if scale then real else 1','C24: scale by tiny norm')
m(f,'skipCols','decide (j < col)','decide (j ≤ col)','C24: column skipped')
m(f,'setConstantObjective','| _ => some (c.map fun _ => val)','| _ => some c','C24: constant objective not set')
m(f,'convertCutsToSparseCuts','c.row.map (·.2), c.lb⟩','c.row.map (·.2), 0⟩','C25: rhs lost')
m(f,'toInt','if 0 ≤ q then ⌊q⌋ else ⌈q⌉','⌊q⌋','C25: floor instead of truncation')
m(f,'denseCoeffs','setObjCoeff c e.1 (v : ℚ)','setObjCoeff c (e.1 + 1) (v : ℚ)','C25: index off by one')
f='SolverOps'
m(f,'isNonBasicUBCol','decide (s = .atUpperBound) ||','decide (s = .atLowerBound) ||','C44/C67: column status')
m(f,'isNonBasicLBCol','&& !(lessThanVal reducedCost 0))','&& (lessThanVal reducedCost 0))','C44: fixed variable at both or no bounds')
m(f,'isNonBasicUBSlack','decide (s = .atLowerBound) ||','decide (s = .atUpperBound) ||','C44/C67: flipped row status forgotten')
m(f,'BasisInfo.isUB','isNonBasicUBSlack (b.rowStatus (var - b.numCols)) (b.rowPrice (var - b.numCols))','isNonBasicUBSlack (b.rowStatus var) (b.rowPrice (var - b.numCols))','C44: row index')
m(f,'hotRetry','let s := setBound I isUB col new s\n','let s := setBound I isUB col orig s\n','C57: bound left at the original value')
m(f,'hotRetry','let s := I.markHot (I.resolve (setBound I isUB col orig s))','let s := I.resolve (setBound I isUB col orig s)','C57: hot start not marked again')
m(f,'solveFromHotStart','I.markHot (I.initialSolve (I.unmarkHot r.1))','I.initialSolve (I.unmarkHot r.1)','C57: hot start lost')
m(f,'resolveLoop','resolveLoop max (count + 1) curr (I.resolve s)','resolveLoop max (count + 1) curr s','C56: (no resolve) result stale?')
m(f,'checkTail','if I.isPrimalInf s then .ok (false, s)\n  else if !(I.isOptimal s) then','if I.isPrimalInf s then .ok (true, s)\n  else if !(I.isOptimal s) then','C56: infeasible reported optimal')
m(f,'checkTail','else if !(I.isOptimal s) then .ok (false, s)\n    else .ok (true, s)','else .ok (true, s)','C56: not optimal reported optimal')
m(f,'checkTail','if exitOnDual then .exit else .ok (false, s)','.exit','C56: exits although not asked')
m(f,'checkSolverOptimality','| some s => checkTail I exitOnDual 0 0 s\n      | none =>','| some s => checkTail I true 0 0 s\n      | none =>','C56: exits although not asked after cleanup')
m(f,'cutRange','start + num ≤ cs.length','start + num ≤ cs.length + 1','C43: read past the end')
m(f,'addCuts','if start = 0 ∧ num = cs.length then .ok (I.applyCuts cs s)','if start = 0 then .ok (I.applyCuts cs s)','C43: more cuts than requested')
m(f,'afterCuts','.ok (if I.isOptimal s then I.objValue s else dblMax, s)','.ok (I.objValue s, s)','C43: value of non-optimal LP')
m(f,'applyCutsFrom','if !(I.isOptimal s) then .ok (dblMax, s)\n','if false then .ok (dblMax, s)\n','C43: cuts added to an unsolved LP')
m(f,'applyCutsCustom','applyCutsFrom I solver cs 0 num compareObj','applyCutsFrom I solver cs 1 num compareObj','C43: first cut skipped')
m(f,'getObjValue','.ok (r.1, I.restoreBase (I.rows s).length r.2)','.ok (r.1, r.2)','C43: cuts left in the solver')
m(f,'getObjValue','else if I.isPrimalInf s then .ok (dblMax, s)','else if I.isPrimalInf s then .ok (-1 * dblMax, s)','C43: infeasible LP gets lowest value')
m(f,'maskedApply','(if b then I.applyRowCuts [c] s else s)','(if b then s else I.applyRowCuts [c] s)','C43: mask inverted')
m(f,'vpcApplyCuts','s\', if clear then [] else cs)','s\', if clear then cs else [])','C43: clear inverted')
f='ProbData'
m(f,'getVarNBIndex','-1 * (1 + r)','-1 * r','C40: lookup off by one')
m(f,'visitRow','t.rowOfVar.set b (row : ℤ)','t.rowOfVar.set row (b : ℤ)','C40: swapped')
m(f,'visitNonbasic','nb := t.nb ++ [var] }','nb := var :: t.nb }','C40: order')
m(f,'visitNonbasic','t.rowOfVar.getD var 0 - t.nb.length','t.rowOfVar.getD var 0 - t.nb.length - 1','C40: off by one')
m(f,'visitVar','if B.numCols ≤ var ∧ B.basics[var - B.numCols]? ≠ some var then .exit','if B.numCols ≤ var ∧ B.basics[var - B.numCols]? = some var then .exit','C40: exit condition')
m(f,'nbReducedCost','then -1 * D.reducedCost v else D.reducedCost v','then D.reducedCost v else D.reducedCost v','C67: not complemented')
m(f,'nbReducedCosts','if lessThanVal d 0 && lessThanVal d 0 DIFFEPS then .exit','if lessThanVal d 0 then .exit','C67: exits too early')
m(f,'takeRef','if x ≠ 0 then min p.1 |x| else p.1','min p.1 |x|','C68: zero makes the tolerance zero')
m(f,'instanceEps','min EPS (p.1 / p.2)','max EPS (p.1 / p.2)','C68: too large')
m(f,'minAbs','if |y| < |m| then y else m','if |y| > |m| then y else m','C68: min')
json.dump(M,open('/tmp/w/m4.json','w'))
