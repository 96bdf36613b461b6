import json
F='StrongRun.lean'
ms=[]
def m(d,old,new,claim,f=None):
    f=f or F
    ss=open('/verif/lean/Verif/Model/'+f).read()
    assert ss.count(old)==1,(d,old,ss.count(old))
    ms.append({'file':f,'def':d,'old':old,'new':new,'claim':claim})
m('SRun.write','if w.upper then { s with hi','if ¬ w.upper then { s with hi','upper and lower bounds swapped') if False else None
m('restoreCol','s.write ⟨j, false, e.saveLo j⟩ else s','s.write ⟨j, false, e.saveHi j⟩ else s','lower bound restored to the upper bound')
m('restoreCol','if e.saveHi j ≠ (if e.live then s.hi j else e.saveHi j) then','if e.saveHi j ≠ (if e.live then s.lo j else e.saveHi j) then','the wrong bound is compared')
m('restoreCol','s.write ⟨j, true, e.saveHi j⟩ else s','s else s','upper bounds are not restored')
m('restoreAll','List.range e.ncols','List.range (e.ncols - 1)','the last column is not restored')
m('branchSide','clones := s.clones + 1','clones := s.clones + 2','a second clone that is never freed')
m('takeStatus','iters := s.iters + t.iters, cutoff := t.good }, 0)','iters := s.iters + t.iters, cutoff := t.good }, 1)','a side with a solution counts as infeasible')
m('takeStatus','t.status = 3 ∧ e.trust = true','t.status = 3','an untrusted solution sets the cutoff')
m('takeStatus','({ s with iters := s.iters + t.iters }, t.status)','({ s with iters := s.iters + t.iters, cutoff := t.good }, t.status)','cutoff set without a solution')
m('takeStatus','else ({ s with iters := s.iters + t.iters }','else ({ s with iters := t.iters }','iterations not added up')
m('trySide','clones := r.1.clones - 1','clones := r.1.clones','the clone is not deleted')
m('trySide','(restoreAll e s, r.2)','(s, r.2)','bounds are not restored')
m('tryCand','let q := trySide e r.1 c.bound c.second','let q := trySide e r.1 c.bound c.first','the first side is tried twice')
m('tryCand','done := q.1.done + 1','done := q.1.done + 2','each side counts as a candidate')
m('tryCand','results := q.1.results + 1','results := q.1.results','results are not counted')
m('strongLoop','if r.2.1 = 1 ∧ r.2.2 = 1 then','if r.2.1 = 1 ∨ r.2.2 = 1 then','one infeasible side ends the node')
m('strongLoop','best := some (c.obj, -1)','best := some (c.obj, 0)','way not off when both sides are infeasible')
m('strongLoop','if r.2.1 = 1 then 0 else 1) }, 2)','if r.2.1 = 1 then 1 else 0) }, 2)','wrong way')
m('strongLoop','fixed := r.1.fixed + 1','fixed := r.1.fixed','fixed not counted')
m('strongLoop','if crit then','if !crit then','return criterion inverted')
m('strongLoop','else strongLoop e crit cs s 1','else strongLoop e crit cs s rc','code 1 forgotten')
m('strongLoop','else if c.timeUp then (s, 3)','else if c.timeUp then (s, 1)','time limit not reported with one-sided candidate')
m('strongLoop','else if c.timeUp then (r.1, 3)','else if c.timeUp then (r.1, rc)','time limit not reported')
m('doStrongBranching','marks := r.1.marks - 1','marks := r.1.marks','snapshot not deleted')
m('doStrongBranching','arrays := r.1.arrays - 2','arrays := r.1.arrays - 1','one array leaks')
m('doStrongBranching','results := 0 } 0','results := s.results } 0','old results are kept')
m('doStrongBranching','⟨trust, ncols, live, s.lo, s.hi⟩','⟨trust, ncols, live, s.lo, s.lo⟩','lower bounds saved twice')
m('fixSide','min (max (sol col) (b.1 col)) (b.2 col)','sol col','value not moved into the bounds')
m('fixSide','Function.update b.1 col (⌈v⌉ : ℚ)','Function.update b.1 col (⌈v⌉ + 1 : ℚ)','bound one too high')
m('fixSide','Function.update b.2 col (⌊v⌋ : ℚ)','Function.update b.2 col (⌊v⌋ - 1 : ℚ)','bound one too low')
m('fixSide','if up then (Function.update','if !up then (Function.update','direction swapped')
m('fixResult','if r.upInf then fixSide sol r.col false b','if r.upInf then fixSide sol r.col true b','fixed to the infeasible side')
m('fixResult','if r.downInf then fixSide sol r.col true b','if r.upInf then fixSide sol r.col true b','upper status looked at twice')
m('fixResults','if fixVariables then','if true then','fixVariables ignored')
json.dump(ms,open('m19.json','w'))
print(len(ms))
