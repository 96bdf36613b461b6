import json
F='Order.lean'
ms=[]
def m(d,old,new,claim,f=None):
    f=f or F
    ss=open('/verif/lean/Verif/Model/'+f).read()
    assert ss.count(old)==1,(d,old,ss.count(old))
    ms.append({'file':f,'def':d,'old':old,'new':new,'claim':claim})
m('DVal.lt','| .nan, _ => false\n  | _, .nan','| .nan, _ => true\n  | _, .nan','NaN smaller than everything, also itself')
m('DVal.lt','| .ninf, .ninf => false','| .ninf, .ninf => true','minus infinity less than itself')
m('DVal.lt','| .fin a, .fin b => decide (a < b)','| .fin a, .fin b => decide (a ≤ b)','less or equal: not irreflexive')
m('DVal.lt','| .fin _, .pinf => true','| .fin _, .pinf => false','infinity not above the finite values')
m('DVal.lt','| .pinf, _ => false','| .pinf, _ => true','infinity below everything')
m('idxAsc','(arr.getD a .nan).lt (arr.getD b .nan)\n\n/-- `index_cmp_dsc`','(arr.getD b .nan).lt (arr.getD a .nan)\n\n/-- `index_cmp_dsc`','sorted in the wrong direction')
m('idxDsc','(arr.getD b .nan).lt (arr.getD a .nan)','(arr.getD a .nan).lt (arr.getD b .nan)','sorted in the wrong direction') if False else None
m('RayInfo.less','decide (a.minOrtho > b.minOrtho) ||','decide (a.minOrtho < b.minOrtho) ||','wrong direction of the first key')
m('RayInfo.less','decide (a.avgOrtho > b.avgOrtho)','decide (a.avgOrtho ≥ b.avgOrtho)','equal rays less than each other')
m('RayInfo.less','b.minOrtho (1 / 10) &&','b.minOrtho 0 &&','no tolerance: it is then a strict weak order and nothing is lost')
m('setInsert','else if lt x y then x :: y :: l else y :: l','else x :: y :: l','equivalent elements inserted twice')
m('setInsert','if lt y x then y :: setInsert lt x l','if lt x y then y :: setInsert lt x l','inserted at the wrong end')
m('cLess','| [], _ :: _ => true','| [], _ :: _ => false','a prefix is not before the longer string')
m('cLess','| _ :: _, [] => false','| _ :: _, [] => true','a longer string before its prefix')
m('cLess','if a = b then cLess s t else','if a = b then false else','only the first character is compared')
m('cLess','decide (a.toNat < b.toNat)','decide (a.toNat ≤ b.toNat + 1)','neighbouring characters less than each other')
m('ltstr','cLess (cStr s) (cStr t)','cLess (cStr t) (cStr s)','order of the timers reversed')
m('ltstr','cLess (cStr s) (cStr t)','cLess (cStr s) t','only one name cut at NUL')
m('paramLess','bool := cLess s t'.replace('bool','Bool'),'Bool := cLess (cStr s) t','one name cut at NUL')
F='Sense.lean'
m('solvedObjective','| .cbc => toMinimization file','| .cbc => file','Cbc solves the file in its own sense')
m('solvedObjective','| .gurobi | .cplex => file','| .gurobi | .cplex => toMinimization file','Gurobi solves the minimization problem: the negations are false')
m('senseRecord','{ obj := (solvedObjective s file).value x }','{ obj := (toMinimization file).value x }','values converted: the negations are false')
m('senseRecord','{ obj := (solvedObjective s file).value x }','{ obj := (solvedObjective s file).value x + file.offset }','constant left out of the value')
m('senseBest','(bestOver {} (xs.map (senseRecord s file))).obj','(bestOver {} (xs.map (senseRecord s file))).bound','bound reported as objective')
m('senseBest','(bestOver {} (xs.map (senseRecord s file))).obj','(bestOver {} ((xs.take 1).map (senseRecord s file))).obj','only the first run')
m('stopsAtBound','decide (b ≤ v) else decide (v ≤ b)','decide (v ≤ b) else decide (v ≤ b)','the sense is ignored')
m('stopsAtBound','else decide (v ≤ b)','else decide (v < b)','strict at the boundary')
json.dump(ms,open('m18.json','w'))
print(len(ms))
