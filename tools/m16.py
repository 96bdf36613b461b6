import json
F='Collect.lean'
s=open('/verif/lean/Verif/Model/'+F).read()
ms=[]
def m(d,old,new,claim,f=F):
    ss=open('/verif/lean/Verif/Model/'+f).read()
    assert ss.count(old)==1,(d,old,ss.count(old))
    ms.append({'file':f,'def':d,'old':old,'new':new,'claim':claim})
m('pointCheckExits','if isVal (got - viol) 0 E.EPS then false\n  else !(isVal (got - viol) 0 E.DIFFEPS) && greater','if isVal (got - viol) 0 E.EPS then false\n  else !(isVal (got - viol) 0 E.EPS) && greater','strict tolerance used twice: correct runs end')
m('pointCheckExits','!(isVal (got - viol) 0 E.DIFFEPS) && greaterThanVal','!(isVal (got - viol) 0 E.DIFFEPS) || greaterThanVal','ratio alone ends the process')
m('pointCheckExits','greaterThanVal (pointRatio E.EPS got viol) (103 / 100)','greaterThanVal (pointRatio E.EPS got viol) 2','large deviations accepted: the exact exit condition is wrong')
m('collectPoint','let viol := s.obj - o.obj\n','let viol := s.obj\n','objective of the root not subtracted')
m('collectPoint','if pointCheckExits E (dotRC o.rc v) viol then .exit else .ok (v, viol)','if pointCheckExits E viol (dotRC o.rc v) then .exit else .ok (v, 0)','value of the point lost')
m('rayCheckExits','(lessThanVal got 0 E.EPS && lessThanVal got 0 E.DIFFEPS) ||\n  (!(isVal got viol E.EPS) && !(isVal got viol E.DIFFEPS))','lessThanVal got 0 E.EPS ||\n  (!(isVal got viol E.EPS) && !(isVal got viol E.DIFFEPS))','slightly negative slopes end the process')
m('rayCheckExits','(!(isVal got viol E.EPS) && !(isVal got viol E.DIFFEPS))\n\n','!(isVal got viol E.EPS)\n\n','strict tolerance for slopes')
m('rayStoreExits','!(isVal viol got E.DIFFEPS) || (lessThanVal got 0 E.EPS && lessThanVal got 0 E.DIFFEPS)','!(isVal viol got E.EPS) || (lessThanVal got 0 E.EPS && lessThanVal got 0 E.DIFFEPS)','strict tolerance when a ray is stored')
m('rayStoreExits','!(isVal viol got E.DIFFEPS) || (lessThanVal got 0 E.EPS && lessThanVal got 0 E.DIFFEPS)','!(isVal viol got E.DIFFEPS) || lessThanVal 0 got E.EPS','sign of the slope test wrong')
m('collectRay','else if rayStoreExits E (dotRC o.rc p.1 / p.2) (s.rayObj j) then .exit','else if rayStoreExits E (dotRC o.rc p.1) (s.rayObj j) then .exit','slope not divided by the scaling: scaled rays end the process')
m('collectRay','if rayCheckExits E (dotRC o.rc p.1 / p.2) (s.rayObj j) then .exit','if rayCheckExits E (dotRC o.rc p.1) (s.rayObj j) then .exit','first slope check on the scaled ray')
m('collectRays','if s.isFixed j then collectRays E o s js\n    else (collectRay','if false then collectRays E o s js\n    else (collectRay','rays of fixed variables are checked too')
m('LPAns.check','| .notOptimal => .ok none','| .notOptimal => .exit','an infeasible term ends the process')
m('savedObjExits','if isInfinity saved then false\n  else if isVal new saved DIFFEPS then false','if isVal new saved DIFFEPS then false','missing saved value ends the process')
m('savedObjExits','  else if isVal new saved DIFFEPS then false\n  else greaterThanVal (savedRatio DIFFEPS new saved) (103 / 100)','  else if isVal new saved DIFFEPS then false\n  else true','every small deviation from the saved value ends the process')
m('doTerm','if savedObjExits E.DIFFEPS t.obj s.obj then .exit','if savedObjExits E.DIFFEPS s.obj t.obj then .exit','saved and new value swapped')
m('doTerm','if !t.feasible then .ok (none, t, .infeasible)','if !t.feasible then .exit','an infeasible term ends the process')
m('finishTerm','| none => .ok (none, { t with feasible := false }, .notOptimal)','| none => .exit','a term found infeasible ends the process')
m('finishTerm','if w.timeUp then .ok (some s.obj, t, .timeLimit)','if w.timeUp then .exit','time limit ends the process')
m('collectInt','let viol := dot x - dot o.sol\n','let viol := dot x - o.obj\n','objective constant counted: incumbents end the process')
m('collectInt','if !(isVal (dotRC o.rc v) viol E.EPS) && !(isVal (dotRC o.rc v) viol E.DIFFEPS) then .exit','if !(isVal (dotRC o.rc v) viol E.EPS) then .exit','strict tolerance for the incumbent')
m('collectInt','if !(isVal (dotRC o.rc v) viol E.EPS) && !(isVal (dotRC o.rc v) viol E.DIFFEPS) then .exit','if !(isVal (dotRC o.rc v) viol E.EPS) && !(isVal (dotRC o.rc v) 0 E.DIFFEPS) then .exit','incumbent compared with zero')
m('collectInt','if sol = [] then .ok (none, [])','if sol = [] then .exit','no incumbent ends the process')
m('compCoor','if var < lp.numCols then |x var - orig var|','if var < lp.numCols then x var - orig var','sign of a variable at its upper bound lost: correct points end the process','NBSpace.lean')
m('takeTiny','let obj\' := obj + e.2 * rc e.1\n    let r := takeTiny EPS objViol rc t obj\' (!(isVal','let obj\' := obj + e.2\n    let r := takeTiny EPS objViol rc t obj\' (!(isVal','reduced cost forgotten when small numbers are added','NBSpace.lean')
m('packCoor','isZero e.1 EPS && !(isZero (e.1 * rc e.2) EPS)','isZero e.1 EPS && isZero (e.1 * rc e.2) EPS','the wrong small numbers are kept: correct points end the process','NBSpace.lean')
json.dump(ms,open('/tmp/w/m16.json','w')); print(len(ms))
