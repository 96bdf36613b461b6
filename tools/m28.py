import json
ms=[]
def m(f,d,old,new,claim):
    ss=open('/verif/lean/Verif/Model/'+f).read()
    assert ss.count(old)==1,(d,old,ss.count(old))
    ms.append({'file':f,'def':d,'old':old,'new':new,'claim':claim})
F='TikzDraw.lean'
m(F,'dangleRow','(if b then (c.1, 2) else c) :: r','(if !b then (c.1, 2) else c) :: r','children with children marked instead of those without')
m(F,'dangleRow','(if b then (c.1, 2) else c) :: r','(if b then (c.1, 3) else c) :: r','dangling node marked as open')
m(F,'dangleRow','(if b then (c.1, 2) else c) :: r','c :: r','dangling nodes never marked')
m(F,'dangleRow','if c.2 = 0 then','if c.2 = 1 then','integer nodes corrected instead of plain ones')
m(F,'dangleLoop','decide (c.2 < 0)','decide (c.2 ≤ 0)','plain children not counted as children')
m(F,'dangleLoop','leaf.set i true else leaf','leaf else leaf','leaves never recorded')
m(F,'dangleLoop','leaf.set i true else leaf','leaf.set (i + 1) true else leaf','wrong node recorded as leaf')
m(F,'dangleLoop','dangleLoop i (if row','dangleLoop i (if row\'','leaf test after the correction (same behaviour: no place becomes empty)')
m(F,'dangle','List.replicate n false','List.replicate n true','all nodes start as leaves')
m(F,'dangle','dangleLoop n (List','dangleLoop (n - 1) (List','last node not examined')
m(F,'dangle','List.replicate n false','List.replicate (n - 1) false','vector of leaves too short')
m(F,'drawColor','loc = 1 ∨ loc = 4','loc = 1','solution found by strong branching not green')
m(F,'drawColor','if loc = 2 then "red"','if loc = 2 then "blue"','pruned nodes blue')
m(F,'drawColor','if loc = 3 then "blue"','if loc = 2 then "blue"','open nodes plain')
m(F,'drawItem','node = 0 ∨ loc = 4','node = 0','label read for solutions found by strong branching')
m(F,'drawItem','node = 0 ∨ loc = 4','loc = 4','label read for the root')
m(F,'drawItem','t.vars[node]?','t.vars[par]?','label of the parent')
m(F,'drawItem','slot == 0','slot == 1','side of the label')
m(F,'drawKids','c.1.1 < 0 ∨ c.1.2 < 0','c.1.1 < 0 ∨ c.1.2 ≤ 0','plain children not drawn')
m(F,'drawKids','c.1.1 < 0 ∨ c.1.2 < 0','c.1.2 < 0','test of the child left out (same behaviour: both are set together)')
m(F,'drawKids','g c.1.1.toNat c.2 c.1.2','g c.1.1.toNat c.2 0','colour of the child lost')
m(F,'drawKids','.ok (a ++ b)','.ok a','only the first child drawn')
m(F,'drawNode','if node < n ∧ loc ≠ 4 then','if loc ≠ 4 then','children of open nodes read: outside of the tables')
m(F,'drawNode','if node < n ∧ loc ≠ 4 then','if node < n ∧ loc ≠ 1 then','children of integer nodes not drawn')
m(F,'drawNode','if node < n ∧ loc ≠ 4 then','if node < n then','test for solutions left out (same behaviour in closed trees: their numbers are not below numNodes)')
m(F,'drawNode','drawNode n t f node c','drawNode n t f par c','children drawn below the grandparent')
m(F,'drawNode','.ok (d :: ds)','.ok ds','node itself not written')
m(F,'drawNode','else .ok [d]','else .ok []','leaves not written')
m(F,'drawClosed','(dangle (s.count + 1) t).bind fun t =>','(dangle s.count t).bind fun t =>','last node not corrected')
m(F,'drawOpen','tikzTable same s s.active','tikzTable same s []','open nodes not drawn')
F='Collect.lean'
m(F,'finishTerm','if w.timeUp then .ok (some s.obj, t, .timeLimit)','if w.timeUp then .ok (none, t, .timeLimit)','value not reported at the time limit (repairs C153; the code reports it)')
m(F,'finishTerm','.ok (some s.obj, t, oc)','.ok (none, t, oc)','value of a collected term not reported')
m(F,'finishTerm','.ok (some s.obj, t, oc)','.ok (some t.obj, t, oc)','saved value reported instead of the solved one')
m(F,'finishTerm','{ t with feasible := false }','t','infeasible term stays feasible')
m(F,'doTerm','if !t.feasible then','if t.feasible then','feasible terms skipped')
m(F,'doTerm','(strengthenTerm strengthen w Q s).bind (finishTerm E o w t)','finishTerm E o w t (some s)','term not strengthened')
m(F,'doTerms','r.1.toList ++ rs.1','rs.1','values not reported')
m(F,'doTerms','doTerms E o strengthen V w (k + 1) ts','doTerms E o strengthen V w k ts','answers of the first term for all')
m(F,'collectInt','[dot x - offset]','[dot x + offset]','constant of the objective with the wrong sign')
m(F,'collectInt','let viol := dot x - dot o.sol','let viol := dot x','right-hand side of the stored solution not relative to the LP value')
m(F,'setupAll','(p.2 ++ r.1).foldl','r.1.foldl','value of the stored solution not reported')
m(F,'setupAll','(p.2 ++ r.1).foldl','p.2.foldl','values of the terms not reported')
m(F,'setupAll','setupConstraints flip p.1 r.2.2','setupConstraints flip none r.2.2','row of the stored solution missing')
F='Disj.lean'
m(F,'Disj.updateObj','if v < d.bestObj then','if v > d.bestObj then','greatest value instead of the least')
m(F,'Disj.updateObj','{ d with bestObj := v } else d','{ d with worstObj := v } else d','best value never updated')
m(F,'Disj.updateObj','if v > d.worstObj','if v < d.worstObj','worst value wrong')
json.dump(ms,open('m28.json','w'))
print(len(ms))
