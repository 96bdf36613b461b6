import json
O='ObjCopy.lean'
L=[
(O,'BMem.delete','| none => .undef\n    | some _ => .ok { h with mem := Function.update h.mem a none }','| none => .undef\n    | some _ => .ok h','bases are never freed'),
(O,'BMem.clone','| some b => .ok (h.new b, some h.next)','| some b => .ok (h, some a)','copies share the basis'),
(O,'BMem.new','h.next + 1⟩','h.next⟩','addresses used twice'),
(O,'TermM.init','(h.delete t.basis).bind fun h1 =>\n  (h1.clone src.basis)','(Res.ok h).bind fun h1 =>\n  (h1.clone src.basis)','assignment leaks the old basis'),
(O,'TermM.init','feasible := src.data.feasible','feasible := t.data.feasible','flag not copied'),
(O,'TermM.init','ineqs := src.data.ineqs }','ineqs := [] }','inequalities not copied'),
(O,'TermM.init','changes := src.data.changes\n','changes := t.data.changes\n','bounds not copied'),
(O,'TermM.init','basis := r.2 })','basis := none })','basis not copied'),
(O,'TermM.clear','.ok (h1, { t with basis := none })','.ok (h1, t)','pointer not reset: double deletion'),
(O,'clearTerms','(t.clear h).bind fun r => (clearTerms r.1 ts).bind fun q => .ok (q.1, r.2 :: q.2)','(t.clear h).bind fun r => .ok (r.1, r.2 :: ts)','only the first term cleared'),
(O,'assignTerms','| ts, [] => (clearTerms h ts).bind fun r => .ok (r.1, [])','| ts, [] => .ok (h, ts)','surplus terms kept'),
(O,'assignTerms','| ts, [] => (clearTerms h ts).bind fun r => .ok (r.1, [])','| _, [] => .ok (h, [])','surplus terms not destroyed'),
(O,'relocate','(clearTerms r.1 ts).bind fun q => .ok (q.1, r.2)','(clearTerms r.1 ts).bind fun q => .ok (q.1, q.2)','growing loses the bases'),
(O,'relocate','(assignTerms h [] ts).bind fun r => (clearTerms r.1 ts).bind fun q => .ok (q.1, r.2)','(assignTerms h [] ts).bind fun r => .ok (r.1, r.2)','growing leaks'),
(O,'pushTerm','((localTerm h d b).2.clear c.1).bind fun e => .ok (e.1, r.2 ++ [c.2])','(Res.ok (c.1, c.2)).bind fun e => .ok (e.1, r.2 ++ [c.2])','the local term is not destroyed'),
(O,'pushTerm','(TermM.blank.init r.1 (localTerm h d b).2).bind fun c =>','(Res.ok (r.1, (localTerm h d b).2)).bind fun c =>','shallow copy of the local term'),
(O,'pushTerm','.ok (e.1, r.2 ++ [c.2])','.ok (e.1, c.2 :: r.2)','term added in front'),
(O,'copyHead','rootObj := src.rootObj','rootObj := 0','root value not copied'),
(O,'copyHead','bestObj := src.bestObj, worstObj := src.worstObj','bestObj := src.worstObj, worstObj := src.bestObj','best and worst swapped'),
(O,'copyHead','numTerms := src.numTerms','numTerms := 0','number of terms not copied'),
(O,'copyHead','commonIneqs := src.commonIneqs','commonIneqs := []','common inequalities not copied'),
(O,'copyHead','intSol := src.intSol','intSol := []','integer solution not copied'),
(O,'copyExtra','| .tree r d => .tree r d','| .tree r _ => .tree r {}','data of the tree not copied'),
(O,'copyExtra','| .tree r d => .tree r d','| .tree _ d => .tree {} d','root not copied'),
(O,'copyExtra','| .tree r d => .tree r d\n  | .split v => .split v','| .tree r d => .tree r d\n  | .split _ => .split (-1)','split variable not copied'),
(O,'DisjM.init','(clearTerms h d.terms).bind fun r =>\n  (assignTerms r.1 r.2 src.terms)','(Res.ok (h, d.terms)).bind fun r =>\n  (assignTerms r.1 r.2 src.terms)','terms not cleared first (same behaviour)'),
(O,'DisjM.init','name := src.name','name := d.name','name not copied'),
(O,'DisjM.init','| none => src.params','| none => d.params','parameters of the target kept'),
(O,'DisjM.init','timer := src.timer','timer := d.timer','timer not copied'),
(O,'DisjM.init','rounds := d.rounds','rounds := src.rounds','round copied (fix)'),
(O,'DisjM.copy','(DisjM.fresh src.extra.isTree src.params).init h src p','(DisjM.fresh src.extra.isTree src.params).init h src none','parameters given to the copy ignored'),
(O,'DisjM.fresh','rounds := none','rounds := some 0','round initialized (fix)'),
(O,'DisjM.destroy','(clearTerms h d.terms).bind fun r => (clearTerms r.1 r.2).bind fun q => .ok q.1','.ok h','destructor frees nothing'),
(O,'Extra.reset','| .tree _ _ => .tree {} {}','| .tree r _ => .tree r {}','root kept by reset'),
(O,'Extra.reset','| .tree _ _ => .tree {} {}\n  | .split v => .split v','| .tree _ _ => .tree {} {}\n  | .split _ => .split (-1)','split variable lost by reset'),
(O,'DisjM.reset','{ d with head := Disj.new, name := [], extra','{ d with head := Disj.new, extra','name kept by reset'),
(O,'DisjM.reset','(clearTerms h d.terms).bind fun r => (clearTerms r.1 r.2).bind fun q =>\n  .ok (q.1, { d','(Res.ok (h, ())).bind fun q =>\n  .ok (q.1, { d','reset leaks the bases'),
(O,'DisjM.addTerm','d.head.numTerms + 1','d.head.numTerms','number of terms not increased'),
(O,'OWorld.cloneTo','dnext := w.dnext + 1','dnext := w.dnext','members share an address'),
(O,'OWorld.cloneMembers','| some d => (w.cloneTo d).bind fun w1 => (w1.cloneMembers ps).bind fun q => .ok (q.1, w.dnext :: q.2)','| some _ => (w.cloneMembers ps).bind fun q => .ok (q.1, p :: q.2)','copied sets share their members'),
(O,'OWorld.deleteMembers','obj := Function.update w.obj (.inr p) none }','obj := w.obj }','members not removed'),
(O,'copySums','worstIdx := s.worstIdx','worstIdx := s.bestIdx','index of the worst not copied'),
(O,'copySums','intSol := s.intSol','intSol := []','integer solution of the set not copied'),
(O,'OWorld.addMember','(some { d with head := { d.head with id := s.members.length } })','(some d)','identifier not set'),
(O,'OWorld.addMember','⟨s.members ++ [p], sums⟩','⟨s.members ++ [p], s.sums⟩','best values not updated'),
(O,'OWorld.addMember','(s.sums.updateObj { d.head with id := s.members.length } (-1))','(s.sums.updateObj d.head (-1))','old identifier used for the best'),
(O,'OWorld.step','if i = j then .ok (w.bases, d)\n','if False then .ok (w.bases, d)\n','no test for self-assignment'),
(O,'OWorld.step','if k = l then .ok w\n','if False then .ok w\n','no test for self-assignment of sets'),
(O,'OWorld.step','| .resetSet k => w.onSet k fun _ => .ok (w.putSet k ⟨[], DSet.new⟩)','| .resetSet k => w.onSet k fun s => (w.deleteMembers s.members).bind fun w1 => .ok (w1.putSet k ⟨[], DSet.new⟩)','reset deletes the members (fix)'),
(O,'OWorld.step','(w.deleteMembers s.members).bind fun w1 => .ok { w1 with sets := Function.update w1.sets k none }','.ok { w with sets := Function.update w.sets k none }','destructor of sets frees nothing'),
]
B='BB.lean'
json.dump([dict(file=f,**{'def':d},old=o,new=n,claim=c) for f,d,o,n,c in L],open('/tmp/w/m14.json','w'))
s=open('/verif/lean/Verif/Model/ObjCopy.lean').read()
for f,d,o,n,c in L:
    if s.count(o)!=1: print(d,c,s.count(o))
