import json
F='SolverMem.lean'
ms=[]
def m(d,old,new,claim,f=None):
    f=f or F
    ss=open('/verif/lean/Verif/Model/'+f).read()
    assert ss.count(old)==1,(d,old,ss.count(old))
    ms.append({'file':f,'def':d,'old':old,'new':new,'claim':claim})
m('saveMem','(h.delete (some r.2)).bind fun h => saveMem orig ns h','saveMem orig ns h','solver of the node leaked')
m('saveMem','(h.delete (some r.2)).bind fun h => saveMem orig ns h','(h.delete (some orig)).bind fun h => saveMem orig ns h','original solver deleted')
m('saveMem','(r.1.use r.2 n.setup).bind fun h =>\n      (orExit h n.bad).bind fun h =>\n      (childrenMem r.2 n.children h).bind fun h =>\n      (h.delete','(r.1.use orig n.setup).bind fun h =>\n      (orExit h n.bad).bind fun h =>\n      (childrenMem r.2 n.children h).bind fun h =>\n      (h.delete','original solver changed')
m('saveStatsMem','(childrenMem r.2 n.children h).bind fun h => saveStatsMem orig ns h','(childrenMem r.2 n.children h).bind fun h => (h.delete (some r.2)).bind fun h => saveStatsMem orig ns h','(fix of the leak) the claim of the leak breaks')
m('treeMem','if t.terms < 2 then .ok h','if t.terms ≤ 2 then .ok h','boundary of the number of terms: no solver effect')
m('treeMem','(r.1.delete (some ev.2)).bind fun h =>','(Res.ok r.1).bind fun h =>','event handler copy leaked')
m('treeMem','(freeModel h bb.2 r.2 true).bind fun h => h.delete (some hd.2)','(freeModel h bb.2 r.2 true)','copy in the clone of the handler leaked')
m('treeMem','(freeModel h bb.2 r.2 true)','(freeModel h bb.2 bb.2 true)','the model frees the first solver, not the present one')
m('treeMem','(freeModel h bb.2 r.2 true)','(freeModel h bb.2 r.2 false)','the model does not own its solver')
m('treeMem','(searchMem t.keep hd.2 t.steps hd.1 bb.2)','(searchMem t.keep bb.2 t.steps hd.1 bb.2)','handler saves from the solver of the model')
m('freeModel','if !owns then h.delete (some bb)','if owns then h.delete (some bb)','double delete')
m('stepMem','(h.delete (some cur)).bind fun h => .ok (h, r.2)','.ok (h, r.2)','replaced solver leaked')
m('stepMem','(h.delete (some cur)).bind fun h => .ok (h, r.2)','(h.delete (some cur)).bind fun h => .ok (h, cur)','dangling solver of the model')
m('splitMem','if !s.chosen && s.noFrac then r.1.delete (some r.2)','if !s.chosen && s.noFrac then .ok r.1','early return leaks')
m('splitMem','(orExit h s.bad).bind fun h => h.delete (some r.2)','(orExit h s.bad).bind fun h => h.delete (some si)','wrong solver deleted')
m('scratchMem','(orExit h bad).bind fun h => h.delete (some r.2)','orExit h bad','copy leaked')
m('scratchMem','(r.1.use r.2 f).bind fun h =>\n  (orExit h bad).bind fun h => h.delete (some r.2)','(r.1.use a f).bind fun h =>\n  (orExit h bad).bind fun h => h.delete (some r.2)','work done on the original')
m('disjsMem','(if many then h.delete (some r.2) else .ok h)','(h.delete (some r.2))','shared solver deleted')
m('disjsMem','(if many then h.delete (some r.2) else .ok h)','(if d.setupOk && many then h.delete (some r.2) else .ok h)','leak when setup fails')
m('disjsMem','(if many then h.dup v else .ok (h, v))','(h.dup v)','always copied, deleted only for many')
m('genMem','if !g.rootOk then h.delete (some v.2)','if !g.rootOk then .ok h','leak when the root fails')
m('genMem','h).bind fun h => h.delete (some v.2)','h)','leak at the end of the call')
m('genMem','(v.1.use v.2 g.root)','(v.1.use si g.root)','caller solver changed')
m('bbPassMem','if h.next ≠ solver then h\'.delete (some h.next) else .ok h\'','if h.next = solver then h\'.delete (some h.next) else .ok h\'','permuted solver leaked')
m('bbPassMem','.ok (h, some (cur.getD solver))','(h.delete (some (cur.getD solver))).bind fun h => .ok (h, some (cur.getD solver))','caller solver deleted')
m('cbcMem','| none => Res.ok h | some f => h.use bb.2 f).bind fun h =>\n  (searchMem','| none => Res.ok h | some f => h.use solver f).bind fun h =>\n  (searchMem','cuts applied to the caller solver')
m('cleaningMem','(bbPassesMem h.next after h\' none).bind fun h\' => h\'.delete (some h.next)','(bbPassesMem h.next after h\' none)','cleaned solver leaked')
m('wrapMem','(h.delete p.vpc).bind fun h => h.delete p.all','h.delete p.all','one solver not deleted at the end')
m('wrapMem','(h.delete p.solver).bind fun h => (h.delete p.orig)','(h.delete p.orig).bind fun h => (h.delete p.orig)','double delete at the end')
m('gomoryCopies','{ p with gmic := g.2, vpc := v.2, all := a.2 }','{ p with gmic := g.2, vpc := g.2, all := a.2 }','two pointers to one solver')
m('gomoryCopies','if gomory ≠ 0 then\n    (dupPtr','if gomory = 1 ∨ gomory = -1 then\n    (dupPtr','copies missing for other values')
m('roundMem','(usePtr h p.vpc r.apply).bind fun h =>','(usePtr h p.gmic r.apply).bind fun h =>','cuts applied to the wrong solver (no memory effect)')
m('roundMem','if gomory = -1 ∨ gomory = 1 then','if gomory ≤ 1 then','null pointer used without Gomory cuts')
m('termSolverMem','(h.delete (some r.2)).bind fun h => .ok (h, none)','.ok (h, none)','leak if not optimal')
m('mainMem','if !started then .ok h','if started then .ok h','nothing done after start')
json.dump(ms,open('m22.json','w')); print(len(ms))
