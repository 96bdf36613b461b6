import json
F='BBRepair.lean'
ms=[]
def m(d,old,new,claim,f=None):
    f=f or F
    ss=open('/verif/lean/Verif/Model/'+f).read()
    assert ss.count(old)==1,(d,old,ss.count(old))
    ms.append({'file':f,'def':d,'old':old,'new':new,'claim':claim})
m('missStep','nodeStat p\' s.count2 p.number (parentNo s p) []','nodeStat p\' s.count2 p.number p.number []','wrong parent number recorded for the parent visited again')
m('missStep','nodeStat p\' s.count2 p.number (parentNo s p) []','nodeStat p\' s.count2 s.count2 (parentNo s p) []','wrong original number')
m('missStep','let p\' : CNode := { p with branchIndex := p.branchIndex + 1 }\n    if','let p\' : CNode := p\n    if','branch index of the parent not advanced')
m('missStep','{ p\' with number := s.count2 + 1 }','{ p\' with number := s.count2 }','parent keeps the number of the child')
m('missStep','count2 := s.count2 + 2','count2 := s.count2 + 1','the number of Cbc nodes is off by one: never repaired')
m('missStep','.set p.first (s.count2 + 1)','.set p.number (s.count2 + 1)','current number stored at the wrong place')
m('missStep','pruned := s.pruned ++ [missedStat s p m], count2 := s.count2 + 1','count2 := s.count2 + 1','pruned entry not recorded')
m('repairedStat','bvar := nd.var, branchIndex := nd.branchIndex','branchIndex := nd.branchIndex','variable of the child not set')
m('repairedStat','branchIndex := nd.branchIndex, ','','branch index not set')
m('repairedStat','way := nd.way, ','','way not set')
m('repairedStat','obj := nd.obj, ','','objective not set')
m('repairedStat','value := nd.value','value := q.value','value not set')
m('repairedStat','lb := if nd.way > 0','lb := if nd.way < 0','lower bound of the wrong direction')
m('repairedStat','ub := if nd.way > 0','ub := if nd.way < 0','upper bound of the wrong direction')
m('repairedStat','(⌈nd.value⌉ : ℤ) else nd.prevLB','(⌊nd.value⌋ : ℤ) else nd.prevLB','floor instead of ceiling')
m('repairedStat','changedBounds lo hi s.oLo s.oHi','changedBounds s.oLo s.oHi lo hi','bounds compared the wrong way')
m('repairedStat','changedBounds lo hi s.oLo s.oHi','changedBounds hi lo s.oLo s.oHi','lower and upper bounds swapped')
m('repairedStat','q.changes ++ changedBounds lo hi s.oLo s.oHi','q.changes','changed bounds not recorded')
m('repair','if choose then .ok s','if !choose then .ok s','repair when it must not')
m('repair','if s.count2 = last.id + 1 then','if s.count2 = last.id then','comparison off by one')
m('repair','s.tree.find? fun n => n.number == q.id','s.tree.find? fun n => n.number == last.id','wrong node of the tree')
m('repair','s.tree.find? fun n => n.number == q.id','s.tree.getLast?','the last node of the tree instead of the one with the number')
m('repair','if nd.osi then .exit\n            else ','','unknown branching object accepted')
m('repair','pruned := s.pruned.dropLast','pruned := s.pruned','entry stays with the pruned nodes')
m('repair','s.stats.dropLast ++ [st, { last with id := st.id + 1 }]','s.stats ++ [st]','parent entry not moved: two entries with one number')
m('repair','[st, { last with id := st.id + 1 }]','[st, last]','number of the parent entry not advanced')
m('repair','[st, { last with id := st.id + 1 }]','[{ last with id := st.id + 1 }, st]','order of the entries')
m('repair','if last.id = st.id then','if last.id + 1 = st.id then','condition off by one')
m('repair','else s.stats ++ [st] }','else s.stats }','entry dropped for a parent that is finished')
m('rStep','(bbStep s e).bind fun s => repair choose objKnown s.oLo s.oHi s','bbStep s e','no repair at a plain step (idle there)')
m('rStep','(missStep s pick m).bind fun s => repair choose objKnown lo hi s','(missStep s pick m).bind fun s => repair choose objKnown hi lo s','bounds swapped')
m('rStep','(missStep s pick m).bind fun s => repair choose objKnown lo hi s','missStep s pick m','never repaired')
m('missedStat','{ prunedStat s p m.obj with changes := m.pre }','prunedStat s p m.obj','recorded bounds lost')
json.dump(ms,open('m27.json','w'))
print(len(ms))
