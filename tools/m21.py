import json
F='CompCopy.lean'
ms=[]
def m(d,old,new,claim,f=None):
    f=f or F
    ss=open('/verif/lean/Verif/Model/'+f).read()
    assert ss.count(old)==1,(d,old,ss.count(old))
    ms.append({'file':f,'def':d,'old':old,'new':new,'claim':claim})
m('Chooser.copy','def Chooser.copy (src : Chooser σ π) : Chooser σ π := ⟨src.own, none, 0⟩','def Chooser.copy (src : Chooser σ π) : Chooser σ π := ⟨src.own, src.results, src.numResults⟩','the copy shares the array of results')
m('Chooser.copy','def Chooser.copy (src : Chooser σ π) : Chooser σ π := ⟨src.own, none, 0⟩','def Chooser.copy (src : Chooser σ π) : Chooser σ π := ⟨{ src.own with method := 0 }, none, 0⟩','the copy has the default method')
m('Chooser.copy','def Chooser.copy (src : Chooser σ π) : Chooser σ π := ⟨src.own, none, 0⟩','def Chooser.copy (src : Chooser σ π) : Chooser σ π := ⟨src.own, none, src.numResults⟩','the copy claims to have results')
m('Chooser.assign','(h.delete dst.results).bind fun h => .ok (h, ⟨src.own, none, 0⟩)','.ok (h, ⟨src.own, none, 0⟩)','the old array is leaked')
m('Chooser.assign','(h.delete dst.results).bind fun h => .ok (h, ⟨src.own, none, 0⟩)','(h.delete dst.results).bind fun h => .ok (h, ⟨src.own, dst.results, 0⟩)','dangling pointer after assignment')
m('Chooser.assign','(h.delete dst.results).bind fun h => .ok (h, ⟨src.own, none, 0⟩)','(h.delete src.results).bind fun h => .ok (h, ⟨src.own, none, 0⟩)','the array of the source is freed')
m('Chooser.assign','if self then .ok (h, dst)','if !self then .ok (h, dst)','only self-assignment has an effect')
m('Chooser.reset','(h.delete c.results).bind fun h => .ok (h.new','(Res.ok h).bind fun h => .ok (h.new','old array leaked by reset')
m('Chooser.reset','results := some h.next, numResults := 0 }','results := some h.next }','count not cleared')
m('Chooser.store','if k < x.2.length then','if k ≤ x.2.length then','off by one in the array')
m('Chooser.store','if count then c.numResults + 1 else c.numResults','c.numResults + 1','always counted')
m('CWorld.step','| some c => (w.heap.delete c.results).bind fun h => .ok ⟨h, Function.update w.objs i none⟩','| some c => .ok ⟨w.heap, Function.update w.objs i none⟩','destructor leaks')
m('Chooser.fresh','⟨⟨base, 0, -1, 0, 0, pseudo⟩, none, 0⟩','⟨⟨base, 0, 0, 0, 0, pseudo⟩, none, 0⟩','second best object starts at 0')
m('PrlpObj.initialize','numPoints := src.numPoints, numRays := src.numRays','numPoints := src.numRays, numRays := src.numPoints','points and rays swapped')
m('PrlpObj.initialize','numObj := src.numObj, numCuts','numObj := p.numObj, numCuts','counter not copied')
m('PrlpObj.assign','if self then dst else dst.initialize src','dst','assignment without effect')
json.dump(ms,open('m21.json','w')); print(len(ms))
