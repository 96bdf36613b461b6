import json
M=[]
def m(file,d,old,new,claim): M.append(dict(file=file+'.lean',**{'def':d},old=old,new=new,claim=claim))
f='Own'
m(f,'ownFlag','if ownIt < 0 then g.owns else decide (ownIt ≠ 0)','if ownIt < 0 then true else decide (ownIt ≠ 0)','C28: a negative flag takes ownership')
m(f,'Vpc.setDisjunction','(if g.owns then h.free g.disj else .ok h).bind fun h\' =>\n  if ownFlag g ownIt then\n    (h\'.clone p).bind fun h\'\' => .ok (h\'\', { g with owns := true, disj := some h\'.next })','(Res.ok h).bind fun h\' =>\n  if ownFlag g ownIt then\n    (h\'.clone p).bind fun h\'\' => .ok (h\'\', { g with owns := true, disj := some h\'.next })','C28/C29: old disjunction leaked')
m(f,'Vpc.setDisjunction','else .ok (h\', { g with owns := false, disj := p })','else .ok (h\', { g with disj := p })','C28: borrowed disjunction deleted later')
m(f,'Vpc.setDisjunctionSet','else .ok (h\', { g with owns := false, dset := p })','else .ok (h\', { g with owns := false, disj := p })','C28: set stored in the wrong member')
m(f,'Vpc.copyFrom','(g.setDisjunction h src.disj (if src.owns then 1 else 0))','(g.setDisjunction h src.disj 0)','C28: shallow copy of an owned disjunction')
m(f,'Vpc.copyFrom','.ok (r.1, { r.2 with prlp := src.prlp })','.ok (r.1, r.2)','(fix) C28: PRLP pointer no longer shared')
m(f,'Vpc.destroy','(if g.owns then h.free g.dset else .ok h).bind fun h =>\n  h.free g.prlp','(if g.owns then h.free g.dset else .ok h)','C28: PRLP leaked (never freed)')
m(f,'Vpc.newPrlps','Vpc.newPrlps n h.alloc { g with prlp := some h.next }','Vpc.newPrlps n h.alloc g','C28: PRLP never stored')
m(f,'Vpc.generate','if set then { g with owns := true, dset := some h.next }','if set then { g with owns := false, dset := some h.next }','C28: created set leaked')
m(f,'Vpc.generate','else .exit\n\n/-- A program state','else .ok (h, g)\n\n/-- A program state','C28/C02: supplied disjunction accepted')
m(f,'World.step','.assign i j => match w.gen i, w.gen j with\n    | some g, some src => if i = j then .ok w else w.put i (g.copyFrom','.assign i j => match w.gen i, w.gen j with\n    | some g, some src => w.put i (g.copyFrom','C28: no self-assignment test')
m(f,'Vsi.free','(h.free v.disj).bind fun h =>\n  h.free v.params','\n  h.free v.params','C29: disjunction leaked')
m(f,'Vsi.copy','(_h : Heap) (_src : Vsi) : Res (Heap × Vsi) := .undef','(_h : Heap) (_src : Vsi) : Res (Heap × Vsi) := .ok (_h, _src)','C29: shallow copy')
m(f,'Vsi.assign','(v.free h).bind fun h => (h.clone src.solver)','(Res.ok h).bind fun h => (h.clone src.solver)','C29: old members leaked')
m(f,'Vsi.setDisjunction','(h.free p).bind fun h1 => (h1.clone p).bind fun h2 => .ok (h2, { v with disj := some h1.next })','(h.free v.disj).bind fun h1 => (h1.clone p).bind fun h2 => .ok (h2, { v with disj := some h1.next })','(fix) C29: setDisjunction deletes its own')
m(f,'Vsi.setParams','(h.free v.params).bind','(Res.ok h).bind','C29: params leaked')
m(f,'Vsi.takeDisj','(h.free v.disj).bind','(Res.ok h).bind','C29: old disjunction leaked')
f='Disj'
m(f,'applyChange','if c.bound ≤ 0 then .ok { P with lo','if c.bound < 0 then .ok { P with lo','C16: lower-bound change applied to upper bound')
m(f,'applyChange','some (coeff * c.value), none⟩','some c.value, none⟩','C16: wrong row for upper bound')
m(f,'applyChange','if c.bound ≤ 0 then 1 else -1','if c.bound ≤ 0 then -1 else 1','C16: sign of row')
m(f,'applyChange','c.var < P.lo.length ∧ c.var < P.hi.length','c.var ≤ P.lo.length ∧ c.var ≤ P.hi.length','C16: index out of range accepted')
m(f,'applyChanges','(applyChange asBounds P c).bind (applyChanges asBounds cs)','(applyChanges asBounds cs P).bind fun Q => applyChange asBounds Q c','C16: order reversed (later bound no longer wins)')
m(f,'ratioTooBig','if r < 1 then 1 / r else r','r','C17: low ratio not noticed')
m(f,'ratioTooBig','(103 / 100)','(203 / 100)','C17: tolerance')
m(f,'objCheckExits','if isInfinity before then false','if isInfinity before then true','C17: exits when no value stored')
m(f,'objCheckExits','else if isVal obj2 before DIFFEPS then false','','C17: second solve ignored')
m(f,'getSolverForTerm','(applyChanges asBounds D.common P).bind fun P1 =>','(Res.ok P).bind fun P1 =>','C16: common changes dropped')
m(f,'getSolverForTerm','let P3 := applyIneqs t.ineqs P2','let P3 := P2','C16: inequalities dropped')
m(f,'getSolverForTerm','else if !env.optimal then .ok none','else if !env.optimal then .ok (some P3)','C17: solver of infeasible term returned')
m(f,'Disj.updateObj','if v > d.worstObj','if v < d.worstObj','C19: worst value')
m(f,'Disj.updateObj','if v < d.bestObj','if v > d.bestObj','C19: best value')
m(f,'DSet.updateObj','{ s with bestObj := d.bestObj, bestIdx := use } else s','{ s with bestObj := d.bestObj, bestIdx := ind } else s','C20: index of best')
m(f,'DSet.updateObj','{ s with worstObj := d.worstObj, worstIdx := use } else s','{ s with worstIdx := use } else s','C20: worst value')
m(f,'DSet.updateObj','if d.intSol.length > 0 then d.intSol else s.intSol','s.intSol','C20: integer solution')
m(f,'DSet.add','{ d with id := (s.disjs.length : ℤ) }','{ d with id := (s.disjs.length : ℤ) + 1 }','C20: id')
m(f,'DSet.add','{ s with disjs := s.disjs ++ [d] }','{ s with disjs := d :: s.disjs }','C20: order')
m(f,'DSet.get','if 0 ≤ ind then .ok s.disjs[ind.toNat]? else .undef','.ok s.disjs[ind.toNat]?','(fix-ish) C20: negative index')
m(f,'DSet.get','if ind < s.disjs.length then','if ind ≤ s.disjs.length then','C20: benign? last+1 gives none')
m(f,'DSet.prepLoop','if r.1 = .OPTIMAL_SOLUTION_FOUND then .ok','if r.1 = .SUCCESS then .ok','C21: stops at wrong status')
m(f,'DSet.prepLoop','DSet.prepLoop prep (done ++ [r.2]) ds','DSet.prepLoop prep (done ++ [d]) ds','C21: prepared member lost')
f='Split'
m(f,'addTerm','changes := [⟨var, way, value⟩]','changes := [⟨var, 1 - way, value⟩]','C14/C18: wrong side')
m(f,'addTerm','numTerms := d.numTerms + 1','numTerms := d.numTerms','C14/C18: count')
m(f,'checkVar','addTerm s.d col 1 floorxk o','addTerm s.d col 1 ceilxk o','C18: down side bound')
m(f,'checkVar','addTerm r1.2 col 0 ceilxk o','addTerm r1.2 col 0 (ceilxk + 1) o','C18: up side bound')
m(f,'checkVar','if !r1.1 && !r2.1 then .exit\n      else','if false then .exit\n      else','C18: both infeasible')
m(f,'checkVar','(resizeTerms d.terms (d.numTerms - 1))','(resizeTerms d.terms d.numTerms)','C18: stale term kept')
m(f,'checkVar','if !r1.1 then ⟨col, 0, ceilxk⟩ else ⟨col, 1, floorxk⟩','if r1.1 then ⟨col, 0, ceilxk⟩ else ⟨col, 1, floorxk⟩','C18: wrong side fixed')
m(f,'checkVar','else if isVal a.val floorxk AWAY || isVal a.val ceilxk AWAY then .exit\n  else\n    (match','else\n    (match','C18: integral value split')
m(f,'checkVar','else .ok (true, { d := d, var := col })','else .ok (true, { d := d, var := s.var })','C18: variable not recorded')
m(f,'fractionality','min (v - (⌊v⌋ : ℤ)) ((⌈v⌉ : ℤ) - v)','v - (⌊v⌋ : ℤ)','C18: fractionality')
m(f,'fracCore','c.1.1 && !(isVal','!(isVal','C18: continuous variables included')
m(f,'tryVars','if r.1 then .ok (true, r.2) else tryVars AWAY ask (k + 1) cols r.2','if r.1 then .ok (true, r.2) else tryVars AWAY ask (k + 1) cols s','C18: discovered bounds dropped')
m(f,'splitPrepare','.ok (if r.1 then .SUCCESS else .NO_DISJUNCTION, r.2)','.ok (.SUCCESS, r.2)','C18: success although no disjunction')
m(f,'splitPrepare','.ok (if r.1 then .SUCCESS else .UNKNOWN, r.2)','.ok (.SUCCESS, r.2)','C18: success although none worked')
m(f,'Split.setupAsNew','{ s with d := Disj.new }','{}','(fix) C18: variable reset too')
m(f,'splitScore','.ok (some (min d u))','.ok (some (max d u))','C18: score')
m(f,'splitScore','| _, _ => .ok none','| _, _ => .ok (some 0)','C18: one-sided variable selected')
m(f,'addSplits','if n ≥ limit then .ok acc','if n > limit then .ok acc','C18: one split too many')
m(f,'addSplits','id := (acc.length : ℤ)','id := n + 1','C18: ids')
m(f,'addSplits','prep { var := v }','prep { var := v + 1 }','C18: variable')
json.dump(M,open('m5.json.tmp','w'))
import os; os.rename('m5.json.tmp','m5.json'); print(len(M))
