import json
M=[]
def m(f,d,o,n,c): M.append(dict(file=f+'.lean',**{'def':d},old=o,new=n,claim=c))
m('Choose','bestBranchEnd','if pref s.which.toNat ≠ 0 then pref','if pref s.which.toNat > 0 then pref','a preferred down branch is ignored')
m('Choose','bestBranchEnd','  if s.which ≥ 0 then\n    (s.which, some','  if s.which > 0 then\n    (s.which, some','the first object is never written')
m('Choose','bestBranchEnd','  else (s.which, none)\n\n/-! ## `Osi','  else (0, none)\n\n/-! ## `Osi','index 0 if nothing is chosen')
m('Choose','bestBranchEnd','if pref s.which.toNat ≠ 0 then pref s.which.toNat else s.way','s.way','preferred way ignored')
m('Choose','bestBranchEnd','if pref s.which.toNat ≠ 0 then pref s.which.toNat else s.way','if s.way ≠ 0 then s.way else pref s.which.toNat','preferred way only as a fallback')
m('Choose','bestBranchStep','crit := min c.up c.down','crit := max c.up c.down','the larger change is remembered')
m('Target','candVec','| .ub j => [(j, -1)]','| .ub j => [(j, 1)]','a variable is minimized twice instead of maximized')
m('Target','candVec','| .lb j => [(j, 1)]','| .lb j => [(j, 2)]','multiple of the variable (same solutions)')
m('Target','findMore','let st := st.setEq (some row)','let st := st.setEq none','the row stays an inequality')
m('Target','findMore','let st := st.setEq (some row)','let st := st.setEq (some (row + 1))','the wrong row becomes an equation')
m('Target','TSt.restore','.setEq none','','the row stays an equation')
m('Target','findCuts','let v := st.lp.base.vec row','let v := st.lp.base.vec (row + 1)','aims at the next row')
m('Target','tryUnit','(st.lp.obj.set j 1))).bind','(st.lp.obj.set j (-1)))).bind','the coefficient is maximized')
m('PRLP','prlpSetup','rows := pts.map (fun r => (compress r.vec, r.rhs * scale))','rows := pts.map (fun r => (compress r.vec, r.rhs))','right-hand sides of points not scaled')
m('PRLP','prlpSetup','(nz.idxOf e.1, e.2)','(nz.idxOf e.1, -e.2)','coefficients negated')
m('PRLP','prlpSetup','(nz.idxOf e.1, e.2)','(e.1, e.2)','columns not renumbered')
m('PRLP','setupRow','else { st with rays := st.rays ++ [r] }','else st','rays lost')
m('PRLP','singletonBound','(if st.ub var > 0 then { st with ub := fun k => if k = var then 0 else st.ub k } else st)','(if st.lb var < 0 then { st with lb := fun k => if k = var then 0 else st.lb k } else st)','a negative ray makes a lower bound')
json.dump(M,open('m29.json','w'))
for x in M:
    s=open('/verif/lean/Verif/Model/'+x['file']).read()
    if s.count(x['old'])!=1: print(x['def'],s.count(x['old']),x['old'])
