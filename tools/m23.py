import json
F='Cond.lean'
ms=[]
def m(d,old,new,claim,f=None):
    f=f or F
    ss=open('/verif/lean/Verif/Model/'+f).read()
    assert ss.count(old)==1,(d,old,ss.count(old))
    ms.append({'file':f,'def':d,'old':old,'new':new,'claim':claim})
m('colAbs','colAbs vs (s + |v|)','colAbs vs (s + v)','signed column sum')
m('colAbs','colAbs vs (s + |v|)','colAbs vs (max s |v|)','largest entry instead of sum')
m('condMax','if v > s then v else s','if v < s then v else s','minimum instead of maximum')
m('condMax','if v > s then v else s','v','last instead of maximum')
m('basicColNorms','l.cstat i = 1).map fun i =>','l.cstat i ≠ 1).map fun i =>','nonbasic columns')
m('basicColNorms','((List.range l.n).filter fun i => l.cstat i = 1).map fun','((List.range l.m).filter fun i => l.cstat i = 1).map fun','loop over the wrong dimension')
m('binvNorms','colAbs ((List.range l.m).map fun j => l.binvCol i j) 0','colAbs ((List.range l.m).map fun j => l.binvCol j i) 0','row sums of the inverse')
m('binvNorms','colAbs ((List.range l.m).map fun j => l.binvCol i j) 0','colAbs ((List.range (l.m - 1)).map fun j => l.binvCol i j) 0','last entry missed')
m('cond1','let b := if b < 1 then 1 else b','let b := b','artificial columns forgotten')
m('cond1','b * condMax','b + condMax','sum instead of product')
m('cond1','if !l.available then 0','if l.available then 0','test of the basis inverted')
m('putCols','putCols m cs (k + 1) a','putCols m cs k a','bindex not incremented')
m('putCols','putCol (k * m) c a','putCol k c a','wrong offset of the column')
m('putAt','if k < a.length','if k ≤ a.length','bound of the array off by one')
m('basisCols','[(i, 1)]','[(i, -1)]','sign of the slack column')
m('basisCols','l.rstat i = 1','l.rstat i = 0','wrong status of slacks')
m('basisArray','2 ^ 31 ≤ l.m * l.m','2 ^ 31 ≤ l.m','overflow of m only')
m('cond2','sv[l.m - 1]?','sv[l.m]?','last singular value off by one')
m('cond2','.num (x / y)','.num (y / x)','quotient inverted')
m('cond2','| none => .ok (.num 0)','| none => .undef','failure of LAPACK')
m('condNumber','norm < 1 ∨ 2 < norm','norm < 1 ∨ 2 ≤ norm','norm 2 refused')
m('condNumber','if norm = 1 then','if norm = 2 then','norms swapped')
m('cond1Mem','if !available then .ok r.1 else r.1.use r.2 work','if !available then .ok r.1 else r.1.use a work','work on the original')
json.dump(ms,open('m23.json','w')); print(len(ms))
