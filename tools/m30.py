import json
F='FloatCut.lean'
M=[
('addScaledR','rnd (d k + rnd (mult * e.2 * val)) else d k','rnd (d k - rnd (mult * e.2 * val)) else d k','slack coefficients with the wrong sign'),
('addScaledR','rnd (d k + rnd (mult * e.2 * val)) else d k','rnd (mult * e.2 * val) else d k','a slack overwrites the coefficient'),
('addScaledR','rnd (d k + rnd (mult * e.2 * val)) else d k','rnd (rnd (d k + rnd (mult * e.2 * val))) else d k','one more rounding'),
('scStepR','rhs := rnd (st.rhs - rnd (val * lp.colUpper var)) }','rhs := rnd (st.rhs - val) }','bound left out'),
('scStepR','rhs := rnd (st.rhs + rnd (val * lp.colLower var)) }','rhs := rnd (st.rhs - rnd (val * lp.colLower var)) }','wrong sign of the lower bound'),
('scStepR','if k = var then -val else st.coeff k','if k = var then val else st.coeff k','not complemented at the upper bound'),
('scStepR','rhs := rnd (st.rhs + rnd (mult * lp.rhs row * val)) }','rhs := rnd (st.rhs + rnd (lp.rhs row * val)) }','sign of the row forgotten'),
('scStepR','rhs := rnd (st.rhs + rnd (mult * lp.rhs row * val)) }','rhs := st.rhs }','right-hand side of the row forgotten'),
('setCutFromNBCoefficientsR','{ coeff := fun _ => 0, rhs := beta }','{ coeff := fun _ => 0, rhs := 1 }','right-hand side 1 whatever beta'),
('rscStepR','(none, some (rnd (e.2 * colLower e.1)))','(none, some (rnd (e.2 * colUpper e.1)))','wrong bound'),
('rscStepR','(none, some (rnd (e.2 * colLower e.1)))','(none, none)','right-hand side not adapted'),
('rscStepR','if isZero absval EPS && isZero','if isZero absval EPS_COEFF && isZero','thrown away without adapting'),
('removeSmallCoefficientsR','rnd (r - q)','rnd (r + q)','wrong sign in cleaning'),
('removeSmallCoefficientsR','lb := if isZero rhs EPS then 0 else rhs','lb := if isZero rhs EPS then 0 else rhs + EPS','right-hand side moved up after cleaning'),
('removeSmallCoefficientsR','lb := if isZero rhs EPS then 0 else rhs','lb := if isZero rhs (2 * EPS) then 0 else rhs','larger tolerance for zero'),
]
G=[('CutHelper.lean','rscStep','(none, e.2 * colUpper e.1)','(none, 0)','upper side not adapted (C156)'),
('CutHelper.lean','removeSmallCoefficients','lb := if isZero rhs EPS then 0 else rhs','lb := if isZero rhs (10 * EPS) then 0 else rhs','larger tolerance for zero (C156)'),
('NBSpace.lean','scStep','rhs := st.rhs - val * lp.colUpper var','rhs := st.rhs + val * lp.colUpper var','wrong sign of the upper bound (C156)')]
out=[dict(file=F,**{'def':d},old=o,new=n,claim=c) for d,o,n,c in M]+[dict(file=f,**{'def':d},old=o,new=n,claim=c) for f,d,o,n,c in G]
json.dump(out,open('m30.json','w'))
for m in out:
    s=open('/verif/lean/Verif/Model/'+m['file']).read()
    assert m['old'] in s,m
