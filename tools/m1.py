import json
M=[]
def m(file,d,old,new,claim): M.append(dict(file=file+'.lean',**{'def':d},old=old,new=new,claim=claim))
f='CutHelper'
m(f,'setOsiRowCut','if isZero c EPS then none\n','if isZero c EPS || isZero (c*c) EPS then none\n','C01/C25: drops coefficients that are not tiny (|c|<sqrt EPS)')
m(f,'rscStep','(none, e.2 * colLower e.1)','(none, e.2 * colUpper e.1)','C07: relaxing a negative coefficient with the wrong bound')
m(f,'rscStep','if e.2 < 0 && !(isNegInfinity (colLower e.1))','if e.2 < 0','C07: infinite lower bound not retained')
m(f,'rscStep','absval ≤ EPS_COEFF','absval ≤ EPS_COEFF + 1','C07: larger coefficients removed too')
m(f,'rscStep','if isZero absval EPS && isZero (absval * obj e.1) EPS','if isZero absval EPS || isZero (absval * obj e.1) EPS','C07: coefficients with zero objective thrown away')
m(f,'removeSmallCoefficients','(fun r s => r - s.2)','(fun r s => r + s.2)','C07: rhs moved in wrong direction')
m(f,'removeSmallCoefficients','lb := if isZero rhs EPS then 0 else rhs','lb := rhs','C07: rhs cleanup dropped (value of rhs)')
m(f,'badSupport','(cutNz : ℚ) > maxSupAbs ||','(cutNz : ℚ) > maxSupAbs &&','C08: dense cuts accepted')
m(f,'badViolation','!(greaterThanVal violation 0 minViolAbs) ||','!(greaterThanVal violation 0 minViolAbs) &&','C08: cut with small absolute violation accepted')
m(f,'minMaxStep','if acc.2 < a then a else acc.2','if acc.2 > a then a else acc.2','C08: maximum computed wrongly')
m(f,'badDynamism','let maxAbs := if absRhs > mm.2 then absRhs else mm.2','let maxAbs := mm.2','C08: rhs ignored in the dynamism')
m(f,'cleanCut','if p.checkViolation && badViolation','if !p.checkViolation && badViolation','C08: violation check inverted')
m(f,'cleanCut','(cut, some .badDynamism)','(cut, none)','C08: dynamism failure not reported')
m(f,'cleanCut','(cut, some .badSupport)\n','(cut, some .badViolation)\n','C08: wrong failure reason')
m(f,'rdInit','{ ratio := rhs1 / rhs2,','{ ratio := rhs2 / rhs1,','C09: inverted ratio of right-hand sides')
m(f,'rdInit','maxDiff := if !(isZero rhs1 EPS) then |rhs1| else if !(isZero rhs2 EPS) then |rhs2| else 0','maxDiff := 0','C09: zero rhs against nonzero rhs treated as equal')
m(f,'rdSkip','(if !(isZero b EPS) then none else rdSkip EPS i t)','(rdSkip EPS i t)','C09: entries only in cut 2 ignored')
m(f,'rdMatch','let diff := |a - s.ratioCoeff * b|','let diff := |a - s.ratio * b|','C09: wrong ratio for coefficients')
m(f,'rdMatch','if lessThanVal (a / b) 0 then none else some { s with ratioCoeff','if false then none else some { s with ratioCoeff','C09: antiparallel rows accepted')
m(f,'rdLoop','| [], v2, s => if v2.all fun e => isZero e.2 EPS then some s else none','| [], _, s => some s','C09: trailing entries of cut 2 ignored')
m(f,'rdLoop','if !(isZero a EPS) || !(isZero b EPS) then none','if !(isZero a EPS) && !(isZero b EPS) then none','C09: zero against nonzero accepted')
m(f,'isRowDifferent','if greaterThanVal d 0 EPS then -1 else 1','if greaterThanVal d 0 EPS then 1 else -1','C09: dominance direction swapped')
m(f,'isRowDifferent','if isZero d EPS then 0 else if','if','C09: no result 0 for equal scaled rows')
m(f,'howDupLoop','| _, [], mi, mo => ⟨0, none, mi, mo⟩','| _, [], mi, mo => ⟨0, mi, mi, mo⟩','C09/C11: no duplicate reported as duplicate')
m(f,'howDupLoop','howDupLoop ortho MIN_ORTHO EPS tmp (i + 1) cs mi','howDupLoop ortho MIN_ORTHO EPS tmp i cs mi','C09: index not advanced')
m(f,'howDupLoop','let d := isRowDifferent c.row c.lb tmp.row tmp.lb EPS','let d := isRowDifferent tmp.row tmp.lb c.row c.lb EPS','C09: compared rows swapped')
m(f,'howDuplicate','(cuts.drop startIndex) none 2','cuts none 2','C09: start index ignored')
f='NBSpace'
m(f,'scStep',"rhs := st.rhs - val * lp.colUpper var","rhs := st.rhs + val * lp.colUpper var",'C01: wrong sign for upper bound')
m(f,'scStep','if lp.sense row = .G then 1 else -1','if lp.sense row = .G then -1 else 1','C01: row sense swapped')
m(f,'scStep','coeff := addScaled st.coeff (lp.rows row) (mult * val)','coeff := addScaled (fun _ => 0) (lp.rows row) (mult * val)','C01: row overwrites instead of adding')
m(f,'scPairs','(nbVar.getD (if nonZeroColIndex.length > 0 then nonZeroColIndex.getD t 0 else t) 0,','(nbVar.getD t 0,','C01: compressed column index ignored')
m(f,'setCutFromNBCoefficients','{ coeff := fun _ => 0, rhs := beta }','{ coeff := fun _ => 0, rhs := 0 }','C01: beta dropped')
m(f,'compCoor','|x var - orig var|','|orig var|','C01: coordinate not relative')
m(f,'takeTiny','let obj\' := obj + e.2 * rc e.1\n    let r := takeTiny EPS','let obj\' := obj\n    let r := takeTiny EPS','C46: objective of the kept entries not updated')
m(f,'mergeTiny','else p :: mergeTiny (t :: ti) (e :: te) ps','else p :: mergeTiny ti te ps','C46: entry lost on merge')
m(f,'packCoor','isZero e.1 EPS && !(isZero (e.1 * rc e.2) EPS)','!(isZero e.1 EPS) && !(isZero (e.1 * rc e.2) EPS)','C46: nonzero listed twice')
m(f,'packCoor','mergeTiny (tiny.map (·.1)) kept nonTiny','nonTiny','C46: tiny entries that matter dropped')
m(f,'genRay','if tmpLB then tab r * (-1) else tab r','tab r','C38: ray not negated')
m(f,'rayCoor','let rayMult : ℚ := if origUB then -1 else 1','let rayMult : ℚ := 1','C38: complement of coordinate ignored')
m(f,'rayCoor','| some r => tmpRayMult * newRayMult * ray r','| some r => newRayMult * ray r','C38: sign of ray')
m(f,'scaleExp','1 - truncQ (avg + 1 / 4)','truncQ (avg + 1 / 4)','C38: scale exponent direction')
m(f,'packRay','((mergeTiny (tiny.map (·.1)) kept nonTiny).map fun e => (e.1, e.2 * scale), scale)','((mergeTiny (tiny.map (·.1)) kept nonTiny).map fun e => (e.1, e.2 * scale * e.2), scale)','C38: entries scaled differently')
m(f,'packRay','(nonTiny.map fun e => (e.1, e.2 * scale), scale)','(nonTiny, scale)','C38: reported scale not applied')
json.dump(M,open('/tmp/w/m1.json','w'))
