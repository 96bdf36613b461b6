import Verif.Model.Sparse

/-!
# Cut post-processing (src/cut/CutHelper.cpp)
-/
namespace VPC

/-- `setOsiRowCut`, src/cut/CutHelper.cpp:19-36. `nonZeroColIndex` empty means identity
(`(nonZeroColIndex.size() > 0) ? nonZeroColIndex[i] : i`); reading it out of range is C++ UB and
modelled by the index `0` of `getD` (all callers pass equal lengths). The list `coeff` has length
`num_coeff`. Coefficients with `|c| < EPS` are dropped *without* touching the right-hand side. -/
def setOsiRowCut (nonZeroColIndex : List ℕ) (coeff : List ℚ) (rhs EPS : ℚ) : RowCut :=
  { row := (coeff.zipIdx).filterMap fun (c, i) =>
      if isZero c EPS then none
      else some (if nonZeroColIndex.length > 0 then nonZeroColIndex.getD i 0 else i, c)
    lb := rhs }

/-- One iteration of the loop of `removeSmallCoefficients`, src/cut/CutHelper.cpp:62-96: returns
the retained entry (if any) and the amount subtracted from the right-hand side. -/
def rscStep (colLower colUpper obj : Vec) (EPS EPS_COEFF : ℚ) (e : ℕ × ℚ) : Option (ℕ × ℚ) × ℚ :=
  let absval := |e.2|
  if isZero absval EPS && isZero (absval * obj e.1) EPS then
    (none, 0)                                        -- `continue; // throw away this element`
  else if absval ≤ EPS_COEFF then
    if e.2 < 0 && !(isNegInfinity (colLower e.1)) then (none, e.2 * colLower e.1)
    else if e.2 > 0 && !(isInfinity (colUpper e.1)) then (none, e.2 * colUpper e.1)
    else (some e, 0)
  else (some e, 0)

/-- `removeSmallCoefficients`, src/cut/CutHelper.cpp:50-104. -/
def removeSmallCoefficients (colLower colUpper obj : Vec) (EPS EPS_COEFF : ℚ) (cut : RowCut) :
    RowCut :=
  let steps := cut.row.map (rscStep colLower colUpper obj EPS EPS_COEFF)
  let rhs := steps.foldl (fun r s => r - s.2) cut.lb
  { row := steps.filterMap (·.1)
    lb := if isZero rhs EPS then 0 else rhs }

/-- `badSupport`, src/cut/CutHelper.cpp:112-114. -/
def badSupport (cutNz numCols : ℕ) (minSupThresh maxSupAbs maxSupRel : ℚ) : Bool :=
  (cutNz : ℚ) > minSupThresh && ((cutNz : ℚ) > maxSupAbs || (cutNz : ℚ) > maxSupRel * numCols)

/-- `badViolation`, src/cut/CutHelper.cpp:116-131. `norm` is the external
`CoinPackedVector::twoNorm`. -/
def badViolation (norm : SVec → ℚ) (cut : RowCut) (x : Vec) (minViolAbs minViolRel : ℚ) : Bool :=
  let violation := cut.violated x
  !(greaterThanVal violation 0 minViolAbs) ||
    !(greaterThanVal violation 0 (norm cut.row * minViolRel))

/-- One iteration of the (min, max) loop of `badDynamism` (src/cut/CutHelper.cpp:141-152). -/
def minMaxStep (EPS : ℚ) (acc : ℚ × ℚ) (e : ℕ × ℚ) : ℚ × ℚ :=
  let a := |e.2|
  if isZero a EPS then acc
  else (if acc.1 > a || isZero acc.1 EPS then a else acc.1, if acc.2 < a then a else acc.2)

/-- The (min, max) loop of `badDynamism` (src/cut/CutHelper.cpp:139-156). -/
def minMaxAbs (EPS : ℚ) (row : SVec) : ℚ × ℚ := row.foldl (minMaxStep EPS) (0, 0)

/-- `badDynamism`, src/cut/CutHelper.cpp:134-163. `maxAbsElem / minAbsElem` with a zero
denominator is `+inf` in IEEE arithmetic, hence the explicit case. (A finite rational model of the
other quotients is exact since `minAbsCoeff` is tested to be nonzero first.) -/
def badDynamism (cut : RowCut) (minAbsCoeff maxAbsCoeff SENSIBLE_MAX EPS : ℚ) : Bool :=
  let mm := minMaxAbs EPS cut.row
  let absRhs := |cut.lb|
  let maxAbs := if absRhs > mm.2 then absRhs else mm.2
  isZero maxAbs EPS
    || (if mm.1 = 0 then true else greaterThanVal (maxAbs / mm.1) SENSIBLE_MAX EPS)
    || (!(isZero minAbsCoeff EPS)
        && greaterThanVal |maxAbs / minAbsCoeff| |SENSIBLE_MAX * maxAbsCoeff / minAbsCoeff| EPS)

/-- `CglVPC::FailureType` (include/CglVPC.hpp; numbering checked in `Verif.Model.Enums`): only the
three members `cleanCut` can report. -/
inductive CleanFail | badSupport | badViolation | badDynamism
deriving DecidableEq, Repr

/-- Parameters of `cleanCut` (src/cut/CutHelper.cpp:208-221). -/
structure CleanParams where
  EPS_COEFF : ℚ
  MAX_DYN : ℚ
  MIN_SUP_THRESH : ℚ
  MAX_SUP_ABS : ℚ
  MAX_SUP_REL : ℚ
  MIN_VIOL_ABS : ℚ
  MIN_VIOL_REL : ℚ
  MIN_ABS_COEFF : ℚ
  MAX_ABS_COEFF : ℚ
  EPS : ℚ
  checkViolation : Bool

/-- What `cleanCut` reads from the solver. -/
structure CutSolver where
  numCols : ℕ
  colLower : Vec
  colUpper : Vec
  obj : Vec
  colSolution : Vec

/-- `cleanCut`, src/cut/CutHelper.cpp:208-234: the mutated cut and the failure (none = `0`). -/
def cleanCut (norm : SVec → ℚ) (p : CleanParams) (s : CutSolver) (cut : RowCut) :
    RowCut × Option CleanFail :=
  let cut := removeSmallCoefficients s.colLower s.colUpper s.obj p.EPS p.EPS_COEFF cut
  if badSupport cut.row.length s.numCols p.MIN_SUP_THRESH p.MAX_SUP_ABS p.MAX_SUP_REL then
    (cut, some .badSupport)
  else if p.checkViolation && badViolation norm cut s.colSolution p.MIN_VIOL_ABS p.MIN_VIOL_REL then
    (cut, some .badViolation)
  else if badDynamism cut p.MIN_ABS_COEFF p.MAX_ABS_COEFF
      (max (if p.EPS > 0 then 1 / p.EPS else p.MAX_DYN) p.MAX_DYN) p.EPS then
    (cut, some .badDynamism)
  else (cut, none)

/-! ## `isRowDifferent` (src/cut/CutHelper.cpp:254-401) -/

/-- Loop state: `ratio`, `ratio_coeff`, `maxDiff`, `maxDiffCoeff`. (`maxDiffZero` is written but
never read by the code and is omitted.) -/
structure RDState where
  ratio : ℚ
  ratioCoeff : ℚ
  maxDiff : ℚ
  maxDiffCoeff : ℚ

/-- src/cut/CutHelper.cpp:264-284: initial state from the right-hand sides. -/
def rdInit (EPS rhs1 rhs2 : ℚ) : RDState :=
  if isZero rhs1 EPS || isZero rhs2 EPS then
    { ratio := -1, ratioCoeff := -1, maxDiffCoeff := 0
      maxDiff := if !(isZero rhs1 EPS) then |rhs1| else if !(isZero rhs2 EPS) then |rhs2| else 0 }
  else { ratio := rhs1 / rhs2, ratioCoeff := -1, maxDiff := 0, maxDiffCoeff := 0 }

/-- The `while` loop src/cut/CutHelper.cpp:291-300: skip entries of cut 2 below index `i`;
`none` = the function returned 2. -/
def rdSkip (EPS : ℚ) (i : ℕ) : SVec → Option SVec
  | [] => some []
  | (j, b) :: t => if i > j then (if !(isZero b EPS) then none else rdSkip EPS i t)
                   else some ((j, b) :: t)

/-- The body for a pair of matching nonzero coefficients `a`, `b`,
src/cut/CutHelper.cpp:325-364; `none` = the function returned 2. The comparisons
`lessThanVal(ratio, 0.0)` use the default tolerance. -/
def rdMatch (EPS a b : ℚ) (s : RDState) : Option RDState :=
  let s1 : Option RDState :=
    if lessThanVal s.ratio 0 then
      if lessThanVal (a / b) 0 then none else some { s with ratio := a / b }
    else
      let diff := |a - s.ratio * b|
      some { s with maxDiff := if diff > s.maxDiff then diff else s.maxDiff }
  match s1 with
  | none => none
  | some s =>
    let s2 : Option RDState :=
      if lessThanVal s.ratioCoeff 0 then
        if lessThanVal (a / b) 0 then none else some { s with ratioCoeff := a / b }
      else
        let diff := |a - s.ratioCoeff * b|
        some { s with maxDiffCoeff := if diff > s.maxDiffCoeff then diff else s.maxDiffCoeff }
    match s2 with
    | none => none
    | some s =>
      if !(isZero s.maxDiff EPS) && !(isZero s.maxDiffCoeff EPS) then none else some s

/-- The main loop src/cut/CutHelper.cpp:289-365 followed by the trailing loop :367-376;
`none` = the function returned 2. -/
def rdLoop (EPS : ℚ) : SVec → SVec → RDState → Option RDState
  | [], v2, s => if v2.all fun e => isZero e.2 EPS then some s else none
  | (i, a) :: t1, v2, s =>
    match rdSkip EPS i v2 with
    | none => none
    | some [] => if !(isZero a EPS) then none else rdLoop EPS t1 [] s
    | some ((j, b) :: t2) =>
      if j > i then
        if !(isZero a EPS) then none else rdLoop EPS t1 ((j, b) :: t2) s
      else if isZero a EPS || isZero b EPS then
        if !(isZero a EPS) || !(isZero b EPS) then none else rdLoop EPS t1 t2 s
      else match rdMatch EPS a b s with
        | none => none
        | some s' => rdLoop EPS t1 t2 s'

/-- `isRowDifferent`, src/cut/CutHelper.cpp:254-401. -/
def isRowDifferent (v1 : SVec) (rhs1 : ℚ) (v2 : SVec) (rhs2 EPS : ℚ) : ℤ :=
  match rdLoop EPS v1 v2 (rdInit EPS rhs1 rhs2) with
  | none => 2
  | some s =>
    if isZero s.maxDiff EPS then 0
    else if isZero s.maxDiffCoeff EPS then
      if lessThanVal s.ratioCoeff 0 EPS then 2
      else
        let d := rhs1 - s.ratioCoeff * rhs2
        if isZero d EPS then 0 else if greaterThanVal d 0 EPS then -1 else 1
    else 0

/-! ## `howDuplicate` (src/cut/CutHelper.cpp:461-484) -/

/-- Output of `howDuplicate`; `-1` indices are `none`. -/
structure DupInfo where
  code : ℤ
  dupIndex : Option ℕ
  minOrthoIndex : Option ℕ
  minOrtho : ℚ

/-- The loop of `howDuplicate`, src/cut/CutHelper.cpp:467-482, on the cuts from position `i` on.
`ortho` is `getOrthogonality` (needs a square root, kept abstract). -/
def howDupLoop (ortho : SVec → SVec → ℚ) (MIN_ORTHO EPS : ℚ) (tmp : RowCut) :
    ℕ → List RowCut → Option ℕ → ℚ → DupInfo
  | _, [], mi, mo => ⟨0, none, mi, mo⟩
  | i, c :: cs, mi, mo =>
    let upd := decide (MIN_ORTHO > 0) && decide (ortho tmp.row c.row < mo)
    let mo' := if upd then ortho tmp.row c.row else mo
    let mi' := if upd then some i else mi
    let d := isRowDifferent c.row c.lb tmp.row tmp.lb EPS
    if d ≠ 2 then ⟨d, some i, mi', mo'⟩ else howDupLoop ortho MIN_ORTHO EPS tmp (i + 1) cs mi' mo'

/-- `howDuplicate`, src/cut/CutHelper.cpp:461-484. -/
def howDuplicate (ortho : SVec → SVec → ℚ) (cuts : List RowCut) (tmp : RowCut) (startIndex : ℕ)
    (MIN_ORTHO EPS : ℚ) : DupInfo :=
  howDupLoop ortho MIN_ORTHO EPS tmp startIndex (cuts.drop startIndex) none 2

end VPC
