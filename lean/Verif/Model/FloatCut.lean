import Verif.Model.CutHelper
import Verif.Model.NBSpace

/-!
# Deriving and cleaning a cut in floating-point arithmetic

The same functions as in `NBSpace` and `CutHelper`, with every operation on doubles rounded by a function `rnd` (external:
IEEE 754; `fl 53` of `Verif.Model.Float` without overflow and underflow). Negations, absolute values, comparisons and
products with `mult = ±1` are exact and not rounded. It is assumed that the compiler does not fuse products and sums.
-/
namespace VPC

/-- The inner loop src/utility/nbspace.cpp:719-721: `struct_coeff[i] += mult * a * curr_val`, one product and one sum
rounded. -/
def addScaledR (rnd : ℚ → ℚ) (d : Vec) (v : SVec) (mult val : ℚ) : Vec :=
  v.foldl (fun d e => fun k => if k = e.1 then rnd (d k + rnd (mult * e.2 * val)) else d k) d

/-- One iteration of the loop of `setCutFromNBCoefficients` (`inCompSpace = true`), src/utility/nbspace.cpp:680-722, every
product and sum rounded. -/
def scStepR (rnd : ℚ → ℚ) (lp : LP) (st : SCState) (var : ℕ) (val : ℚ) : SCState :=
  if var < lp.numCols then
    match lp.colStat var with
    | .atUpper => { coeff := fun k => if k = var then -val else st.coeff k
                    rhs := rnd (st.rhs - rnd (val * lp.colUpper var)) }
    | .atLower => { coeff := fun k => if k = var then val else st.coeff k
                    rhs := rnd (st.rhs + rnd (val * lp.colLower var)) }
    | .other => { st with coeff := fun k => if k = var then val else st.coeff k }
  else
    let row := var - lp.numCols
    let mult : ℚ := if lp.sense row = .G then 1 else -1
    { coeff := addScaledR rnd st.coeff (lp.rows row) mult val
      rhs := rnd (st.rhs + rnd (mult * lp.rhs row * val)) }

/-- `setCutFromNBCoefficients`, src/utility/nbspace.cpp:661-741, rounded. (`setOsiRowCut` only compares.) -/
def setCutFromNBCoefficientsR (rnd : ℚ → ℚ) (lp : LP) (nonZeroColIndex : List ℕ) (coeff : List ℚ) (beta : ℚ)
    (nbVar : List ℕ) (EPS : ℚ) : RowCut :=
  let st := (scPairs lp.numCols nonZeroColIndex coeff nbVar).foldl
    (fun st p => scStepR rnd lp st p.1 p.2) { coeff := fun _ => 0, rhs := beta }
  setOsiRowCut [] ((List.range lp.numCols).map st.coeff) st.rhs EPS

/-- One iteration of the loop of `removeSmallCoefficients`, src/cut/CutHelper.cpp:62-96, rounded: the retained entry, and
the product subtracted from the right-hand side, if any. -/
def rscStepR (rnd : ℚ → ℚ) (colLower colUpper obj : Vec) (EPS EPS_COEFF : ℚ) (e : ℕ × ℚ) : Option (ℕ × ℚ) × Option ℚ :=
  let absval := |e.2|
  if isZero absval EPS && isZero (rnd (absval * obj e.1)) EPS then
    (none, none)
  else if absval ≤ EPS_COEFF then
    if e.2 < 0 && !(isNegInfinity (colLower e.1)) then (none, some (rnd (e.2 * colLower e.1)))
    else if e.2 > 0 && !(isInfinity (colUpper e.1)) then (none, some (rnd (e.2 * colUpper e.1)))
    else (some e, none)
  else (some e, none)

/-- `removeSmallCoefficients`, src/cut/CutHelper.cpp:50-104, rounded. -/
def removeSmallCoefficientsR (rnd : ℚ → ℚ) (colLower colUpper obj : Vec) (EPS EPS_COEFF : ℚ) (cut : RowCut) :
    RowCut :=
  let steps := cut.row.map (rscStepR rnd colLower colUpper obj EPS EPS_COEFF)
  let rhs := steps.foldl (fun r s => match s.2 with | none => r | some q => rnd (r - q)) cut.lb
  { row := steps.filterMap (·.1)
    lb := if isZero rhs EPS then 0 else rhs }

end VPC
