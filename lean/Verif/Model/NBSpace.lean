import Verif.Model.CutHelper
import Mathlib.Data.Rat.Floor
import Mathlib.Algebra.GroupWithZero.Basic

/-!
# Nonbasic space (src/utility/nbspace.cpp)
-/
namespace VPC

/-- Row senses of Osi (`getRowSense()`), without free rows. -/
inductive Sense | L | G | E | R
deriving DecidableEq, Repr

/-- Where a nonbasic column sits (result of `isNonBasicUBCol` / `isNonBasicLBCol`,
src/utility/SolverHelper.cpp:675-707); `other` = neither (free or basic). -/
inductive ColStat | atLower | atUpper | other
deriving DecidableEq, Repr

/-- The parts of the LP relaxation read by the functions modelled here
(`getMatrixByRow`, `getRowSense`, `getRightHandSide`, `getColLower/Upper`, column status). -/
structure LP where
  numCols : ℕ
  rows : ℕ → SVec
  sense : ℕ → Sense
  rhs : ℕ → ℚ
  colLower : Vec
  colUpper : Vec
  colStat : ℕ → ColStat

/-- Add `mult * v` into a dense vector: the inner loop src/utility/nbspace.cpp:719-721. -/
def addScaled (d : Vec) (v : SVec) (mult : ℚ) : Vec :=
  v.foldl (fun d e => fun k => if k = e.1 then d k + mult * e.2 else d k) d

/-- Loop state of `setCutFromNBCoefficients`: `struct_coeff` and `StructCutRHS`. -/
structure SCState where
  coeff : Vec
  rhs : ℚ

/-- One iteration of the loop of `setCutFromNBCoefficients` (`inCompSpace = true`, the only value
used by callers), src/utility/nbspace.cpp:680-722. Note that a structural variable *assigns*
`struct_coeff[curr_var] = curr_val` while a slack row *adds*. -/
def scStep (lp : LP) (st : SCState) (var : ℕ) (val : ℚ) : SCState :=
  if var < lp.numCols then
    match lp.colStat var with
    | .atUpper => { coeff := fun k => if k = var then -val else st.coeff k
                    rhs := st.rhs - val * lp.colUpper var }
    | .atLower => { coeff := fun k => if k = var then val else st.coeff k
                    rhs := st.rhs + val * lp.colLower var }
    | .other => { st with coeff := fun k => if k = var then val else st.coeff k }
  else
    let row := var - lp.numCols
    let mult : ℚ := if lp.sense row = .G then 1 else -1
    { coeff := addScaled st.coeff (lp.rows row) (mult * val)
      rhs := st.rhs + mult * lp.rhs row * val }

/-- The (variable, coefficient) pairs visited by the loop: `nonBasicVarIndex[curr_ind]` where
`curr_ind` is `nonZeroColIndex[tmp_ind]` if that list is nonempty and `tmp_ind` otherwise
(src/utility/nbspace.cpp:667-681). -/
def scPairs (numCols : ℕ) (nonZeroColIndex : List ℕ) (coeff : List ℚ) (nbVar : List ℕ) :
    List (ℕ × ℚ) :=
  let num := if nonZeroColIndex.length > 0 then nonZeroColIndex.length else numCols
  (List.range num).map fun t =>
    (nbVar.getD (if nonZeroColIndex.length > 0 then nonZeroColIndex.getD t 0 else t) 0,
     coeff.getD t 0)

/-- `setCutFromNBCoefficients`, src/utility/nbspace.cpp:661-741. Reads outside the arrays are UB
in C++; in the model they read 0 and the theorems assume the lengths match. -/
def setCutFromNBCoefficients (lp : LP) (nonZeroColIndex : List ℕ) (coeff : List ℚ) (beta : ℚ)
    (nbVar : List ℕ) (EPS : ℚ) : RowCut :=
  let st := (scPairs lp.numCols nonZeroColIndex coeff nbVar).foldl
    (fun st p => scStep lp st p.1 p.2) { coeff := fun _ => 0, rhs := beta }
  setOsiRowCut [] ((List.range lp.numCols).map st.coeff) st.rhs EPS

/-! ## Coordinates in the complemented nonbasic space -/

/-- Value minus original value of a variable, as computed in the loops of `setCompNBCoorPoint` and
`setCompNBCoor` (src/utility/nbspace.cpp:54-84 and :470-506), then made nonnegative by `std::abs`.
`orig` is the original LP solution, `x` the new point; for a slack the code uses
`getRightHandSide()[row] - activity`, with original value 0. -/
def compCoor (lp : LP) (orig x : Vec) (var : ℕ) : ℚ :=
  if var < lp.numCols then |x var - orig var|
  else |lp.rhs (var - lp.numCols) - sdot (lp.rows (var - lp.numCols)) x - 0|

/-- The tiny-element selection loop (src/utility/nbspace.cpp:105-115): walk the tiny elements in
the given order, keep adding until the objective matches; returns the kept prefix and the final
`nonTinyObj`. -/
def takeTiny (EPS objViol : ℚ) (rc : Vec) : SVec → ℚ → Bool → SVec × ℚ
  | [], obj, _ => ([], obj)
  | _ :: _, obj, false => ([], obj)
  | e :: t, obj, true =>
    let obj' := obj + e.2 * rc e.1
    let r := takeTiny EPS objViol rc t obj' (!(isVal obj' objViol EPS))
    (e :: r.1, r.2)

/-- The merge loops src/utility/nbspace.cpp:117-138 (also :333-353, :546-567). `ti` is the
*index-ordered* array `tinyIndex` used for the comparison, `te` the *value-ordered* `tinyVec`
entries that are actually written. -/
def mergeTiny : List ℕ → SVec → SVec → SVec
  | _, [], ps => ps
  | _, te, [] => te
  | [], te, _ => te        -- not reached: `ti` is at least as long as `te`
  | t :: ti, e :: te, p :: ps =>
    if t < p.1 then e :: mergeTiny ti te (p :: ps) else p :: mergeTiny (t :: ti) (e :: te) ps
termination_by _ te ps => te.length + ps.length

/-- Sparse form of a dense list of coordinates: `setCompNBCoorPoint` / `setCompNBCoor`,
src/utility/nbspace.cpp:54-145 resp. :470-574 (`scale = 1`). `sortDecr` is the external
`CoinPackedVector::sortDecrElement`. -/
def packCoor (sortDecr : SVec → SVec) (EPS objViol : ℚ) (rc : Vec) (vals : List ℚ) : SVec :=
  let nonTiny : SVec := (vals.zipIdx.filter fun e => !(isZero e.1 EPS)).map fun e => (e.2, e.1)
  let tiny : SVec := (vals.zipIdx.filter fun e =>
    isZero e.1 EPS && !(isZero (e.1 * rc e.2) EPS)).map fun e => (e.2, e.1)
  let obj := (nonTiny.map fun e => e.2 * rc e.1).sum
  if !(isVal obj objViol EPS) then
    let kept := (takeTiny EPS objViol rc (sortDecr tiny) obj true).1
    mergeTiny (tiny.map (·.1)) kept nonTiny
  else nonTiny

/-- `setCompNBCoorPoint`, src/utility/nbspace.cpp:21-182 with `deletedVar = -1` (its only use),
without the final consistency check (which can only abort). -/
def setCompNBCoorPoint (sortDecr : SVec → SVec) (EPS objViol : ℚ) (lp : LP) (orig x : Vec)
    (nbVar : List ℕ) (rc : Vec) : SVec :=
  packCoor sortDecr EPS objViol rc (nbVar.map (compCoor lp orig x))

/-! ### Rays -/

/-- The tableau column handed to `setCompNBCoorRay` by `genDepth1PRCollection`
(src/cut/CglVPC.cpp:1385-1390): `B⁻¹A_tmpVar`, negated if `isNonBasicLBVar(tmpVar)`. -/
def genRay (tmpLB : Bool) (tab : Vec) : Vec := fun r => if tmpLB then tab r * (-1) else tab r

/-- The component of a ray for an originally nonbasic variable,
src/utility/nbspace.cpp:217 and :244-269 with `rayNeedsCalculation = false` (the default,
include/nbspace.hpp:47, and the only use): `tmpVar` is the nonbasic variable
of the term's basis that generates the ray, `origVar` the coordinate, `row?` the row in which
`origVar` is basic in the term's basis (`rowOfOrigNBVar >= 0`), `ray` the column passed in,
`tmpUB` / `origUB` the at-upper-bound tests. -/
def rayCoor (tmpVar origVar : ℕ) (tmpUB origUB : Bool) (row? : Option ℕ) (ray : Vec) : ℚ :=
  let tmpRayMult : ℚ := if tmpUB then -1 else 1
  let rayMult : ℚ := if origUB then -1 else 1
  let newRayMult := tmpRayMult * rayMult
  if origVar = tmpVar then newRayMult
  else match row? with
    | some r => tmpRayMult * newRayMult * ray r
    | none => 0

/-- The tiny-element loop for rays, src/utility/nbspace.cpp:306-315 (the criterion also requires a
nonnegative objective slope). -/
def takeTinyRay (EPS objViol : ℚ) (rc : Vec) : SVec → ℚ → Bool → SVec × ℚ
  | [], obj, _ => ([], obj)
  | _ :: _, obj, false => ([], obj)
  | e :: t, obj, true =>
    let obj' := obj + e.2 * rc e.1
    let r := takeTinyRay EPS objViol rc t obj'
      (lessThanVal obj' 0 EPS || !(isVal obj' objViol EPS))
    (e :: r.1, r.2)

/-- `static_cast<int>` of a double: truncation toward zero. -/
def truncQ (q : ℚ) : ℤ := if 0 ≤ q then ⌊q⌋ else ⌈q⌉

/-- The scaling exponent, src/utility/nbspace.cpp:326-331 (tiny used) and :358-367 (not used);
`mn`, `mx` are `minExponent(Tiny)` and `maxExponent`. -/
def scaleExp (usedTiny : Bool) (mn mx : ℤ) : ℤ :=
  let avg : ℚ := 1 / 2 * ((mn : ℚ) + mx)
  if avg < -(1 / 4) then 1 - truncQ (avg + 1 / 4)
  else if !usedTiny && decide (mn > 0) then -1 * mn
  else 0

/-- Packing of a ray, `setCompNBCoorRay`, src/utility/nbspace.cpp:244-377: returns the packed
vector and the `scale` output argument. `expo` is the external `log10`-based exponent
`static_cast<int>(±0.046 + log10|v|)`. Simplifications: the unit entry of the ray's own variable is
treated like every other entry (it is always `±1`, so never tiny; its exponent is taken as
`expo (±1)`, which the code hard-codes as 0 for the minimum and leaves out of the maximum, whose
initial value 1 already exceeds it); the `isVal(scale, 1.)` guard, which only skips a
multiplication by exactly 1, is omitted; the consistency checks at :379-409 can only abort. -/
def packRay (sortDecr : SVec → SVec) (expo : ℚ → ℤ) (EPS RAYEPS objViol : ℚ) (rc : Vec)
    (vals : List ℚ) : SVec × ℚ :=
  let nonTiny : SVec := (vals.zipIdx.filter fun e => !(isZero e.1 RAYEPS)).map fun e => (e.2, e.1)
  let tiny : SVec := (vals.zipIdx.filter fun e =>
    isZero e.1 RAYEPS && !(isZero (e.1 * rc e.2) RAYEPS)).map fun e => (e.2, e.1)
  let obj := (nonTiny.map fun e => e.2 * rc e.1).sum
  let mx := nonTiny.foldl (fun m e => max m (expo e.2)) 1
  let mn := nonTiny.foldl (fun m e => min m (expo e.2)) 1000
  if lessThanVal obj 0 EPS || !(isVal obj objViol EPS) then
    let kept := (takeTinyRay EPS objViol rc (sortDecr tiny) obj true).1
    let mnTiny := kept.foldl (fun m e => min m (expo e.2)) 0
    let scale : ℚ := (10 : ℚ) ^ scaleExp true mnTiny mx
    ((mergeTiny (tiny.map (·.1)) kept nonTiny).map fun e => (e.1, e.2 * scale), scale)
  else
    let scale : ℚ := (10 : ℚ) ^ scaleExp false mn mx
    (nonTiny.map fun e => (e.1, e.2 * scale), scale)

end VPC
