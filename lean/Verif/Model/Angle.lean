import Verif.Model.VecOps
import Verif.Model.CutHelper

/-!
# Parallelism and orthogonality of vectors (src/cut/CutHelper.cpp:402-484)

The functions divide an inner product by the product of two square roots. The quotient is kept
exactly as the pair of the inner product and the product of the two sums of squares; comparisons of
two such quotients are done by comparing signed squares, which is exact. Rounding, overflow and
underflow are not modelled.
-/
namespace VPC

/-- A value of `getParallelism`: `num / sqrt sq` with `sq > 0`, or the NaN of `0 / 0`. -/
inductive Par
  | nan
  | quot (num sq : ℚ)
deriving DecidableEq, Repr

/-- `scalarprod / (norm1 * norm2)` with `norm1 = sqrt a`, `norm2 = sqrt b`
(src/cut/CutHelper.cpp:409, 420, 431). If a norm is zero then all the elements are, the inner product
is zero as well, and `0 / 0` is NaN. -/
def Par.mk (num a b : ℚ) : Par := if a * b = 0 then .nan else .quot num (a * b)

/-- `CoinPackedVectorBase::twoNorm` before the square root (external): the sum of squares of the
elements stored. -/
def packedSquares (v : SVec) : ℚ := rowSquares (v.map (·.2))

/-- `getParallelism(const CoinPackedVectorBase&, const CoinPackedVectorBase&)`
(src/cut/CutHelper.cpp:406-410), with the project's own `dotProduct`, which expects sorted
indices. -/
def parallelismPP (v w : SVec) : Par :=
  Par.mk (dotSparse id true v w) (packedSquares v) (packedSquares w)

/-- `std::inner_product(vec, vec + numElem, vec, 0.0L)` (src/cut/CutHelper.cpp:419, 429-430);
`none` = reads past the end of the array. -/
def denseSquares (numElem : ℕ) (b : List ℚ) : Option ℚ :=
  if b.length < numElem then none else some (rowSquares (b.take numElem))

/-- `getParallelism(const CoinPackedVectorBase&, const int, const double*)`
(src/cut/CutHelper.cpp:415-421): the inner product is Coin's (external), over the stored entries of
the packed vector, and does not look at `numElem`. `none` = reads past the end of the array. -/
def parallelismPD (v : SVec) (numElem : ℕ) (b : List ℚ) : Option Par :=
  match dotSparseDense id false v b, denseSquares numElem b with
  | some s, some n2 => some (Par.mk s (packedSquares v) n2)
  | _, _ => none

/-- `getParallelism(const int, const double*, const double*)` (src/cut/CutHelper.cpp:426-432). -/
def parallelismDD (numElem : ℕ) (a b : List ℚ) : Option Par :=
  match dotDense id true a b numElem, denseSquares numElem a, denseSquares numElem b with
  | some s, some n1, some n2 => some (Par.mk s n1 n2)
  | _, _, _ => none

/-- The signed square of a quotient. -/
def signedSq (num sq : ℚ) : ℚ := num * |num| / sq

/-- `a < b` for two orthogonalities `a = 1. - p`, `b = 1. - q`
(`getOrthogonality`, src/cut/CutHelper.cpp:437-456; the comparison on line 471): false if one
of them is NaN. -/
def orthoLess : Par → Par → Bool
  | .quot n s, .quot m t => decide (signedSq m t < signedSq n s)
  | _, _ => false

/-- `orthogonality < MIN_ORTHOGONALITY` (src/cut/PRLP.cpp:705): `1 - p < theta`. -/
def orthoBelow (theta : ℚ) : Par → Bool
  | .nan => false
  | .quot n s => decide (signedSq (1 - theta) 1 < signedSq n s)

/-- The initial value `minOrtho = 2.` (src/cut/CutHelper.cpp:466), as `1 - (-1)`. -/
def parOpposite : Par := .quot (-1) 1

/-- Output of `howDuplicate`; `minPar` is one minus `minOrtho`. -/
structure DupAngle where
  code : ℤ
  dupIndex : Option ℕ
  minOrthoIndex : Option ℕ
  minPar : Par
deriving DecidableEq

/-- The loop of `howDuplicate` (src/cut/CutHelper.cpp:467-482) with the orthogonality computed. -/
def howDupAngleLoop (MIN_ORTHO EPS : ℚ) (tmp : RowCut) :
    ℕ → List RowCut → Option ℕ → Par → DupAngle
  | _, [], mi, mp => ⟨0, none, mi, mp⟩
  | i, c :: cs, mi, mp =>
    let p := parallelismPP tmp.row c.row
    let upd := decide (MIN_ORTHO > 0) && orthoLess p mp
    let mp' := if upd then p else mp
    let mi' := if upd then some i else mi
    let d := isRowDifferent c.row c.lb tmp.row tmp.lb EPS
    if d ≠ 2 then ⟨d, some i, mi', mp'⟩ else howDupAngleLoop MIN_ORTHO EPS tmp (i + 1) cs mi' mp'

/-- `howDuplicate` (src/cut/CutHelper.cpp:461-484). -/
def howDupAngle (cuts : List RowCut) (tmp : RowCut) (startIndex : ℕ) (MIN_ORTHO EPS : ℚ) : DupAngle :=
  howDupAngleLoop MIN_ORTHO EPS tmp startIndex (cuts.drop startIndex) none parOpposite

/-- A rational-valued stand-in for `getOrthogonality` (src/cut/CutHelper.cpp:437-440) with the same
comparisons: one minus the signed square of the parallelism; NaN, which is never less than anything,
is the largest value 2. -/
def orthoKey (v w : SVec) : ℚ :=
  match parallelismPP v w with
  | .nan => 2
  | .quot n s => 1 - signedSq n s

/-- The minimal orthogonality on the scale of `orthoKey` (src/cut/PRLP.cpp:702-705). -/
def orthoKeyBound (theta : ℚ) : ℚ := 1 - signedSq (1 - theta) 1

/-- The stationarity test of `iterateDeepestCutPostGomory`, `isVal(parallelism, 1.)`
(src/cut/PRLP.cpp:1933-1950), between the previous and the current point: `|p - 1| < eps`. With NaN
the comparison is false. -/
def stationary (numElem : ℕ) (prev cur : List ℚ) : Option Bool :=
  (parallelismDD numElem prev cur).map fun p =>
    match p with
    | .nan => false
    | .quot n s => decide (signedSq (1 - defEps) 1 < signedSq n s) &&
        decide (signedSq n s < signedSq (1 + defEps) 1)

end VPC
