import Verif.Model.Num
import Mathlib.Algebra.BigOperators.Group.List.Basic

/-!
# Sparse vectors and row cuts

`CoinPackedVector` (external, CoinUtils) is a list of (index, value) pairs in storage order;
`OsiRowCut` (external, Osi) is such a row with a lower bound (`ub = +∞` in all code modelled, so
`rhs() = lb()` and the sense is `>=`).
-/
namespace VPC

/-- A dense vector (`const double*`), read at an index. -/
abbrev Vec := ℕ → ℚ

/-- `CoinPackedVector`: parallel arrays `getIndices()`, `getElements()`. -/
abbrev SVec := List (ℕ × ℚ)

/-- Inner product of a packed vector with a dense vector (the mathematical meaning of
`CoinPackedVector::dotProduct`). -/
def sdot (v : SVec) (x : Vec) : ℚ := (v.map fun e => e.2 * x e.1).sum

/-- The coefficient of index `i` in a packed vector. -/
def scoef (v : SVec) (i : ℕ) : ℚ := (v.map fun e => if e.1 = i then e.2 else 0).sum

/-- Indices strictly increasing (what `CoinPackedVector::sortIncrIndex` establishes and the
two-pointer loops rely on). -/
def Sorted (v : SVec) : Prop := v.Pairwise fun a b => a.1 < b.1

instance (v : SVec) : Decidable (Sorted v) := by unfold Sorted; infer_instance

/-- `OsiRowCut` with `ub = +∞`: the cut `row · x ≥ lb`. -/
structure RowCut where
  row : SVec
  lb : ℚ
deriving DecidableEq, Repr

/-- A point satisfies a cut. -/
def RowCut.Sat (c : RowCut) (x : Vec) : Prop := c.lb ≤ sdot c.row x

/-- `OsiRowCut::violated` for `ub = +∞` (external: Osi/OsiRowCut.cpp): amount by which the
row falls short of `lb`, never negative. -/
def RowCut.violated (c : RowCut) (x : Vec) : ℚ :=
  if sdot c.row x < c.lb then c.lb - sdot c.row x else 0

@[simp] theorem sdot_nil (x : Vec) : sdot [] x = 0 := rfl
@[simp] theorem sdot_cons (e : ℕ × ℚ) (v : SVec) (x : Vec) :
    sdot (e :: v) x = e.2 * x e.1 + sdot v x := by simp [sdot]
@[simp] theorem sdot_append (v w : SVec) (x : Vec) : sdot (v ++ w) x = sdot v x + sdot w x := by
  simp [sdot]
@[simp] theorem scoef_nil (i : ℕ) : scoef [] i = 0 := rfl
@[simp] theorem scoef_cons (e : ℕ × ℚ) (v : SVec) (i : ℕ) :
    scoef (e :: v) i = (if e.1 = i then e.2 else 0) + scoef v i := by simp [scoef]
@[simp] theorem scoef_append (v w : SVec) (i : ℕ) : scoef (v ++ w) i = scoef v i + scoef w i := by
  simp [scoef]

theorem scoef_eq_zero_of_forall_ne {v : SVec} {i : ℕ} (h : ∀ e ∈ v, e.1 ≠ i) : scoef v i = 0 := by
  induction v with
  | nil => rfl
  | cons e v ih =>
    rw [scoef_cons, if_neg (h e (by simp)), ih fun e' he' => h e' (by simp [he'])]; simp

end VPC
