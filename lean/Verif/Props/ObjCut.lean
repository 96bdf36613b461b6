import Verif.Model.GenCut
import Verif.Props.NBCut
import Mathlib.Tactic.Linarith
import Mathlib.Tactic.NormNum

/-!
# The objective cut (C48)
-/
namespace VPC
open Finset

/-- Objective value of a point as Osi reports it: `c · x - offset`. -/
def objValue (n : ℕ) (c x : Vec) (offset : ℚ) : ℚ := (∑ k ∈ range n, c k * x k) - offset

theorem objectiveCut_sdot (n : ℕ) (c x : Vec) (EPS z offset : ℚ) :
    sdot (objectiveCut n c EPS z offset).row x
      = ∑ k ∈ range n, (if isVal (c k) EPS then 0 else c k * x k) := by
  unfold objectiveCut
  simp only
  induction n with
  | zero => simp
  | succ n ih =>
    rw [List.range_succ, List.filterMap_append, sdot_append, ih, Finset.sum_range_succ]
    congr 1
    cases h : isVal (c n) EPS <;> simp [h]

/-- The objective cut, exactly: it is satisfied by precisely the points whose objective value,
counted without the coefficients near `EPS`, is at least the value found. -/
theorem objectiveCut_sat_iff (n : ℕ) (c x : Vec) (EPS z offset : ℚ) :
    (objectiveCut n c EPS z offset).Sat x ↔
      z ≤ objValue n (fun k => if isVal (c k) EPS then 0 else c k) x offset := by
  unfold RowCut.Sat
  rw [objectiveCut_sdot]
  have : (∑ k ∈ range n, if isVal (c k) EPS then 0 else c k * x k)
      = ∑ k ∈ range n, (if isVal (c k) EPS then 0 else c k) * x k := by
    apply Finset.sum_congr rfl
    intro k _
    split <;> simp
  rw [this]
  unfold objValue objectiveCut
  simp only
  constructor <;> intro h <;> linarith

/-- If no nonzero coefficient is within the tolerance of `EPS`, every point whose objective value
is at least the value found (in particular every integer-feasible point, when that value is the
integer optimum) satisfies the cut. Missing for the full property: tiny coefficients, see the next
theorem. -/
theorem objectiveCut_valid_partial (n : ℕ) (c x : Vec) (EPS z offset : ℚ)
    (hc : ∀ k < n, isVal (c k) EPS = true → c k = 0) (hx : z ≤ objValue n c x offset) :
    (objectiveCut n c EPS z offset).Sat x := by
  rw [objectiveCut_sat_iff]
  refine le_trans hx (le_of_eq ?_)
  unfold objValue
  congr 1
  apply Finset.sum_congr rfl
  intro k hk
  dsimp only
  split
  · rename_i h; rw [hc k (Finset.mem_range.mp hk) h]
  · rfl

example : ∃ x : Vec, (∀ k < 2, isVal ((fun k => if k = 0 then (3 : ℚ) else 0) k) (1 / 10 ^ 7) = true →
    (fun k => if k = 0 then (3 : ℚ) else 0) k = 0) ∧
    2 ≤ objValue 2 (fun k => if k = 0 then 3 else 0) x 1 :=
  ⟨fun _ => 1, by
    constructor
    · intro k hk h
      by_cases h0 : k = 0
      · subst h0; norm_num [isVal, defEps] at h
      · simp [h0]
    · norm_num [objValue, Finset.sum_range_succ]⟩

/-- With a coefficient of `1e-7` the cut removes an optimal solution: objective
`x₀ + 1e-7 x₁`, optimum at `(0, 10^7)` with value 1; the cut is `x₀ ≥ 1`. -/
theorem objectiveCut_cuts_off_optimum :
    ∃ (c x : Vec), objValue 2 c x 0 = 1 ∧ ¬ (objectiveCut 2 c (1 / 10 ^ 7) 1 0).Sat x := by
  refine ⟨fun k => if k = 0 then 1 else 1 / 10 ^ 7, fun k => if k = 0 then 0 else 10 ^ 7, ?_, ?_⟩
  · norm_num [objValue, Finset.sum_range_succ]
  · rw [objectiveCut_sat_iff]
    norm_num [objValue, Finset.sum_range_succ, isVal, defEps]

end VPC
