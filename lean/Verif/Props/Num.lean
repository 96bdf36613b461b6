import Verif.Model.Num
import Mathlib.Tactic.Linarith
import Mathlib.Tactic.NormNum

/-! # C15: tolerance comparisons -/
namespace VPC

/-- C15. For a positive tolerance exactly one of less / equal / greater holds. -/
theorem tol_trichotomy (a b eps : ℚ) (he : 0 < eps) :
    (lessThanVal a b eps = true ∧ isVal a b eps = false ∧ greaterThanVal a b eps = false) ∨
    (lessThanVal a b eps = false ∧ isVal a b eps = true ∧ greaterThanVal a b eps = false) ∨
    (lessThanVal a b eps = false ∧ isVal a b eps = false ∧ greaterThanVal a b eps = true) := by
  simp only [Bool.eq_false_iff, ne_eq, lessThanVal_iff, isVal_iff, greaterThanVal_iff, abs_lt,
    not_le, not_and, not_lt]
  rcases le_or_gt a (b - eps) with h | h
  · left; exact ⟨h, fun h2 => by linarith, by linarith⟩
  · rcases le_or_gt (b + eps) a with h' | h'
    · right; right; exact ⟨by linarith, fun _ => by linarith, h'⟩
    · right; left; exact ⟨h, ⟨by linarith, by linarith⟩, h'⟩

example : (0 : ℚ) < defEps := by norm_num [defEps]

/-- C15. Swapping the arguments swaps less and greater (strictness is symmetric). -/
theorem tol_swap (a b eps : ℚ) : lessThanVal a b eps = greaterThanVal b a eps := by
  rw [Bool.eq_iff_iff]; simp only [lessThanVal_iff, greaterThanVal_iff]
  constructor <;> intro h <;> linarith

/-- C15. Strict comparison is transitive and irreflexive: no cyclic verdicts. -/
theorem tol_less_trans (a b c eps : ℚ) (he : 0 < eps)
    (h1 : lessThanVal a b eps = true) (h2 : lessThanVal b c eps = true) :
    lessThanVal a c eps = true ∧ lessThanVal c a eps = false := by
  simp only [lessThanVal_iff, Bool.eq_false_iff, ne_eq, not_le] at *
  constructor <;> linarith

example : lessThanVal 0 1 = true ∧ lessThanVal 1 2 = true := by
  constructor <;> norm_num [lessThanVal_iff, defEps]

/-- C15. The tests against a configured infinity `±inf` accept exactly the values within `eps`
of (or beyond) that infinity. -/
theorem tol_infinity_explicit (v inf eps : ℚ) (he : 0 < eps) :
    (isInfinity v inf eps = true ↔ inf - eps < v) ∧
    (isNegInfinity v (-inf) eps = true ↔ v < -inf + eps) := by
  simp only [isInfinity, isNegInfinity, Bool.or_eq_true, Bool.not_eq_true', Bool.eq_false_iff,
    ne_eq, lessThanVal_iff, greaterThanVal_iff, not_le, ge_iff_le, decide_eq_true_eq]
  constructor
  · constructor
    · rintro (h | h) <;> linarith
    · intro h; right; exact h
  · constructor
    · rintro (h | h) <;> linarith
    · intro h; right; exact h

/-- C15 is violated by the default argument: with no explicit `neg_infinity`, every value below
about `1e-7` (in particular a lower bound of `0`, or of `-5`) is reported to be minus infinity,
although no such value is anywhere near `-DBL_MAX`. -/
theorem tol_negInfinity_default_wrong :
    (∀ v : ℚ, v ≤ 0 → isNegInfinity v = true) ∧ ¬ ((0 : ℚ) < -dblMax + defEps) := by
  constructor
  · intro v hv
    have : (0 : ℚ) ≤ dblMin := by
      unfold dblMin; exact div_nonneg zero_le_one (pow_nonneg (by norm_num) _)
    simp only [isNegInfinity, Bool.or_eq_true, decide_eq_true_eq]
    left; linarith
  · have h1 : (1 : ℚ) ≤ dblMax := by
      unfold dblMax
      have : (1 : ℚ) ≤ 2 ^ 971 := one_le_pow₀ (by norm_num)
      have h3 : (1 : ℚ) ≤ 2 ^ 53 - 1 := by norm_num
      calc (1 : ℚ) = 1 * 1 := by norm_num
        _ ≤ (2 ^ 53 - 1) * 2 ^ 971 := mul_le_mul h3 this zero_le_one (by norm_num)
    have h2 : defEps < 1 := by norm_num [defEps]
    linarith

/-- C15 (the part of the default that is right): values at least `1e-7` above `DBL_MIN` are not
reported as minus infinity. -/
theorem tol_negInfinity_default_partial (v : ℚ) :
    isNegInfinity v = true ↔ v < dblMin + defEps := by
  have he : (0 : ℚ) < defEps := by norm_num [defEps]
  simp only [isNegInfinity, Bool.or_eq_true, Bool.not_eq_true', Bool.eq_false_iff,
    ne_eq, greaterThanVal_iff, not_le, decide_eq_true_eq]
  constructor
  · rintro (h | h) <;> linarith
  · intro h; right; exact h

end VPC
