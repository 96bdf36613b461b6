import Mathlib.Algebra.BigOperators.Fin
import Mathlib.Algebra.Order.BigOperators.Group.Finset
import Mathlib.Algebra.Order.Field.Rat
import Mathlib.Tactic.Linarith
import Mathlib.Tactic.FieldSimp
import Mathlib.Tactic.Ring
import Mathlib.Tactic.Positivity

/-!
# Theorem of the alternative for finitely many inequalities, by elimination of one variable at a time
-/
namespace VPC
open Finset

/-! ## Specification -/

/-- An inequality `a · x ≥ b`. -/
abbrev Ineq := (ℕ → ℚ) × ℚ

/-- `x` satisfies the inequality (variables below `n`). -/
def Ineq.Holds (n : ℕ) (r : Ineq) (x : ℕ → ℚ) : Prop := r.2 ≤ ∑ j ∈ range n, r.1 j * x j

/-- What can be obtained from the inequalities by adding them up and multiplying by nonnegative numbers. -/
inductive Ineq.Derived (S : List Ineq) : Ineq → Prop
  | zero : Derived S (fun _ => 0, 0)
  | mem {r : Ineq} : r ∈ S → Derived S r
  | add {r s : Ineq} : Derived S r → Derived S s → Derived S (fun j => r.1 j + s.1 j, r.2 + s.2)
  | mul {r : Ineq} {c : ℚ} : 0 ≤ c → Derived S r → Derived S (fun j => c * r.1 j, c * r.2)

/-! ## Proof -/

/-- Whatever is derived holds where all the inequalities hold. -/
theorem Ineq.Derived.holds {S : List Ineq} {r : Ineq} (h : Ineq.Derived S r) {n : ℕ} {x : ℕ → ℚ}
    (hx : ∀ s ∈ S, Ineq.Holds n s x) : Ineq.Holds n r x := by
  induction h with
  | zero => simp [Ineq.Holds]
  | mem hr => exact hx _ hr
  | add _ _ h1 h2 =>
    unfold Ineq.Holds at *
    simp only [add_mul, sum_add_distrib]
    linarith
  | mul hc _ h1 =>
    unfold Ineq.Holds at *
    simp only [mul_assoc, ← mul_sum]
    exact mul_le_mul_of_nonneg_left h1 hc

theorem Ineq.Derived.trans {S T : List Ineq} {r : Ineq} (h : Ineq.Derived T r) (hT : ∀ s ∈ T, Ineq.Derived S s) :
    Ineq.Derived S r := by
  induction h with
  | zero => exact .zero
  | mem hr => exact hT _ hr
  | add _ _ h1 h2 => exact .add h1 h2
  | mul hc _ h1 => exact .mul hc h1

theorem Ineq.Derived.coord {T : List Ineq} {r : Ineq} (h : Ineq.Derived T r) {j : ℕ} (hT : ∀ s ∈ T, s.1 j = 0) :
    r.1 j = 0 := by
  induction h with
  | zero => rfl
  | mem hr => exact hT _ hr
  | add _ _ h1 h2 => simp [h1, h2]
  | mul hc _ h1 => simp [h1]

/-- Between finitely many lower and upper bounds, each lower one below each upper one, there is a number. -/
theorem exists_between_lists (A B : List ℚ) (h : ∀ a ∈ A, ∀ b ∈ B, a ≤ b) : ∃ v : ℚ, (∀ a ∈ A, a ≤ v) ∧ ∀ b ∈ B, v ≤ b := by
  induction A with
  | nil =>
    induction B with
    | nil => exact ⟨0, by simp, by simp⟩
    | cons b B ih =>
      obtain ⟨v, -, hv⟩ := ih (by simp)
      refine ⟨min v b, by simp, fun c hc => ?_⟩
      rcases List.mem_cons.1 hc with rfl | hc
      · exact min_le_right _ _
      · exact (min_le_left _ _).trans (hv c hc)
  | cons a A ih =>
    obtain ⟨v, h1, h2⟩ := ih fun c hc => h c (by simp [hc])
    refine ⟨max v a, fun c hc => ?_, fun b hb => max_le (h2 b hb) (h a (by simp) b hb)⟩
    rcases List.mem_cons.1 hc with rfl | hc
    · exact le_max_right _ _
    · exact (h1 c hc).trans (le_max_left _ _)

/-- Sum of a row with positive and a row with negative coefficient of variable `n`, scaled so that it cancels. -/
def Ineq.cancel (n : ℕ) (p q : Ineq) : Ineq :=
  (fun j => p.1 j / p.1 n + q.1 j / (-q.1 n), p.2 / p.1 n + q.2 / (-q.1 n))

/-- The system without variable `n`. -/
def Ineq.eliminate (n : ℕ) (S : List Ineq) : List Ineq :=
  S.filter (fun r => decide (r.1 n = 0)) ++
    (S.filter fun r => decide (0 < r.1 n)).flatMap fun p => (S.filter fun r => decide (r.1 n < 0)).map (Ineq.cancel n p)

theorem Ineq.cancel_derived {S : List Ineq} {n : ℕ} {p q : Ineq} (hp : p ∈ S) (hq : q ∈ S) (hp0 : 0 < p.1 n)
    (hq0 : q.1 n < 0) : Ineq.Derived S (Ineq.cancel n p q) := by
  have h1 := Ineq.Derived.mul (c := 1 / p.1 n) (by positivity) (Ineq.Derived.mem hp)
  have h2 := Ineq.Derived.mul (c := 1 / (-q.1 n)) (by have : 0 < -q.1 n := by linarith
                                                      positivity) (Ineq.Derived.mem hq)
  have h := h1.add h2
  have e : Ineq.cancel n p q = (fun j => 1 / p.1 n * p.1 j + 1 / (-q.1 n) * q.1 j, 1 / p.1 n * p.2 + 1 / (-q.1 n) * q.2) := by
    unfold Ineq.cancel
    congr 1
    · funext j; ring
    · ring
  rw [e]
  exact h

theorem Ineq.eliminate_spec {S : List Ineq} {n : ℕ} {s : Ineq} (h : s ∈ Ineq.eliminate n S) :
    Ineq.Derived S s ∧ s.1 n = 0 := by
  unfold Ineq.eliminate at h
  simp only [List.mem_append, List.mem_filter, decide_eq_true_eq, List.mem_flatMap, List.mem_map] at h
  rcases h with ⟨h, h0⟩ | ⟨p, ⟨hp, hp0⟩, q, ⟨hq, hq0⟩, rfl⟩
  · exact ⟨.mem h, h0⟩
  · refine ⟨Ineq.cancel_derived hp hq hp0 hq0, ?_⟩
    show p.1 n / p.1 n + q.1 n / (-q.1 n) = 0
    rw [div_self hp0.ne', div_neg, div_self hq0.ne]
    norm_num

/-- A solution of the system without variable `n` extends to one of the system. -/
theorem Ineq.eliminate_extend {S : List Ineq} {n : ℕ} {x : ℕ → ℚ} (hx : ∀ s ∈ Ineq.eliminate n S, Ineq.Holds n s x) :
    ∃ v : ℚ, ∀ s ∈ S, Ineq.Holds (n + 1) s (fun j => if j = n then v else x j) := by
  let act : Ineq → ℚ := fun s => ∑ j ∈ range n, s.1 j * x j
  have hsum : ∀ (s : Ineq) (v : ℚ), ∑ j ∈ range (n + 1), s.1 j * (if j = n then v else x j) = act s + s.1 n * v := by
    intro s v
    rw [sum_range_succ, if_pos rfl]
    congr 1
    refine sum_congr rfl fun j hj => ?_
    rw [if_neg (by have := mem_range.1 hj; omega)]
  obtain ⟨v, h1, h2⟩ := exists_between_lists
    ((S.filter fun r => decide (0 < r.1 n)).map fun p => (p.2 - act p) / p.1 n)
    ((S.filter fun r => decide (r.1 n < 0)).map fun q => (q.2 - act q) / q.1 n) (by
      intro a ha b hb
      simp only [List.mem_map, List.mem_filter, decide_eq_true_eq] at ha hb
      obtain ⟨p, ⟨hp, hp0⟩, rfl⟩ := ha
      obtain ⟨q, ⟨hq, hq0⟩, rfl⟩ := hb
      have h := hx (Ineq.cancel n p q) (by
        unfold Ineq.eliminate
        simp only [List.mem_append, List.mem_filter, decide_eq_true_eq, List.mem_flatMap, List.mem_map]
        exact Or.inr ⟨p, ⟨hp, hp0⟩, q, ⟨hq, hq0⟩, rfl⟩)
      have e : ∑ j ∈ range n, (Ineq.cancel n p q).1 j * x j = act p / p.1 n + act q / (-q.1 n) := by
        show ∑ j ∈ range n, (p.1 j / p.1 n + q.1 j / (-q.1 n)) * x j = _
        simp only [act, div_eq_mul_inv, sum_mul, ← sum_add_distrib]
        exact sum_congr rfl fun j _ => by ring
      unfold Ineq.Holds at h
      rw [e] at h
      have h' : p.2 / p.1 n + q.2 / (-q.1 n) ≤ act p / p.1 n + act q / (-q.1 n) := h
      rw [sub_div, sub_div]
      simp only [div_neg] at h'
      linarith)
  refine ⟨v, fun s hs => ?_⟩
  unfold Ineq.Holds
  rw [hsum]
  rcases lt_trichotomy (s.1 n) 0 with hn | hn | hn
  · have := h2 _ (List.mem_map.2 ⟨s, List.mem_filter.2 ⟨hs, by simpa using hn⟩, rfl⟩)
    rw [le_div_iff_of_neg hn] at this
    linarith
  · have := hx s (by
      unfold Ineq.eliminate
      exact List.mem_append_left _ (List.mem_filter.2 ⟨hs, by simpa using hn⟩))
    unfold Ineq.Holds at this
    rw [hn]
    show s.2 ≤ act s + 0 * v
    simpa using this
  · have := h1 _ (List.mem_map.2 ⟨s, List.mem_filter.2 ⟨hs, by simpa using hn⟩, rfl⟩)
    rw [div_le_iff₀ hn] at this
    linarith

/-- If finitely many inequalities have no common solution, then `0 ≥ b` with `b > 0` is derived from them. -/
theorem no_solution_derives (n : ℕ) : ∀ S : List Ineq, (∀ x, ∃ s ∈ S, ¬ Ineq.Holds n s x) →
    ∃ r, Ineq.Derived S r ∧ (∀ j < n, r.1 j = 0) ∧ 0 < r.2 := by
  induction n with
  | zero =>
    intro S h
    obtain ⟨s, hs, hn⟩ := h fun _ => 0
    refine ⟨s, .mem hs, by simp, ?_⟩
    simpa [Ineq.Holds] using hn
  | succ n ih =>
    intro S h
    by_cases hE : ∃ x, ∀ s ∈ Ineq.eliminate n S, Ineq.Holds n s x
    · obtain ⟨x, hx⟩ := hE
      obtain ⟨v, hv⟩ := Ineq.eliminate_extend hx
      obtain ⟨s, hs, hn⟩ := h fun j => if j = n then v else x j
      exact absurd (hv s hs) hn
    · obtain ⟨r, hr, hz, hb⟩ := ih (Ineq.eliminate n S) fun x => by
        by_contra hc
        exact hE ⟨x, fun s hs => by
          by_contra hn
          exact hc ⟨s, hs, hn⟩⟩
      refine ⟨r, hr.trans fun s hs => (Ineq.eliminate_spec hs).1, fun j hj => ?_, hb⟩
      by_cases hjn : j = n
      · subst hjn; exact hr.coord fun s hs => (Ineq.eliminate_spec hs).2
      · exact hz j (by omega)

example : ∃ r, Ineq.Derived [(fun _ => 1, 1), (fun _ => -1, 1)] r ∧ (∀ j < 1, r.1 j = 0) ∧ 0 < r.2 :=
  no_solution_derives 1 _ fun x => by
    by_cases h : 1 ≤ x 0
    · exact ⟨_, List.mem_cons_of_mem _ (List.mem_singleton.2 rfl), by simp [Ineq.Holds]; linarith⟩
    · exact ⟨_, List.mem_cons_self, by simp [Ineq.Holds]; linarith⟩

end VPC
