import Verif.Model.VecOps
import Mathlib.Tactic.Ring
import Mathlib.Tactic.Linarith
import Mathlib.Algebra.BigOperators.Group.Finset.Basic
import Mathlib.Algebra.BigOperators.Intervals

/-!
# C36, C37: sparse sums and dot products
-/
namespace VPC

/-! ## Dot products (C37) -/

theorem dotStep_exact (kahan : Bool) (s : DotAcc) (h : s.comp = 0) (x y : ℚ) :
    dotStep id kahan s x y = ⟨s.acc + x * y, 0⟩ := by
  cases kahan <;> simp [dotStep, h]

theorem dotDenseLoop_exact (kahan : Bool) (a b : List ℚ) (n i : ℕ) (s : DotAcc)
    (h : s.comp = 0) (ha : i + n ≤ a.length) (hb : i + n ≤ b.length) :
    dotDenseLoop id kahan a b i n s =
      some ⟨s.acc + ∑ j ∈ Finset.range n, a.getD (i + j) 0 * b.getD (i + j) 0, 0⟩ := by
  induction n generalizing i s with
  | zero => cases s; simp_all [dotDenseLoop]
  | succ n ih =>
    have e1 : a[i]? = some (a.getD i 0) := by
      rw [List.getD_eq_getElem?_getD, List.getElem?_eq_getElem (by omega)]; rfl
    have e2 : b[i]? = some (b.getD i 0) := by
      rw [List.getD_eq_getElem?_getD, List.getElem?_eq_getElem (by omega)]; rfl
    rw [dotDenseLoop, e1, e2]
    simp only []
    rw [dotStep_exact kahan s h, ih _ _ rfl (by omega) (by omega), Finset.sum_range_succ']
    simp only [Option.some.injEq, DotAcc.mk.injEq, and_true, Nat.add_zero]
    have : ∀ j, i + 1 + j = i + (j + 1) := fun j => by omega
    simp only [this]; ring

/-- **C37 (dense × dense).** In exact arithmetic both versions return `Σ_{i<n} aᵢ bᵢ`. -/
theorem dotDense_exact (kahan : Bool) (a b : List ℚ) (n : ℕ) (ha : n ≤ a.length)
    (hb : n ≤ b.length) :
    dotDense id kahan a b n = some (∑ i ∈ Finset.range n, a.getD i 0 * b.getD i 0) := by
  simp [dotDense, dotDenseLoop_exact kahan a b n 0 ⟨0, 0⟩ rfl (by omega) (by omega)]

theorem dotDenseLoop_none (rnd : ℚ → ℚ) (kahan : Bool) (a b : List ℚ) (n i : ℕ) (s : DotAcc)
    (hi : i ≤ a.length ∧ i ≤ b.length) :
    dotDenseLoop rnd kahan a b i n s = none ↔ (a.length < i + n ∨ b.length < i + n) := by
  induction n generalizing i s with
  | zero => simp [dotDenseLoop]; omega
  | succ n ih =>
    rw [dotDenseLoop]
    by_cases h1 : i < a.length
    · by_cases h2 : i < b.length
      · rw [List.getElem?_eq_getElem h1, List.getElem?_eq_getElem h2]
        simp only []
        rw [ih _ _ ⟨by omega, by omega⟩]; omega
      · rw [List.getElem?_eq_none (l := b) (by omega)]
        split
        · simp_all
        · simp; omega
    · rw [List.getElem?_eq_none (l := a) (by omega)]
      simp; omega

/-- Whatever the rounding, the routine reads outside an array exactly when the dimension exceeds
one of the lengths. -/
theorem dotDense_undefined_iff (rnd : ℚ → ℚ) (kahan : Bool) (a b : List ℚ) (n : ℤ) :
    dotDense rnd kahan a b n = none ↔ ((a.length : ℤ) < n ∨ (b.length : ℤ) < n) := by
  simp only [dotDense, Option.map_eq_none_iff]
  rw [dotDenseLoop_none _ _ _ _ _ _ _ ⟨by omega, by omega⟩]; omega

theorem dotSparseDenseLoop_exact (kahan : Bool) (b : List ℚ) (v : SVec) (s : DotAcc)
    (h : s.comp = 0) (hv : ∀ e ∈ v, e.1 < b.length) :
    dotSparseDenseLoop id kahan b v s = some ⟨s.acc + sdot v fun i => b.getD i 0, 0⟩ := by
  induction v generalizing s with
  | nil => cases s; simp_all [dotSparseDenseLoop]
  | cons e v ih =>
    have e1 : b[e.1]? = some (b.getD e.1 0) := by
      rw [List.getD_eq_getElem?_getD, List.getElem?_eq_getElem (hv e (by simp))]; rfl
    rw [dotSparseDenseLoop, e1]
    simp only []
    rw [dotStep_exact kahan s h, ih _ rfl fun e' he' => hv e' (by simp [he'])]
    simp [add_assoc]

/-- **C37 (sparse × dense).** In exact arithmetic both versions return `Σ_e value(e) · b[index(e)]`
over the stored entries (also for repeated indices). -/
theorem dotSparseDense_exact (kahan : Bool) (v : SVec) (b : List ℚ)
    (hv : ∀ e ∈ v, e.1 < b.length) :
    dotSparseDense id kahan v b = some (v.map fun e => e.2 * b.getD e.1 0).sum := by
  simp [dotSparseDense, dotSparseDenseLoop_exact kahan b v ⟨0, 0⟩ rfl hv, sdot]

theorem dotSparseDenseLoop_none (rnd : ℚ → ℚ) (kahan : Bool) (v : SVec) (b : List ℚ) (s) :
    dotSparseDenseLoop rnd kahan b v s = none ↔ ∃ e ∈ v, b.length ≤ e.1 := by
  induction v generalizing s with
  | nil => simp [dotSparseDenseLoop]
  | cons e v ih =>
    rw [dotSparseDenseLoop]
    by_cases h : e.1 < b.length
    · rw [List.getElem?_eq_getElem h]
      simp only []
      rw [ih]; simp [h]
    · rw [List.getElem?_eq_none (by omega)]
      simp; left; omega

/-- The sparse × dense routine reads outside the dense array exactly when some stored index is
too large. -/
theorem dotSparseDense_undefined_iff (rnd : ℚ → ℚ) (kahan : Bool) (v : SVec) (b : List ℚ) :
    dotSparseDense rnd kahan v b = none ↔ ∃ e ∈ v, b.length ≤ e.1 := by
  simp [dotSparseDense, dotSparseDenseLoop_none]

theorem Sorted.tail {e : ℕ × ℚ} {v : SVec} (h : Sorted (e :: v)) : Sorted v :=
  (List.pairwise_cons.mp h).2

theorem Sorted.lt {e : ℕ × ℚ} {v : SVec} (h : Sorted (e :: v)) : ∀ e' ∈ v, e.1 < e'.1 :=
  (List.pairwise_cons.mp h).1

theorem dotSparseLoop_exact (kahan : Bool) (v w : SVec) (s : DotAcc) (h : s.comp = 0)
    (hv : Sorted v) (hw : Sorted w) :
    dotSparseLoop id kahan v w s = ⟨s.acc + sdot v (scoef w), 0⟩ := by
  fun_induction dotSparseLoop id kahan v w s with
  | case1 w s => cases s; simp_all
  | case2 x v s =>
    have : ∀ v : SVec, sdot v (scoef []) = 0 := by
      intro v; induction v with
      | nil => rfl
      | cons e v ih => simp [ih]
    rw [this]; cases s; simp_all
  | case3 x v y w s hxy ih =>
    rw [ih (by rw [dotStep_exact kahan s h]) hv.tail hw.tail, dotStep_exact kahan s h]
    have h1 : scoef w x.1 = 0 :=
      scoef_eq_zero_of_forall_ne fun e he => by have := hw.lt e he; omega
    have h2 : sdot v (scoef (y :: w)) = sdot v (scoef w) := by
      unfold sdot; congr 1
      refine List.map_congr_left fun e he => ?_
      have := hv.lt e he
      rw [scoef_cons, if_neg (by omega), zero_add]
    rw [sdot_cons, h2, scoef_cons, if_pos hxy.symm, h1]
    simp [add_assoc]
  | case4 x v y w s hxy hlt ih =>
    rw [ih h hv.tail hw, sdot_cons]
    have h1 : scoef (y :: w) x.1 = 0 :=
      scoef_eq_zero_of_forall_ne fun e he => by
        rcases List.mem_cons.mp he with rfl | he
        · omega
        · have := hw.lt e he; omega
    rw [h1]; simp
  | case5 x v y w s hxy hlt ih =>
    rw [ih h hv hw.tail]
    have h2 : sdot (x :: v) (scoef (y :: w)) = sdot (x :: v) (scoef w) := by
      unfold sdot; congr 1
      refine List.map_congr_left fun e he => ?_
      have : y.1 < e.1 := by
        rcases List.mem_cons.mp he with rfl | he
        · omega
        · have := hv.lt e he; omega
      rw [scoef_cons, if_neg (by omega), zero_add]
    rw [h2]

theorem sdot_scoef_eq_sum (v w : SVec) (n : ℕ) (hv : ∀ e ∈ v, e.1 < n) :
    sdot v (scoef w) = ∑ i ∈ Finset.range n, scoef v i * scoef w i := by
  induction v with
  | nil => simp
  | cons e v ih =>
    rw [sdot_cons, ih fun e' he' => hv e' (by simp [he'])]
    simp only [scoef_cons, add_mul, Finset.sum_add_distrib, ite_mul, zero_mul]
    rw [Finset.sum_ite_eq, if_pos (Finset.mem_range.mpr (hv e (by simp)))]

/-- **C37 (sparse × sparse).** For vectors whose indices increase, both versions return
`Σ_{i<n} vᵢ wᵢ` in exact arithmetic, for every dimension `n` containing the indices. -/
theorem dotSparse_exact (kahan : Bool) (v w : SVec) (hv : Sorted v) (hw : Sorted w) (n : ℕ)
    (hn : ∀ e ∈ v, e.1 < n) :
    dotSparse id kahan v w = ∑ i ∈ Finset.range n, scoef v i * scoef w i := by
  rw [dotSparse, dotSparseLoop_exact kahan v w ⟨0, 0⟩ rfl hv hw, sdot_scoef_eq_sum v w n hn]
  simp

/-- Sorting is needed: on `v = (1 ↦ 1, 0 ↦ 1)` the sparse × sparse routine misses a term. -/
theorem dotSparse_unsorted :
    ∃ v w : SVec, Sorted w ∧ (v.map (·.1)).Nodup ∧
      dotSparse id true v w ≠ ∑ i ∈ Finset.range 2, scoef v i * scoef w i := by
  refine ⟨[(1, 1), (0, 1)], [(0, 1), (1, 1)], by decide, by decide, ?_⟩
  have h1 : scoef [(1, 1), (0, 1)] 0 = 1 := by norm_num [scoef]
  have h2 : scoef [(1, 1), (0, 1)] 1 = 1 := by norm_num [scoef]
  have h3 : scoef [(0, 1), (1, 1)] 0 = 1 := by norm_num [scoef]
  have h4 : scoef [(0, 1), (1, 1)] 1 = 1 := by norm_num [scoef]
  simp only [Finset.sum_range_succ, Finset.sum_range_zero, h1, h2, h3, h4]
  norm_num [dotSparse, dotSparseLoop, dotStep]

/-- The three forms agree with each other: a sorted sparse vector against its dense copy. -/
theorem dot_forms_agree (k1 k2 : Bool) (v w : SVec) (hv : Sorted v) (hw : Sorted w) (n : ℕ)
    (hn : ∀ e ∈ v, e.1 < n) :
    dotSparseDense id k1 v ((List.range n).map (scoef w)) = some (dotSparse id k2 v w) := by
  rw [dotSparseDense_exact k1 v _ (by simpa using hn), dotSparse,
    dotSparseLoop_exact k2 v w ⟨0, 0⟩ rfl hv hw]
  simp only [zero_add, Option.some.injEq]
  unfold sdot
  congr 1
  refine List.map_congr_left fun e he => ?_
  have := hn e he
  simp [List.getD_eq_getElem?_getD, this]

theorem rowSquares_eq (row : List ℚ) : rowSquares row = (row.map fun e => e * e).sum := by
  have : ∀ (l : List ℚ) (p : ℚ), l.foldl (fun p e => p + e * e) p
      = p + (l.map fun e => e * e).sum := by
    intro l
    induction l with
    | nil => simp
    | cons a l ih => intro p; simp [ih, add_assoc]
  simpa [rowSquares] using this row 0

example : Sorted [(0, 2), (3, (1/2 : ℚ))] ∧ Sorted [(0, (3 : ℚ)), (2, 1), (3, 4)] ∧
    dotSparse id true [(0, 2), (3, 1/2)] [(0, 3), (2, 1), (3, 4)] = 8 := by
  refine ⟨by decide, by decide, ?_⟩
  norm_num [dotSparse, dotSparseLoop, dotStep]

/-! ## Rounding error of the uncompensated dot product (beyond C37) -/

/-- Standard model of floating point without underflow: relative error at most `u`. -/
def RelRnd (u : ℚ) (rnd : ℚ → ℚ) : Prop := 0 ≤ u ∧ ∀ x, |rnd x - x| ≤ u * |x|

/-- One uncompensated step is `rnd (acc + rnd (rnd (x*y)))`; both inner roundings act on the
same term since subtracting the zero compensation is one more rounding. -/
theorem dotStep_nocomp (rnd : ℚ → ℚ) (s : DotAcc) (h : s.comp = 0) (x y : ℚ) :
    dotStep rnd false s x y = ⟨rnd (s.acc + rnd (rnd (x * y))), 0⟩ := by
  simp [dotStep, h]

theorem RelRnd.err {u : ℚ} {rnd : ℚ → ℚ} (h : RelRnd u rnd) (x y e : ℚ) (he : |x - y| ≤ e) :
    |rnd x - y| ≤ u * |y| + (1 + u) * e := by
  have h1 := h.2 x
  have h2 : |x| ≤ |y| + e := by
    have := abs_add_le (x - y) y
    rw [sub_add_cancel] at this
    linarith
  have h3 : |rnd x - y| ≤ |rnd x - x| + |x - y| := by
    have := abs_add_le (rnd x - x) (x - y)
    rwa [sub_add_sub_cancel] at this
  have h4 := mul_le_mul_of_nonneg_left h2 h.1
  nlinarith [h.1]

/-- **Forward error bound.** Under relative rounding error `u` per operation, the uncompensated
sparse × dense dot product differs from the exact one by at most `((1+u)^(n+2) - 1) Σ |aᵢ bᵢ|`
for `n` stored entries. -/
theorem dotSparseDense_error (u : ℚ) (rnd : ℚ → ℚ) (hr : RelRnd u rnd) (v : SVec) (b : List ℚ)
    (hv : ∀ e ∈ v, e.1 < b.length) :
    ∃ r, dotSparseDense rnd false v b = some r ∧
      |r - (v.map fun e => e.2 * b.getD e.1 0).sum| ≤
        ((1 + u) ^ (v.length + 2) - 1) * (v.map fun e => |e.2 * b.getD e.1 0|).sum := by
  have hu := hr.1
  have key : ∀ (v : SVec) (s : DotAcc), (∀ e ∈ v, e.1 < b.length) → s.comp = 0 →
      ∀ (S A E : ℚ) (k : ℕ), |s.acc - S| ≤ ((1 + u) ^ (k + 2) - 1) * A → |S| ≤ A →
      ∃ s', dotSparseDenseLoop rnd false b v s = some s' ∧
        |s'.acc - (S + (v.map fun e => e.2 * b.getD e.1 0).sum)| ≤
          ((1 + u) ^ (k + v.length + 2) - 1) *
            (A + (v.map fun e => |e.2 * b.getD e.1 0|).sum) := by
    intro v
    induction v with
    | nil =>
      intro s _ _ S A E k hA _
      exact ⟨s, rfl, by simpa using hA⟩
    | cons e v ih =>
      intro s hv hs S A E k hA hSA
      have e1 : b[e.1]? = some (b.getD e.1 0) := by
        rw [List.getD_eq_getElem?_getD, List.getElem?_eq_getElem (hv e (by simp))]; rfl
      rw [dotSparseDenseLoop, e1]
      simp only []
      rw [dotStep_nocomp rnd s hs]
      generalize hp : e.2 * b.getD e.1 0 = p
      have h1 : |rnd (rnd p) - p| ≤ ((1 + u) ^ 2 - 1) * |p| := by
        have := hr.err (rnd p) p (u * |p|) (hr.2 p)
        nlinarith [this]
      have hpow : (1 + u) ^ 2 ≤ (1 + u) ^ (k + 2) :=
        pow_le_pow_right₀ (by linarith) (by omega)
      have h2 : |(s.acc + rnd (rnd p)) - (S + p)| ≤ ((1 + u) ^ (k + 2) - 1) * (A + |p|) := by
        have : (s.acc + rnd (rnd p)) - (S + p) = (s.acc - S) + (rnd (rnd p) - p) := by ring
        rw [this]
        refine (abs_add_le _ _).trans ?_
        have := mul_le_mul_of_nonneg_right (sub_le_sub_right hpow 1) (abs_nonneg p)
        linarith
      have hSA' : |S + p| ≤ A + |p| := (abs_add_le _ _).trans (by linarith)
      have h3 : |rnd (s.acc + rnd (rnd p)) - (S + p)| ≤ ((1 + u) ^ (k + 1 + 2) - 1) * (A + |p|) := by
        refine (hr.err _ _ _ h2).trans ?_
        have h5 := mul_le_mul_of_nonneg_left hSA' hu
        have : (1 + u) ^ (k + 1 + 2) = (1 + u) * (1 + u) ^ (k + 2) := by ring
        rw [this]
        nlinarith [h5]
      obtain ⟨s', hs', hb'⟩ := ih ⟨rnd (s.acc + rnd (rnd p)), 0⟩
        (fun e' he' => hv e' (by simp [he'])) rfl (S + p) (A + |p|) 0 (k + 1) h3 hSA'
      refine ⟨s', hs', ?_⟩
      simp only [List.map_cons, List.sum_cons, List.length_cons, hp]
      have e2 : k + (v.length + 1) + 2 = k + 1 + v.length + 2 := by omega
      rw [e2, ← add_assoc, ← add_assoc]
      exact hb'
  obtain ⟨s', h1, h2⟩ := key v ⟨0, 0⟩ hv rfl 0 0 0 0 (by simp) (by simp)
  refine ⟨s'.acc, by simp [dotSparseDense, h1], ?_⟩
  simpa using h2

example : RelRnd (1/2) (fun x => x * (3/4)) := by
  refine ⟨by norm_num, fun x => ?_⟩
  have : x * (3/4) - x = -(1/4) * x := by ring
  rw [this, abs_mul]
  have := abs_nonneg x
  norm_num
  linarith

/-! ## Sparse sums (C36) -/

/-- The tolerance actually applied to the exact value at index `i`: entries present in the first
vector are dropped when the *sum* is tiny, entries only in the second one when the
*unmultiplied* value is tiny. -/
def sumKept (mult1 mult2 eps : ℚ) (v w : SVec) (i : ℕ) : Prop :=
  if i ∈ v.map (·.1) then eps ≤ |mult1 * scoef v i + mult2 * scoef w i|
  else eps ≤ |scoef w i|

theorem sumSkip_split (m2 eps : ℚ) (ind : ℕ) (w : SVec) :
    ∃ p, w = p ++ (sumSkip m2 eps ind w).2 ∧ (∀ e ∈ p, e.1 < ind) ∧
      (sumSkip m2 eps ind w).1 = sumTail m2 eps p ∧
      (∀ y r, (sumSkip m2 eps ind w).2 = y :: r → ind ≤ y.1) := by
  induction w with
  | nil => exact ⟨[], rfl, by simp, rfl, by simp [sumSkip]⟩
  | cons y w ih =>
    by_cases h : y.1 < ind
    · obtain ⟨p, h1, h2, h3, h4⟩ := ih
      refine ⟨y :: p, ?_, ?_, ?_, ?_⟩
      · simp only [sumSkip, if_pos h, List.cons_append, ← h1]
      · intro e he; rcases List.mem_cons.mp he with rfl | he
        · exact h
        · exact h2 e he
      · simp only [sumSkip, if_pos h, h3, sumTail, List.filter_cons]
        cases isZero y.2 eps <;> simp
      · simpa only [sumSkip, if_pos h] using h4
    · refine ⟨[], ?_, by simp, ?_, ?_⟩
      · simp [sumSkip, h]
      · simp [sumSkip, h, sumTail]
      · intro y' r hr
        simp only [sumSkip, if_neg h, List.cons.injEq] at hr
        rw [← hr.1]; omega

theorem scoef_of_mem_sorted {v : SVec} (hv : Sorted v) {e : ℕ × ℚ} (he : e ∈ v) : scoef v e.1 = e.2 := by
  induction v with
  | nil => simp at he
  | cons a v ih =>
    rcases List.mem_cons.mp he with rfl | he
    · rw [scoef_cons, if_pos rfl,
        scoef_eq_zero_of_forall_ne fun e' he' => by have := hv.lt e' he'; omega, add_zero]
    · have := hv.lt e he
      rw [scoef_cons, if_neg (by omega), ih hv.tail he, zero_add]

theorem sumTail_mem {m2 eps : ℚ} {w : SVec} {e : ℕ × ℚ} :
    e ∈ sumTail m2 eps w ↔ ∃ y ∈ w, eps ≤ |y.2| ∧ e = (y.1, m2 * y.2) := by
  simp only [sumTail, List.mem_map, List.mem_filter, Bool.not_eq_true', isZero_false_iff]
  constructor
  · rintro ⟨y, ⟨h1, h2⟩, rfl⟩; exact ⟨y, h1, h2, rfl⟩
  · rintro ⟨y, h1, h2, rfl⟩; exact ⟨y, ⟨h1, h2⟩, rfl⟩

theorem sumTail_sorted {m2 eps : ℚ} {w : SVec} (h : Sorted w) : Sorted (sumTail m2 eps w) := by
  unfold sumTail Sorted
  rw [List.pairwise_map]
  exact (List.Pairwise.filter _ h)

theorem sorted_append {p q : SVec} :
    Sorted (p ++ q) ↔ Sorted p ∧ Sorted q ∧ ∀ a ∈ p, ∀ b ∈ q, a.1 < b.1 := by
  simp [Sorted, List.pairwise_append]

/-- The entries produced by the merge, as a set. -/
theorem sumLoop_mem (m1 m2 eps : ℚ) (v w : SVec) (hv : Sorted v) (hw : Sorted w) (i : ℕ) (c : ℚ) :
    (i, c) ∈ sumLoop m1 m2 eps v w ↔
      (i ∈ v.map (·.1) ∨ i ∈ w.map (·.1)) ∧ sumKept m1 m2 eps v w i ∧
        c = m1 * scoef v i + m2 * scoef w i := by
  induction v generalizing w with
  | nil =>
    simp only [sumLoop, sumTail_mem, sumKept, scoef_nil, mul_zero, zero_add, List.map_nil,
      List.not_mem_nil, false_or, if_false]
    constructor
    · rintro ⟨y, hy, h1, h2⟩
      simp only [Prod.mk.injEq] at h2
      obtain ⟨rfl, rfl⟩ := h2
      rw [scoef_of_mem_sorted hw hy]
      exact ⟨List.mem_map_of_mem hy, h1, rfl⟩
    · rintro ⟨hi, h1, rfl⟩
      obtain ⟨y, hy, rfl⟩ := List.mem_map.mp hi
      rw [scoef_of_mem_sorted hw hy] at h1 ⊢
      exact ⟨y, hy, h1, rfl⟩
  | cons x v ih =>
    obtain ⟨p, hp1, hp2, hp3, hp4⟩ := sumSkip_split m2 eps x.1 w
    set q := (sumSkip m2 eps x.1 w).2 with hq
    -- the entry of `w` at index `x.1`, and what is left
    have hwpq := hw
    rw [hp1, sorted_append] at hwpq
    obtain ⟨hsp, hsq, hpq⟩ := hwpq
    have hvx := hv.lt
    have hvt := hv.tail
    -- value and rest
    obtain ⟨nv, r, hnv, hnv1, hnv2, hnv3⟩ : ∃ nv r,
        sumNew m1 m2 x q = (nv, r) ∧ nv = m1 * x.2 + m2 * scoef q x.1 ∧
          Sorted r ∧ (∀ e, e ∈ r ↔ e ∈ q ∧ x.1 < e.1) := by
      cases hqc : q with
      | nil => exact ⟨_, _, rfl, by simp, by simp [Sorted], by simp⟩
      | cons y w' =>
        rw [hqc] at hsq
        have hy := hp4 y w' hqc
        by_cases hyx : y.1 = x.1
        · refine ⟨m1 * x.2 + m2 * y.2, w', by simp [sumNew, hyx], ?_, hsq.tail, ?_⟩
          · rw [← hyx, scoef_of_mem_sorted hsq (by simp)]
          · intro e
            constructor
            · intro he; have := hsq.lt e he; exact ⟨by simp [he], by omega⟩
            · rintro ⟨he, hlt⟩
              rcases List.mem_cons.mp he with rfl | he
              · omega
              · exact he
        · refine ⟨m1 * x.2, y :: w', by simp [sumNew, hyx], ?_, hsq, ?_⟩
          · rw [scoef_eq_zero_of_forall_ne, mul_zero, add_zero]
            intro e he; rcases List.mem_cons.mp he with rfl | he
            · exact hyx
            · have := hsq.lt e he; omega
          · intro e
            refine ⟨fun he => ⟨he, ?_⟩, fun h => h.1⟩
            rcases List.mem_cons.mp he with rfl | he
            · omega
            · have := hsq.lt e he; omega
    have hloop : sumLoop m1 m2 eps (x :: v) w =
        sumTail m2 eps p ++ (if isZero nv eps then [] else [(x.1, nv)]) ++
          sumLoop m1 m2 eps v r := by
      simp only [sumLoop, ← hq, hp3, hnv]
    have hcx : scoef w x.1 = scoef q x.1 := by
      rw [hp1, scoef_append, scoef_eq_zero_of_forall_ne fun e he => by
        have := hp2 e he; omega, zero_add]
    have hvx1 : scoef (x :: v) x.1 = x.2 := scoef_of_mem_sorted hv (by simp)
    rw [hloop, List.append_assoc, List.mem_append, List.mem_append, ih r hvt hnv2, sumTail_mem]
    -- trichotomy on i
    rcases Nat.lt_trichotomy i x.1 with hi | hi | hi
    · -- only in p
      have a1 : i ∉ v.map (·.1) := by
        intro h; obtain ⟨e, he, rfl⟩ := List.mem_map.mp h; have := hvx e he; omega
      have a2 : i ∉ r.map (·.1) := by
        intro h; obtain ⟨e, he, rfl⟩ := List.mem_map.mp h; have := ((hnv3 e).mp he).2; omega
      have a3 : i ∉ (x :: v).map (·.1) := by
        simp only [List.map_cons, List.mem_cons, not_or]; exact ⟨by omega, a1⟩
      have a4 : scoef (x :: v) i = 0 := scoef_eq_zero_of_forall_ne fun e he hh =>
        a3 (hh ▸ List.mem_map_of_mem he)
      have a5 : (i, c) ∉ (if isZero nv eps then [] else [(x.1, nv)]) := by
        split <;> simp; intro h; omega
      simp only [a1, a2, a3, a4, a5, false_or, or_false, false_and, sumKept, if_false, mul_zero,
        zero_add]
      constructor
      · rintro ⟨y, hy, h1, h2⟩
        simp only [Prod.mk.injEq] at h2
        obtain ⟨rfl, rfl⟩ := h2
        have hyw : y ∈ w := by rw [hp1]; simp [hy]
        rw [scoef_of_mem_sorted hw hyw]
        exact ⟨List.mem_map_of_mem hyw, h1, rfl⟩
      · rintro ⟨h, h1, rfl⟩
        obtain ⟨y, hy, rfl⟩ := List.mem_map.mp h
        rw [scoef_of_mem_sorted hw hy] at h1 ⊢
        refine ⟨y, ?_, h1, rfl⟩
        rw [hp1, List.mem_append] at hy
        rcases hy with hy | hy
        · exact hy
        · exfalso
          cases hqc : q with
          | nil => rw [hqc] at hy; simp at hy
          | cons z w' =>
            have hz := hp4 z w' hqc
            rw [hqc] at hy hsq
            rcases List.mem_cons.mp hy with rfl | hy
            · omega
            · have := hsq.lt y hy; omega
    · subst hi
      have a1 : x.1 ∉ v.map (·.1) := by
        intro h; obtain ⟨e, he, h'⟩ := List.mem_map.mp h; have := hvx e he; omega
      have a2 : x.1 ∉ r.map (·.1) := by
        intro h; obtain ⟨e, he, h'⟩ := List.mem_map.mp h; have := ((hnv3 e).mp he).2; omega
      have a6 : ¬ ∃ y ∈ p, eps ≤ |y.2| ∧ (x.1, c) = (y.1, m2 * y.2) := by
        rintro ⟨y, hy, _, h2⟩
        simp only [Prod.mk.injEq] at h2
        have := hp2 y hy; omega
      have a3 : x.1 ∈ (x :: v).map (·.1) := by simp
      simp only [a1, a2, a3, a6, false_or, or_false, false_and, true_or, true_and, sumKept,
        if_true, hvx1, hcx, ← hnv1]
      by_cases hz : isZero nv eps = true
      · have : ¬ eps ≤ |nv| := by rw [isZero_iff] at hz; linarith
        simp [hz, this]
      · have h0 : eps ≤ |nv| := isZero_false_iff.mp (Bool.eq_false_iff.mpr hz)
        simp [hz, h0]
    · have a6 : ¬ ∃ y ∈ p, eps ≤ |y.2| ∧ (i, c) = (y.1, m2 * y.2) := by
        rintro ⟨y, hy, _, h2⟩
        simp only [Prod.mk.injEq] at h2
        have := hp2 y hy; omega
      have a5 : (i, c) ∉ (if isZero nv eps then [] else [(x.1, nv)]) := by
        split <;> simp; intro h; omega
      have a7 : i ∈ (x :: v).map (·.1) ↔ i ∈ v.map (·.1) := by
        simp only [List.map_cons, List.mem_cons]
        constructor
        · rintro (h | h)
          · omega
          · exact h
        · exact Or.inr
      have a8 : i ∈ w.map (·.1) ↔ i ∈ r.map (·.1) := by
        constructor
        · intro h
          obtain ⟨e, he, rfl⟩ := List.mem_map.mp h
          rw [hp1, List.mem_append] at he
          rcases he with he | he
          · have := hp2 e he; omega
          · exact List.mem_map_of_mem ((hnv3 e).mpr ⟨he, hi⟩)
        · intro h
          obtain ⟨e, he, rfl⟩ := List.mem_map.mp h
          rw [hp1]
          exact List.mem_map_of_mem (List.mem_append_right _ ((hnv3 e).mp he).1)
      have a9 : scoef (x :: v) i = scoef v i := by
        rw [scoef_cons, if_neg (by omega), zero_add]
      have a10 : scoef w i = scoef r i := by
        by_cases h : i ∈ r.map (·.1)
        · obtain ⟨e, he, rfl⟩ := List.mem_map.mp h
          rw [scoef_of_mem_sorted hnv2 he, scoef_of_mem_sorted hw]
          rw [hp1]; exact List.mem_append_right _ ((hnv3 e).mp he).1
        · rw [scoef_eq_zero_of_forall_ne (v := r) (i := i) fun e he hh =>
              h (List.mem_map.mpr ⟨e, he, hh⟩),
            scoef_eq_zero_of_forall_ne (v := w) (i := i) fun e he hh =>
              h (a8.mp (List.mem_map.mpr ⟨e, he, hh⟩))]
      simp only [a6, a5, false_or, sumKept, a7, a8, a9, a10]

theorem sumLoop_sorted (m1 m2 eps : ℚ) (v w : SVec) (hv : Sorted v) (hw : Sorted w) :
    Sorted (sumLoop m1 m2 eps v w) := by
  induction v generalizing w with
  | nil => exact sumTail_sorted hw
  | cons x v ih =>
    obtain ⟨p, hp1, hp2, hp3, hp4⟩ := sumSkip_split m2 eps x.1 w
    have hwpq := hw
    rw [hp1, sorted_append] at hwpq
    obtain ⟨hsp, hsq, hpq⟩ := hwpq
    generalize hq : (sumSkip m2 eps x.1 w).2 = q at *
    obtain ⟨nv, r, hnv, hr, hr2⟩ : ∃ nv r,
        sumNew m1 m2 x q = (nv, r) ∧ Sorted r ∧ (∀ e ∈ r, x.1 < e.1) := by
      cases hqc : q with
      | nil => exact ⟨_, _, rfl, by simp [Sorted], by simp⟩
      | cons y w' =>
        rw [hqc] at hsq
        have hy := hp4 y w' hqc
        by_cases hyx : y.1 = x.1
        · refine ⟨m1 * x.2 + m2 * y.2, w', by simp [sumNew, hyx], hsq.tail, fun e he => ?_⟩
          have := hsq.lt e he; omega
        · refine ⟨m1 * x.2, y :: w', by simp [sumNew, hyx], hsq, fun e he => ?_⟩
          rcases List.mem_cons.mp he with rfl | he
          · omega
          · have := hsq.lt e he; omega
    simp only [sumLoop, hq, hp3, hnv, List.append_assoc]
    have hrest : ∀ e ∈ sumLoop m1 m2 eps v r, x.1 < e.1 := by
      intro e he
      have := (sumLoop_mem m1 m2 eps v r hv.tail hr e.1 e.2).mp (by simpa using he)
      rcases this.1 with h | h
      · obtain ⟨e', he', h'⟩ := List.mem_map.mp h; have := hv.lt e' he'; omega
      · obtain ⟨e', he', h'⟩ := List.mem_map.mp h; have := hr2 e' he'; omega
    rw [sorted_append, sorted_append]
    refine ⟨sumTail_sorted hsp, ⟨?_, ih r hv.tail hr, ?_⟩, ?_⟩
    · split <;> simp [Sorted]
    · intro a ha b hb
      split at ha
      · simp at ha
      · simp only [List.mem_singleton] at ha; subst ha; exact hrest b hb
    · intro a ha b hb
      obtain ⟨y, hy, _, rfl⟩ := sumTail_mem.mp ha
      have h1 := hp2 y hy
      rcases List.mem_append.mp hb with hb | hb
      · split at hb
        · simp at hb
        · simp only [List.mem_singleton] at hb; subst hb; exact h1
      · exact h1.trans (hrest b hb)

/-- The sum is index-sorted, whatever the multipliers, when the inputs (and, for two zero
multipliers, the previous content of the output) are. -/
theorem packedSum_sorted (old v w : SVec) (m1 m2 eps : ℚ) (ho : Sorted old) (hv : Sorted v)
    (hw : Sorted w) : Sorted (packedSortedVectorSum old m1 v m2 w eps) := by
  have key : ∀ (u : SVec) (m : ℚ), Sorted u → Sorted (u.map fun e => (e.1, m * e.2)) := by
    intro u m hu; unfold Sorted; rw [List.pairwise_map]; exact hu
  unfold packedSortedVectorSum
  split
  · split
    · exact ho
    · dsimp only; split
      · exact key w _ hw
      · exact key v _ hv
  · exact sumLoop_sorted m1 m2 eps v w hv hw

/-- **C36 (partial).** With both multipliers at least `eps` in size, the result lists, in
increasing index order, exactly the entries of `m1·v + m2·w` at indices stored in `v` or `w`
whose test passes (`sumKept`), with their exact values. Missing from the full claim: an entry
stored only in `w` is tested before multiplying (see `packedSum_drops_large`). -/
theorem packedSum_exact_partial (old v w : SVec) (m1 m2 eps : ℚ) (h1 : eps ≤ |m1|)
    (h2 : eps ≤ |m2|) (hv : Sorted v) (hw : Sorted w) :
    Sorted (packedSortedVectorSum old m1 v m2 w eps) ∧
    ∀ i c, (i, c) ∈ packedSortedVectorSum old m1 v m2 w eps ↔
      (i ∈ v.map (·.1) ∨ i ∈ w.map (·.1)) ∧ c = m1 * scoef v i + m2 * scoef w i ∧
        (if i ∈ v.map (·.1) then eps ≤ |c| else eps ≤ |scoef w i|) := by
  have e1 : isZero m1 eps = false := isZero_false_iff.mpr h1
  have e2 : isZero m2 eps = false := isZero_false_iff.mpr h2
  have e : packedSortedVectorSum old m1 v m2 w eps = sumLoop m1 m2 eps v w := by
    simp [packedSortedVectorSum, e1, e2]
  rw [e]
  refine ⟨sumLoop_sorted m1 m2 eps v w hv hw, fun i c => ?_⟩
  rw [sumLoop_mem m1 m2 eps v w hv hw]
  unfold sumKept
  constructor
  · rintro ⟨a, b, rfl⟩; exact ⟨a, rfl, b⟩
  · rintro ⟨a, rfl, b⟩; exact ⟨a, b, rfl⟩

/-- **C36, error form.** Coefficientwise the result differs from `m1·v + m2·w` by less than
`eps · max 1 |m2|`. -/
theorem packedSum_error (old v w : SVec) (m1 m2 eps : ℚ) (hpos : 0 < eps) (h1 : eps ≤ |m1|)
    (h2 : eps ≤ |m2|) (hv : Sorted v) (hw : Sorted w) (i : ℕ) :
    |scoef (packedSortedVectorSum old m1 v m2 w eps) i - (m1 * scoef v i + m2 * scoef w i)|
      < eps * max 1 |m2| := by
  obtain ⟨hs, hm⟩ := packedSum_exact_partial old v w m1 m2 eps h1 h2 hv hw
  have hpos' : 0 < eps * max 1 |m2| := mul_pos hpos (lt_of_lt_of_le one_pos (le_max_left _ _))
  have hle1 : eps ≤ eps * max 1 |m2| := le_mul_of_one_le_right hpos.le (le_max_left _ _)
  by_cases hk : (i, m1 * scoef v i + m2 * scoef w i) ∈ packedSortedVectorSum old m1 v m2 w eps
  · rw [scoef_of_mem_sorted hs hk]; simpa using hpos'
  · have h0 : scoef (packedSortedVectorSum old m1 v m2 w eps) i = 0 := by
      refine scoef_eq_zero_of_forall_ne fun e he hh => hk ?_
      have := (hm e.1 e.2).mp (by simpa using he)
      rw [← hh, ← this.2.1]; simpa using he
    rw [h0, zero_sub, abs_neg]
    by_cases hiv : i ∈ v.map (·.1)
    · have : ¬ eps ≤ |m1 * scoef v i + m2 * scoef w i| := fun hh =>
        hk ((hm _ _).mpr ⟨Or.inl hiv, rfl, by rw [if_pos hiv]; exact hh⟩)
      linarith
    · have hv0 : scoef v i = 0 := scoef_eq_zero_of_forall_ne fun e he hh =>
        hiv (hh ▸ List.mem_map_of_mem he)
      by_cases hiw : i ∈ w.map (·.1)
      · have : ¬ eps ≤ |scoef w i| := fun hh =>
          hk ((hm _ _).mpr ⟨Or.inr hiw, rfl, by rw [if_neg hiv]; exact hh⟩)
        push Not at this
        rw [hv0, mul_zero, zero_add, abs_mul, mul_comm]
        have hm2 : 0 < |m2| := lt_of_lt_of_le hpos h2
        calc |scoef w i| * |m2| < eps * |m2| := mul_lt_mul_of_pos_right this hm2
          _ ≤ eps * max 1 |m2| := mul_le_mul_of_nonneg_left (le_max_right _ _) hpos.le
      · have hw0 : scoef w i = 0 := scoef_eq_zero_of_forall_ne fun e he hh =>
          hiw (hh ▸ List.mem_map_of_mem he)
        rw [hv0, hw0]; simpa using hpos'

/-- One multiplier treated as zero: the result is the other vector scaled, entry by entry. -/
theorem packedSum_one_zero (old v w : SVec) (m1 m2 eps : ℚ) :
    (|m1| < eps → eps ≤ |m2| →
      packedSortedVectorSum old m1 v m2 w eps = w.map fun e => (e.1, m2 * e.2)) ∧
    (eps ≤ |m1| → |m2| < eps →
      packedSortedVectorSum old m1 v m2 w eps = v.map fun e => (e.1, m1 * e.2)) := by
  constructor
  · intro h1 h2
    have e1 : isZero m1 eps = true := isZero_iff.mpr h1
    have e2 : isZero m2 eps = false := isZero_false_iff.mpr h2
    simp [packedSortedVectorSum, e1, e2]
  · intro h1 h2
    have e1 : isZero m1 eps = false := isZero_false_iff.mpr h1
    have e2 : isZero m2 eps = true := isZero_iff.mpr h2
    simp [packedSortedVectorSum, e1, e2]

/-- **C36 fails**: `1·() + 10⁹·(0 ↦ 10⁻⁸)` is `10`, but the entry is dropped, because the test
looks at the value before multiplying. -/
theorem packedSum_drops_large :
    packedSortedVectorSum [] 1 [] (10 ^ 9) [(0, 1 / 10 ^ 8)] defEps = [] ∧
      (10 ^ 9 : ℚ) * (1 / 10 ^ 8) = 10 := by
  refine ⟨?_, by norm_num⟩
  have h1 : isZero 1 defEps = false := by rw [isZero_false_iff]; norm_num [defEps]
  have h2 : isZero (10 ^ 9) defEps = false := by rw [isZero_false_iff]; norm_num [defEps]
  have h3 : isZero (1 / 10 ^ 8) defEps = true := by rw [isZero_iff]; norm_num [defEps, abs_of_pos]
  simp only [packedSortedVectorSum, h1, h2, sumLoop, sumTail, List.filter_cons, h3]
  simp

/-- **C36 fails**: when both multipliers are (numerically) zero the output argument keeps its
previous content instead of becoming the zero vector. -/
theorem packedSum_stale (old v w : SVec) (m1 m2 eps : ℚ) (h1 : |m1| < eps) (h2 : |m2| < eps) :
    packedSortedVectorSum old m1 v m2 w eps = old := by
  have e1 : isZero m1 eps = true := isZero_iff.mpr h1
  have e2 : isZero m2 eps = true := isZero_iff.mpr h2
  simp [packedSortedVectorSum, e1, e2]

example : ∃ v w : SVec, Sorted v ∧ Sorted w ∧ defEps ≤ |(2 : ℚ)| ∧ defEps ≤ |(-1 : ℚ)| ∧
    v.length = 3 ∧ w.length = 2 :=
  ⟨[(0, 1), (2, 3), (5, -1)], [(2, 6), (3, 1)], by decide, by decide, by norm_num [defEps],
    by norm_num [defEps], rfl, rfl⟩

end VPC
