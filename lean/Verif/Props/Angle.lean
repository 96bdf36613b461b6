import Verif.Model.Angle
import Verif.Props.VecOps
import Verif.Props.Pool
import Mathlib.Data.Real.Sqrt
import Mathlib.Algebra.Order.BigOperators.Ring.Finset
import Mathlib.Tactic.Linarith
import Mathlib.Tactic.FieldSimp
import Mathlib.Tactic.Positivity
import Mathlib.Tactic.IntervalCases
import Mathlib.Data.Rat.Cast.Order
import Mathlib.Algebra.BigOperators.Ring.Finset
import Mathlib.Data.Rat.BigOperators

/-!
# C127: parallelism and orthogonality

The parallelism of two vectors is the cosine of the angle between them, the orthogonality one minus
it; a cut is turned down for orthogonality exactly if its angle with a collected cut is too small.
-/
namespace VPC

open Finset

/-! ## Specification -/

/-- The cosine of the angle between two vectors of dimension `n`. -/
noncomputable def cosine (n : ℕ) (u v : ℕ → ℚ) : ℝ :=
  (∑ i ∈ range n, (u i : ℝ) * v i) / (√(∑ i ∈ range n, (u i : ℝ) ^ 2) * √(∑ i ∈ range n, (v i : ℝ) ^ 2))

/-- The zero vector. -/
def ZeroVec (n : ℕ) (u : ℕ → ℚ) : Prop := ∀ i < n, u i = 0

/-- `v` is `k` times `u`. -/
def Multiple (n : ℕ) (k : ℚ) (u v : ℕ → ℚ) : Prop := ∀ i < n, v i = k * u i

/-- A computed quotient has the real value `x` (it is not NaN). -/
def Par.HasValue : Par → ℝ → Prop
  | .nan, _ => False
  | .quot n s, x => 0 < s ∧ x = n / √s

/-! ## Inner products -/

theorem sumSq_nonneg (n : ℕ) (u : ℕ → ℚ) : 0 ≤ ∑ i ∈ range n, u i ^ 2 :=
  Finset.sum_nonneg fun _ _ => sq_nonneg _

theorem sumSq_eq_zero {n : ℕ} {u : ℕ → ℚ} : ∑ i ∈ range n, u i ^ 2 = 0 ↔ ZeroVec n u := by
  rw [Finset.sum_eq_zero_iff_of_nonneg fun _ _ => sq_nonneg _]
  simp [ZeroVec]

theorem sumSq_pos {n : ℕ} {u : ℕ → ℚ} (h : ¬ ZeroVec n u) : 0 < ∑ i ∈ range n, u i ^ 2 :=
  lt_of_le_of_ne (sumSq_nonneg n u) fun h' => h (sumSq_eq_zero.1 h'.symm)

theorem cosine_eq (n : ℕ) (u v : ℕ → ℚ) : cosine n u v =
    ((∑ i ∈ range n, u i * v i : ℚ) : ℝ) /
      √(((∑ i ∈ range n, u i ^ 2) * (∑ i ∈ range n, v i ^ 2) : ℚ) : ℝ) := by
  unfold cosine
  rw [Rat.cast_mul, Real.sqrt_mul (by exact_mod_cast sumSq_nonneg n u)]
  push_cast
  rfl

/-- The identity behind the Cauchy-Schwarz inequality. -/
theorem cauchy_identity (n : ℕ) (u v : ℕ → ℚ) :
    ∑ i ∈ range n, ((∑ j ∈ range n, u j ^ 2) * v i - (∑ j ∈ range n, u j * v j) * u i) ^ 2 =
      (∑ j ∈ range n, u j ^ 2) *
        ((∑ j ∈ range n, u j ^ 2) * (∑ j ∈ range n, v j ^ 2) - (∑ j ∈ range n, u j * v j) ^ 2) := by
  set U := ∑ j ∈ range n, u j ^ 2 with hU
  set S := ∑ j ∈ range n, u j * v j with hS
  have : ∀ i, (U * v i - S * u i) ^ 2 = U ^ 2 * v i ^ 2 - 2 * U * S * (u i * v i) + S ^ 2 * u i ^ 2 :=
    fun i => by ring
  simp only [this, Finset.sum_add_distrib, Finset.sum_sub_distrib, ← Finset.mul_sum, ← hU, ← hS]
  ring

theorem dot_sq_le (n : ℕ) (u v : ℕ → ℚ) :
    (∑ j ∈ range n, u j * v j) ^ 2 ≤ (∑ j ∈ range n, u j ^ 2) * (∑ j ∈ range n, v j ^ 2) :=
  Finset.sum_mul_sq_le_sq_mul_sq _ _ _

/-! ## The cosine -/

/-- **C127**: symmetric. -/
theorem cosine_symm (n : ℕ) (u v : ℕ → ℚ) : cosine n u v = cosine n v u := by
  simp only [cosine, mul_comm]

theorem norm_prod_pos {n : ℕ} {u v : ℕ → ℚ} (hu : ¬ ZeroVec n u) (hv : ¬ ZeroVec n v) :
    (0 : ℝ) < (((∑ i ∈ range n, u i ^ 2) * (∑ i ∈ range n, v i ^ 2) : ℚ) : ℝ) := by
  exact_mod_cast mul_pos (sumSq_pos hu) (sumSq_pos hv)

theorem abs_cosine_le (n : ℕ) (u v : ℕ → ℚ) : |cosine n u v| ≤ 1 := by
  rw [cosine_eq]
  set P : ℚ := (∑ i ∈ range n, u i ^ 2) * (∑ i ∈ range n, v i ^ 2) with hP
  set S : ℚ := ∑ i ∈ range n, u i * v i with hS
  have h : S ^ 2 ≤ P := dot_sq_le n u v
  have h' : (S : ℝ) ^ 2 ≤ P := by exact_mod_cast h
  rw [abs_div, abs_of_nonneg (Real.sqrt_nonneg _)]
  exact div_le_one_of_le₀ (Real.abs_le_sqrt h') (Real.sqrt_nonneg _)

/-- **C127**: the parallelism is between -1 and 1. -/
theorem cosine_range (n : ℕ) (u v : ℕ → ℚ) : -1 ≤ cosine n u v ∧ cosine n u v ≤ 1 :=
  abs_le.1 (abs_cosine_le n u v)

/-- **C127**: a positive factor does not change it, a negative one changes the sign. -/
theorem cosine_scale (n : ℕ) (u v : ℕ → ℚ) (k : ℚ) :
    (0 < k → cosine n u (fun i => k * v i) = cosine n u v) ∧
    (k < 0 → cosine n u (fun i => k * v i) = - cosine n u v) := by
  have h1 : (∑ i ∈ range n, u i * (k * v i)) = k * ∑ i ∈ range n, u i * v i := by
    rw [Finset.mul_sum]; exact Finset.sum_congr rfl fun _ _ => by ring
  have h2 : (∑ i ∈ range n, (k * v i) ^ 2) = k ^ 2 * ∑ i ∈ range n, v i ^ 2 := by
    rw [Finset.mul_sum]; exact Finset.sum_congr rfl fun _ _ => by ring
  have h3 : √((((∑ i ∈ range n, u i ^ 2) * (k ^ 2 * ∑ i ∈ range n, v i ^ 2) : ℚ)) : ℝ) =
      |(k : ℝ)| * √(((∑ i ∈ range n, u i ^ 2) * (∑ i ∈ range n, v i ^ 2) : ℚ) : ℝ) := by
    rw [show ((∑ i ∈ range n, u i ^ 2) * (k ^ 2 * ∑ i ∈ range n, v i ^ 2) : ℚ) =
      k ^ 2 * ((∑ i ∈ range n, u i ^ 2) * ∑ i ∈ range n, v i ^ 2) by ring, Rat.cast_mul, Rat.cast_pow,
      Real.sqrt_mul (by positivity), Real.sqrt_sq_eq_abs]
  constructor
  · intro hk
    have hk' : (0 : ℝ) < k := by exact_mod_cast hk
    rw [cosine_eq, cosine_eq, h1, h2, h3, abs_of_pos hk', Rat.cast_mul, mul_div_mul_left _ _ hk'.ne']
  · intro hk
    have hk' : (k : ℝ) < 0 := by exact_mod_cast hk
    rw [cosine_eq, cosine_eq, h1, h2, h3, abs_of_neg hk', Rat.cast_mul, neg_mul, div_neg,
      mul_div_mul_left _ _ hk'.ne]

theorem cosine_one_of {n : ℕ} {u v : ℕ → ℚ} (hu : ¬ ZeroVec n u) {k : ℚ} (hk : 0 < k)
    (h : Multiple n k u v) : cosine n u v = 1 := by
  have h1 : (∑ i ∈ range n, u i * v i) = k * ∑ i ∈ range n, u i ^ 2 := by
    rw [Finset.mul_sum]
    exact Finset.sum_congr rfl fun i hi => by rw [h i (Finset.mem_range.1 hi)]; ring
  have h2 : (∑ i ∈ range n, v i ^ 2) = k ^ 2 * ∑ i ∈ range n, u i ^ 2 := by
    rw [Finset.mul_sum]
    exact Finset.sum_congr rfl fun i hi => by rw [h i (Finset.mem_range.1 hi)]; ring
  have hU := sumSq_pos hu
  have h3 : ((∑ i ∈ range n, u i ^ 2) * (k ^ 2 * ∑ i ∈ range n, u i ^ 2) : ℚ) =
      (k * ∑ i ∈ range n, u i ^ 2) ^ 2 := by ring
  have hpos : (0 : ℝ) < ((k * ∑ i ∈ range n, u i ^ 2 : ℚ) : ℝ) := by
    exact_mod_cast mul_pos hk hU
  rw [cosine_eq, h1, h2, h3, Rat.cast_pow, Real.sqrt_sq hpos.le, div_self hpos.ne']

/-- **C127**: the parallelism of two vectors (not zero) is 1 exactly if one is a positive multiple of
the other. -/
theorem cosine_eq_one_iff {n : ℕ} {u v : ℕ → ℚ} (hu : ¬ ZeroVec n u) (hv : ¬ ZeroVec n v) :
    cosine n u v = 1 ↔ ∃ k : ℚ, 0 < k ∧ Multiple n k u v := by
  refine ⟨fun h => ?_, fun ⟨k, hk, hm⟩ => cosine_one_of hu hk hm⟩
  have hpos := norm_prod_pos hu hv
  rw [cosine_eq] at h
  have hU := sumSq_pos hu
  have hid := cauchy_identity n u v
  set S := ∑ i ∈ range n, u i * v i with hS
  set U := ∑ i ∈ range n, u i ^ 2 with hUd
  set V := ∑ i ∈ range n, v i ^ 2 with hVd
  have hsq : (0 : ℝ) < √((U * V : ℚ) : ℝ) := Real.sqrt_pos.2 hpos
  have hS1 : (S : ℝ) = √((U * V : ℚ) : ℝ) := by
    rw [div_eq_one_iff_eq hsq.ne'] at h; exact h
  have hSpos : 0 < S := by
    have : (0 : ℝ) < S := hS1 ▸ hsq
    exact_mod_cast this
  have hS2 : S ^ 2 = U * V := by
    have : (S : ℝ) ^ 2 = ((U * V : ℚ) : ℝ) := by rw [hS1, Real.sq_sqrt hpos.le]
    exact_mod_cast this
  rw [← hS2, sub_self, mul_zero] at hid
  rw [Finset.sum_eq_zero_iff_of_nonneg fun _ _ => sq_nonneg _] at hid
  refine ⟨S / U, div_pos hSpos hU, fun i hi => ?_⟩
  have := hid i (Finset.mem_range.2 hi)
  have h0 : U * v i - S * u i = 0 := by simpa using this
  field_simp
  linarith

/-- **C127**: it is -1 exactly if one is a negative multiple of the other. -/
theorem cosine_eq_neg_one_iff {n : ℕ} {u v : ℕ → ℚ} (hu : ¬ ZeroVec n u) (hv : ¬ ZeroVec n v) :
    cosine n u v = -1 ↔ ∃ k : ℚ, k < 0 ∧ Multiple n k u v := by
  have hv' : ¬ ZeroVec n (fun i => (-1 : ℚ) * v i) := fun h => hv fun i hi => by
    have := h i hi; simpa using this
  have hs := (cosine_scale n u v (-1)).2 (by norm_num)
  have h1 := cosine_eq_one_iff hu hv'
  rw [hs] at h1
  constructor
  · intro h
    obtain ⟨k, hk, hm⟩ := h1.1 (by rw [h]; norm_num)
    exact ⟨-k, by linarith, fun i hi => by have := hm i hi; linarith⟩
  · rintro ⟨k, hk, hm⟩
    have := h1.2 ⟨-k, by linarith, fun i hi => by show -1 * v i = -k * u i; rw [hm i hi]; ring⟩
    linarith

/-- **C127**: it is 0 exactly if the vectors are perpendicular. -/
theorem cosine_eq_zero_iff {n : ℕ} {u v : ℕ → ℚ} (hu : ¬ ZeroVec n u) (hv : ¬ ZeroVec n v) :
    cosine n u v = 0 ↔ ∑ i ∈ range n, u i * v i = 0 := by
  have hsq : (0 : ℝ) < √(((∑ i ∈ range n, u i ^ 2) * (∑ i ∈ range n, v i ^ 2) : ℚ) : ℝ) :=
    Real.sqrt_pos.2 (norm_prod_pos hu hv)
  rw [cosine_eq, div_eq_zero_iff]
  constructor
  · rintro (h | h)
    · exact_mod_cast h
    · exact absurd h hsq.ne'
  · intro h; left; exact_mod_cast h

example : cosine 2 (fun i => if i = 0 then 1 else 2) (fun i => if i = 0 then 3 else 6) = 1 := by
  have h : ¬ ZeroVec 2 (fun i => if i = 0 then (1 : ℚ) else 2) := fun h => by
    have := h 0 (by norm_num); norm_num at this
  refine cosine_one_of h (k := 3) (by norm_num) fun i hi => ?_
  interval_cases i <;> norm_num

/-! ## What the functions compute -/

theorem packedSquares_eq {v : SVec} (hv : Sorted v) {n : ℕ} (hn : ∀ e ∈ v, e.1 < n) :
    packedSquares v = ∑ i ∈ range n, scoef v i ^ 2 := by
  have h1 : packedSquares v = sdot v (scoef v) := by
    rw [packedSquares, rowSquares_eq, List.map_map, sdot]
    congr 1
    refine List.map_congr_left fun e he => ?_
    simp only [Function.comp_apply]
    rw [scoef_of_mem_sorted hv he]
  rw [h1, sdot_scoef_eq_sum v v n hn]
  exact Finset.sum_congr rfl fun _ _ => by ring

theorem rowSquares_take_eq (b : List ℚ) (n : ℕ) (hb : n ≤ b.length) :
    rowSquares (b.take n) = ∑ i ∈ range n, b.getD i 0 ^ 2 := by
  rw [rowSquares_eq]
  induction n with
  | zero => simp
  | succ n ih =>
    rw [Finset.sum_range_succ, ← ih (by omega), List.take_succ_eq_append_getElem (by omega),
      List.map_append, List.sum_append]
    simp [List.getElem?_eq_getElem (show n < b.length by omega), sq]

/-- What `Par.mk` yields for the three sums of two vectors. -/
theorem par_mk_spec (n : ℕ) (u v : ℕ → ℚ) :
    let p := Par.mk (∑ i ∈ range n, u i * v i) (∑ i ∈ range n, u i ^ 2) (∑ i ∈ range n, v i ^ 2)
    (p = .nan ↔ ZeroVec n u ∨ ZeroVec n v) ∧
    (¬ ZeroVec n u → ¬ ZeroVec n v → p.HasValue (cosine n u v)) := by
  dsimp only [Par.mk]
  constructor
  · rw [← sumSq_eq_zero, ← sumSq_eq_zero, ← mul_eq_zero]
    split <;> simp_all
  · intro hu hv
    have := mul_pos (sumSq_pos hu) (sumSq_pos hv)
    rw [if_neg this.ne']
    exact ⟨this, cosine_eq n u v⟩

/-- **C127** (two packed vectors with sorted indices): NaN if and only if one vector is zero, otherwise
the cosine of the angle. -/
theorem parallelism_packed_partial {v w : SVec} (hv : Sorted v) (hw : Sorted w) {n : ℕ}
    (hvn : ∀ e ∈ v, e.1 < n) (hwn : ∀ e ∈ w, e.1 < n) :
    (parallelismPP v w = .nan ↔ ZeroVec n (scoef v) ∨ ZeroVec n (scoef w)) ∧
    (¬ ZeroVec n (scoef v) → ¬ ZeroVec n (scoef w) →
      (parallelismPP v w).HasValue (cosine n (scoef v) (scoef w))) := by
  have := par_mk_spec n (scoef v) (scoef w)
  rwa [← dotSparse_exact true v w hv hw n hvn, ← packedSquares_eq hv hvn,
    ← packedSquares_eq hw hwn] at this

/-- **C127** (packed and dense). -/
theorem parallelism_packed_dense {v : SVec} (hv : Sorted v) {b : List ℚ} {n : ℕ} (hb : n ≤ b.length)
    (hvn : ∀ e ∈ v, e.1 < n) : ∃ p, parallelismPD v n b = some p ∧
    (p = .nan ↔ ZeroVec n (scoef v) ∨ ZeroVec n (fun i => b.getD i 0)) ∧
    (¬ ZeroVec n (scoef v) → ¬ ZeroVec n (fun i => b.getD i 0) →
      p.HasValue (cosine n (scoef v) (fun i => b.getD i 0))) := by
  have h1 : dotSparseDense id false v b = some (∑ i ∈ range n, scoef v i * b.getD i 0) := by
    rw [dotSparseDense_exact false v b fun e he => lt_of_lt_of_le (hvn e he) hb]
    congr 1
    have : ∀ w : SVec, (∀ e ∈ w, e.1 < n) →
        (w.map fun e => e.2 * b.getD e.1 0).sum = ∑ i ∈ range n, scoef w i * b.getD i 0 := by
      intro w
      induction w with
      | nil => intro _; simp
      | cons e w ih =>
        intro h
        rw [List.map_cons, List.sum_cons, ih fun e' he' => h e' (by simp [he'])]
        simp only [scoef_cons, add_mul, Finset.sum_add_distrib]
        congr 1
        rw [Finset.sum_eq_single e.1]
        · simp
        · intro i _ hi; simp [Ne.symm hi]
        · intro h'; exact absurd (Finset.mem_range.2 (h e (by simp))) h'
    exact this v hvn
  have h2 : denseSquares n b = some (∑ i ∈ range n, b.getD i 0 ^ 2) := by
    rw [denseSquares, if_neg (by omega), rowSquares_take_eq b n hb]
  refine ⟨_, by rw [parallelismPD, h1, h2], ?_⟩
  have := par_mk_spec n (scoef v) (fun i => b.getD i 0)
  rwa [← packedSquares_eq hv hvn] at this

/-- **C127** (two dense vectors). -/
theorem parallelism_dense {a b : List ℚ} {n : ℕ} (ha : n ≤ a.length) (hb : n ≤ b.length) :
    ∃ p, parallelismDD n a b = some p ∧
    (p = .nan ↔ ZeroVec n (fun i => a.getD i 0) ∨ ZeroVec n (fun i => b.getD i 0)) ∧
    (¬ ZeroVec n (fun i => a.getD i 0) → ¬ ZeroVec n (fun i => b.getD i 0) →
      p.HasValue (cosine n (fun i => a.getD i 0) (fun i => b.getD i 0))) := by
  have h1 := dotDense_exact true a b n ha hb
  have h2 : ∀ c : List ℚ, n ≤ c.length → denseSquares n c = some (∑ i ∈ range n, c.getD i 0 ^ 2) := by
    intro c hc
    rw [denseSquares, if_neg (by omega), rowSquares_take_eq c n hc]
  refine ⟨_, by rw [parallelismDD, h1, h2 a ha, h2 b hb], ?_⟩
  exact par_mk_spec n (fun i => a.getD i 0) (fun i => b.getD i 0)

/-- **C127**: reading past the end of an array is the only way to get no value. -/
theorem parallelism_undefined_iff (v : SVec) (n : ℕ) (a b : List ℚ) :
    (parallelismPD v n b = none ↔ (∃ e ∈ v, b.length ≤ e.1) ∨ b.length < n) ∧
    (parallelismDD n a b = none ↔ a.length < n ∨ b.length < n) := by
  constructor
  · have h := dotSparseDense_undefined_iff id false v b
    unfold parallelismPD denseSquares
    cases hd : dotSparseDense id false v b with
    | none => simp [h.1 hd]
    | some s =>
      have hn : ¬ ∃ e ∈ v, b.length ≤ e.1 := fun h' => by rw [h.2 h'] at hd; simp at hd
      by_cases hb : b.length < n <;> simp [hb, hn]
  · have h := dotDense_undefined_iff id true a b n
    unfold parallelismDD denseSquares
    cases hd : dotDense id true a b n with
    | none => simpa using h.1 hd
    | some s =>
      have hn : ¬ (a.length < n ∨ b.length < n) := fun h' => by
        rw [h.2 (by exact_mod_cast h')] at hd; simp at hd
      have h1 : ¬ a.length < n := fun h' => hn (Or.inl h')
      have h2 : ¬ b.length < n := fun h' => hn (Or.inr h')
      simp [h1, h2]

/-- **C127 fails** for packed vectors whose indices are not sorted: a vector then is not parallel to
itself written in another order. -/
theorem parallelism_unsorted : ∃ v w : SVec, (v.map (·.1)).Nodup ∧ Sorted w ∧
    (∀ i, scoef v i = scoef w i) ∧ parallelismPP w w = .quot 2 4 ∧ parallelismPP v w = .quot 1 4 := by
  refine ⟨[(1, 1), (0, 1)], [(0, 1), (1, 1)], by decide, by decide, fun i => ?_, ?_, ?_⟩
  · simp [add_comm]
  · norm_num [parallelismPP, Par.mk, packedSquares, rowSquares, dotSparse, dotSparseLoop, dotStep]
  · norm_num [parallelismPP, Par.mk, packedSquares, rowSquares, dotSparse, dotSparseLoop, dotStep]

/-! ## Comparing -/

theorem mul_abs_strictMono : StrictMono fun t : ℝ => t * |t| := by
  intro a b hab
  show a * |a| < b * |b|
  rcases le_total 0 a with ha | ha
  · rw [abs_of_nonneg ha, abs_of_nonneg (ha.trans hab.le)]; nlinarith
  · rcases le_total 0 b with hb | hb
    · rw [abs_of_nonpos ha, abs_of_nonneg hb]
      rcases eq_or_lt_of_le hb with hb | hb
      · subst hb; nlinarith
      · nlinarith
    · rw [abs_of_nonpos ha, abs_of_nonpos hb]; nlinarith

theorem signedSq_cast {n s : ℚ} (hs : 0 < s) :
    ((signedSq n s : ℚ) : ℝ) = (n / √(s : ℝ)) * |(n : ℝ) / √(s : ℝ)| := by
  have hs' : (0 : ℝ) < s := by exact_mod_cast hs
  have hr : (0 : ℝ) < √(s : ℝ) := Real.sqrt_pos.2 hs'
  rw [signedSq, abs_div, abs_of_pos hr, div_mul_div_comm, Real.mul_self_sqrt hs'.le]
  push_cast
  ring

theorem signedSq_lt {n s m t : ℚ} (hs : 0 < s) (ht : 0 < t) :
    signedSq m t < signedSq n s ↔ (m : ℝ) / √(t : ℝ) < n / √(s : ℝ) := by
  rw [← mul_abs_strictMono.lt_iff_lt (a := (m : ℝ) / √(t : ℝ))]
  rw [← signedSq_cast hs, ← signedSq_cast ht]
  exact_mod_cast Iff.rfl

/-- The comparisons of orthogonalities are those of one minus the parallelism. -/
theorem orthoLess_iff {p q : Par} {x y : ℝ} (hp : p.HasValue x) (hq : q.HasValue y) :
    orthoLess p q = true ↔ 1 - x < 1 - y := by
  cases p with
  | nan => exact hp.elim
  | quot n s =>
    cases q with
    | nan => exact hq.elim
    | quot m t =>
      obtain ⟨hs, rfl⟩ := hp
      obtain ⟨ht, rfl⟩ := hq
      rw [orthoLess, decide_eq_true_iff, signedSq_lt hs ht]
      constructor <;> intro h <;> linarith

theorem orthoBelow_iff {p : Par} {x : ℝ} (hp : p.HasValue x) (theta : ℚ) :
    orthoBelow theta p = true ↔ 1 - x < theta := by
  cases p with
  | nan => exact hp.elim
  | quot n s =>
    obtain ⟨hs, rfl⟩ := hp
    rw [orthoBelow, decide_eq_true_iff, signedSq_lt hs one_pos]
    simp only [Rat.cast_one, Real.sqrt_one, div_one, Rat.cast_sub]
    constructor <;> intro h <;> linarith

/-! ## Turning down cuts -/

/-- The stand-in `orthoKey` makes the generic loop take the same decisions as the loop with the
computed orthogonality. -/
theorem howDupAngleLoop_generic (theta EPS : ℚ) (tmp : RowCut) (cs : List RowCut) (i : ℕ)
    (mi : Option ℕ) (n s : ℚ) (hs : 0 < s) (hr : -1 ≤ signedSq n s) :
    let A := howDupAngleLoop theta EPS tmp i cs mi (.quot n s)
    let B := howDupLoop orthoKey (orthoKeyBound theta) EPS tmp i cs mi (1 - signedSq n s)
    A.code = B.code ∧ A.dupIndex = B.dupIndex ∧ A.minOrthoIndex = B.minOrthoIndex ∧
      (orthoBelow theta A.minPar = true ↔ B.minOrtho < orthoKeyBound theta) := by
  induction cs generalizing i mi n s with
  | nil =>
    dsimp only [howDupAngleLoop, howDupLoop]
    refine ⟨rfl, rfl, rfl, ?_⟩
    simp only [orthoBelow, orthoKeyBound, decide_eq_true_iff]
    constructor <;> intro h <;> linarith
  | cons c cs ih =>
    dsimp only
    have hth : (orthoKeyBound theta > 0) ↔ (theta > 0) := by
      simp only [orthoKeyBound, signedSq, div_one, gt_iff_lt]
      constructor
      · intro h
        by_contra hc
        have : 1 ≤ 1 - theta := by linarith
        rw [abs_of_nonneg (by linarith)] at h
        nlinarith
      · intro h
        rcases le_total 0 (1 - theta) with h1 | h1
        · rw [abs_of_nonneg h1]; nlinarith
        · rw [abs_of_nonpos h1]; nlinarith
    unfold howDupAngleLoop howDupLoop
    dsimp only
    have hd : decide (orthoKeyBound theta > 0) = decide (theta > 0) := decide_eq_decide.2 hth
    rw [hd]
    cases hp : parallelismPP tmp.row c.row with
    | nan =>
      have hk : orthoKey tmp.row c.row = 2 := by simp [orthoKey, hp]
      have h1 : decide (orthoKey tmp.row c.row < 1 - signedSq n s) = false := by
        rw [hk, decide_eq_false_iff_not]; linarith
      rw [h1, Bool.and_false]
      simp only [orthoLess, Bool.and_false, Bool.false_eq_true, if_false]
      split
      · refine ⟨rfl, rfl, rfl, ?_⟩
        simp only [orthoBelow, orthoKeyBound, decide_eq_true_iff]
        constructor <;> intro h <;> linarith
      · exact ih (i + 1) mi n s hs hr
    | quot m t =>
      have hk : orthoKey tmp.row c.row = 1 - signedSq m t := by simp [orthoKey, hp]
      have ht : 0 < t := by
        unfold parallelismPP Par.mk at hp
        split at hp
        · simp at hp
        · rename_i h0
          simp only [Par.quot.injEq] at hp
          rw [← hp.2]
          have : ∀ v : SVec, 0 ≤ packedSquares v := fun v => by
            rw [packedSquares, rowSquares_eq]
            exact List.sum_nonneg (by
              intro x hx
              obtain ⟨e, _, rfl⟩ := List.mem_map.1 hx
              exact mul_self_nonneg _)
          exact lt_of_le_of_ne (mul_nonneg (this _) (this _)) (Ne.symm h0)
      have h1 : decide (orthoKey tmp.row c.row < 1 - signedSq n s) =
          orthoLess (.quot m t) (.quot n s) := by
        rw [hk, orthoLess]
        exact decide_eq_decide.2 (by constructor <;> intro h <;> linarith)
      rw [h1]
      by_cases hu : (decide (theta > 0) && orthoLess (.quot m t) (.quot n s)) = true
      · simp only [hu, if_true]
        have hlt : signedSq n s < signedSq m t := by
          simp only [orthoLess, Bool.and_eq_true, decide_eq_true_iff] at hu; exact hu.2
        rw [hk]
        split
        · refine ⟨rfl, rfl, rfl, ?_⟩
          simp only [orthoBelow, orthoKeyBound, decide_eq_true_iff]
          constructor <;> intro h <;> linarith
        · exact ih (i + 1) (some i) m t ht (by linarith)
      · have hu' : (decide (theta > 0) && orthoLess (.quot m t) (.quot n s)) = false := by
          simpa using hu
        simp only [hu', Bool.false_eq_true, if_false]
        split
        · refine ⟨rfl, rfl, rfl, ?_⟩
          simp only [orthoBelow, orthoKeyBound, decide_eq_true_iff]
          constructor <;> intro h <;> linarith
        · exact ih (i + 1) mi n s hs hr

/-- The loop of `howDuplicate` keeps the smallest orthogonality. -/
theorem howDupAngleLoop_min {theta EPS : ℚ} (hth : 0 < theta) {tmp : RowCut} {cs : List RowCut} {i : ℕ}
    {mi : Option ℕ} {mp : Par} (hd : (howDupAngleLoop theta EPS tmp i cs mi mp).dupIndex = none)
    {x : ℝ} (hx : mp.HasValue x) (val : RowCut → ℝ)
    (hval : ∀ c ∈ cs, (parallelismPP tmp.row c.row).HasValue (val c)) :
    ∃ y, (howDupAngleLoop theta EPS tmp i cs mi mp).minPar.HasValue y ∧ x ≤ y ∧
      (∀ c ∈ cs, val c ≤ y) ∧ (y = x ∨ ∃ c ∈ cs, y = val c) := by
  induction cs generalizing i mi mp x with
  | nil => exact ⟨x, hx, le_rfl, by simp, Or.inl rfl⟩
  | cons c cs ih =>
    unfold howDupAngleLoop at hd ⊢
    dsimp only at hd ⊢
    have hc := hval c (by simp)
    split at hd
    · simp at hd
    · rename_i hdd
      rw [if_neg hdd]
      have hv' : ∀ c' ∈ cs, (parallelismPP tmp.row c'.row).HasValue (val c') :=
        fun c' h => hval c' (by simp [h])
      by_cases hu : orthoLess (parallelismPP tmp.row c.row) mp = true
      · have hlt := (orthoLess_iff hc hx).1 hu
        simp only [hth, gt_iff_lt, decide_true, Bool.true_and, hu, if_true] at hd ⊢
        obtain ⟨y, h1, h2, h3, h4⟩ := ih hd hc hv'
        refine ⟨y, h1, by linarith, ?_, Or.inr ?_⟩
        · intro c' hc'
          rcases List.mem_cons.1 hc' with rfl | hc'
          · exact h2
          · exact h3 c' hc'
        · rcases h4 with h4 | ⟨c', hc', h4⟩
          · exact ⟨c, by simp, h4⟩
          · exact ⟨c', by simp [hc'], h4⟩
      · have hge : ¬ (1 - val c < 1 - x) := fun h => hu ((orthoLess_iff hc hx).2 h)
        simp only [hth, gt_iff_lt, decide_true, Bool.true_and, hu, if_false] at hd ⊢
        obtain ⟨y, h1, h2, h3, h4⟩ := ih hd hx hv'
        refine ⟨y, h1, h2, ?_, ?_⟩
        · intro c' hc'
          rcases List.mem_cons.1 hc' with rfl | hc'
          · linarith
          · exact h3 c' hc'
        · rcases h4 with h4 | ⟨c', hc', h4⟩
          · exact Or.inl h4
          · exact Or.inr ⟨c', by simp [hc'], h4⟩

/-- A cut with a proper nonzero row in dimension `n`. -/
def AngleRow (n : ℕ) (c : RowCut) : Prop :=
  Sorted c.row ∧ (∀ e ∈ c.row, e.1 < n) ∧ ¬ ZeroVec n (scoef c.row)

/-- **C127**: a cut that is no duplicate is found too parallel exactly if the cosine of its angle with
one of the collected cuts exceeds one minus the minimal orthogonality. -/
theorem tooParallel_iff_partial {n : ℕ} {theta EPS : ℚ} (hth : 0 < theta) (hth1 : theta ≤ 1)
    {cuts : List RowCut} {tmp : RowCut} (ht : AngleRow n tmp) (hcs : ∀ c ∈ cuts, AngleRow n c)
    (hd : (howDupAngle cuts tmp 0 theta EPS).dupIndex = none) :
    orthoBelow theta (howDupAngle cuts tmp 0 theta EPS).minPar = true ↔
      ∃ c ∈ cuts, 1 - theta < cosine n (scoef tmp.row) (scoef c.row) := by
  unfold howDupAngle at hd ⊢
  rw [List.drop_zero] at hd ⊢
  have h0 : parOpposite.HasValue (-1) := ⟨by norm_num, by norm_num⟩
  have hval : ∀ c ∈ cuts, (parallelismPP tmp.row c.row).HasValue
      (cosine n (scoef tmp.row) (scoef c.row)) := fun c hc =>
    (parallelism_packed_partial ht.1 (hcs c hc).1 ht.2.1 (hcs c hc).2.1).2 ht.2.2 (hcs c hc).2.2
  obtain ⟨y, h1, h2, h3, h4⟩ := howDupAngleLoop_min hth hd h0
    (fun c => cosine n (scoef tmp.row) (scoef c.row)) hval
  have hth1' : (theta : ℝ) ≤ 1 := by exact_mod_cast hth1
  rw [orthoBelow_iff h1]
  constructor
  · intro h
    rcases h4 with rfl | ⟨c, hc, rfl⟩
    · linarith
    · exact ⟨c, hc, by linarith⟩
  · rintro ⟨c, hc, h⟩
    have := h3 c hc
    linarith

/-- The `genCutHelper` whose orthogonality is the computed one: see `howDupAngleLoop_generic`. -/
def GenEnv.ComputesAngles (e : GenEnv) (theta : ℚ) : Prop :=
  e.ortho = orthoKey ∧ e.MIN_ORTHO = orthoKeyBound theta

/-- **C127**, in the generator: a cut that is added to the collection makes an angle with every cut
collected before of cosine at most one minus the minimal orthogonality. -/
theorem added_cut_angle {e : GenEnv} {theta : ℚ} (he : e.ComputesAngles theta) (hth : 0 < theta)
    {g : Gen} {old : Option (List ℚ)} {s : Solve} {heur : ObjType} {p : Gen × Ret}
    (h : genCut e g old s heur = some p) (hl : g.cuts.length < p.1.cuts.length) {n : ℕ}
    (hrows : ∀ c ∈ p.1.cuts, AngleRow n c.cut) :
    ∃ c, p.1.cuts = g.cuts ++ [c] ∧
      ∀ d ∈ g.cuts, cosine n (scoef c.cut.row) (scoef d.cut.row) ≤ 1 - theta := by
  have hMO : 0 < e.MIN_ORTHO := by
    rw [he.2, orthoKeyBound, signedSq, div_one]
    rcases le_total 0 (1 - theta) with h1 | h1
    · rw [abs_of_nonneg h1]; nlinarith
    · rw [abs_of_nonpos h1]; nlinarith
  obtain ⟨c, hc, ho⟩ := pool_ortho_step h hl hMO
  refine ⟨c, hc, fun d hd => ?_⟩
  have h1 := ho d hd
  have hcr := hrows c (by rw [hc]; simp)
  have hdr := hrows d (by rw [hc]; simp [hd])
  have hv := (parallelism_packed_partial hcr.1 hdr.1 hcr.2.1 hdr.2.1).2 hcr.2.2 hdr.2.2
  rw [he.1, he.2, orthoKey] at h1
  by_contra hlt
  have hb := (orthoBelow_iff hv theta).2 (by linarith)
  cases hp : parallelismPP c.cut.row d.cut.row with
  | nan => rw [hp] at hv; exact hv.elim
  | quot m t =>
    rw [hp] at h1 hb
    simp only [orthoBelow, decide_eq_true_iff, orthoKeyBound] at hb h1
    linarith

/-! ## The stationarity test -/

/-- **C127**: the iteration towards the deepest cut is found stationary exactly if the cosine between the
previous and the new point is within the tolerance of 1. -/
theorem stationary_iff_partial {n : ℕ} {prev cur : List ℚ} (hp : n ≤ prev.length) (hc : n ≤ cur.length)
    (hp0 : ¬ ZeroVec n (fun i => prev.getD i 0)) (hc0 : ¬ ZeroVec n (fun i => cur.getD i 0)) :
    stationary n prev cur = some true ↔
      |cosine n (fun i => prev.getD i 0) (fun i => cur.getD i 0) - 1| < (defEps : ℝ) := by
  obtain ⟨p, h1, -, h3⟩ := parallelism_dense hp hc
  have hv := h3 hp0 hc0
  unfold stationary
  rw [h1]
  cases p with
  | nan => exact hv.elim
  | quot m t =>
    obtain ⟨ht, hx⟩ := hv
    simp only [Option.map_some, Option.some.injEq, Bool.and_eq_true, decide_eq_true_iff]
    rw [signedSq_lt ht one_pos, signedSq_lt one_pos ht, ← hx, abs_lt]
    simp only [Rat.cast_one, Real.sqrt_one, div_one, Rat.cast_sub, Rat.cast_add]
    constructor
    · rintro ⟨a, b⟩; exact ⟨by linarith, by linarith⟩
    · rintro ⟨a, b⟩; exact ⟨by linarith, by linarith⟩

/-- **C127**: it is found stationary when the point did not change, unless the point is the origin. -/
theorem stationary_same {n : ℕ} {prev : List ℚ} (hp : n ≤ prev.length)
    (hp0 : ¬ ZeroVec n (fun i => prev.getD i 0)) : stationary n prev prev = some true := by
  rw [stationary_iff_partial hp hp hp0 hp0,
    cosine_one_of hp0 (k := 1) one_pos fun i _ => (one_mul _).symm]
  simp [defEps]

/-- **C127 fails**: at the origin it never is, and two different points in the same direction count as
the same. -/
theorem stationary_wrong :
    stationary 2 [0, 0] [0, 0] = some false ∧ stationary 2 [1, 2] [10, 20] = some true := by
  constructor
  · obtain ⟨p, h1, h2, -⟩ := parallelism_dense (a := [0, 0]) (b := [0, 0]) (n := 2) (by simp) (by simp)
    have : p = .nan := h2.2 (Or.inl fun i hi => by interval_cases i <;> rfl)
    rw [stationary, h1, this]; rfl
  · have h1 : ¬ ZeroVec 2 (fun i => [1, 2].getD i (0 : ℚ)) := fun h => by
      have := h 0 (by norm_num); norm_num at this
    have h2 : ¬ ZeroVec 2 (fun i => [10, 20].getD i (0 : ℚ)) := fun h => by
      have := h 0 (by norm_num); norm_num at this
    rw [stationary_iff_partial (by simp) (by simp) h1 h2,
      cosine_one_of h1 (k := 10) (by norm_num) fun i hi => by interval_cases i <;> norm_num]
    simp [defEps]

/-! ## A case -/

/-- Two collected cuts and a new one. -/
def angCuts : List RowCut := [⟨[(0, 1)], 1⟩, ⟨[(1, 1)], 1⟩]
/-- A cut close to the first collected one. -/
def angTmp : RowCut := ⟨[(0, 4), (1, 3)], 1⟩

theorem angEx : (∀ c ∈ angCuts, AngleRow 2 c) ∧ AngleRow 2 angTmp ∧
    parallelismPP angTmp.row [(0, 1)] = .quot 4 25 ∧ parallelismPP angTmp.row [(1, 1)] = .quot 3 25 := by
  have hz : ∀ (v : SVec) (i : ℕ), i < 2 → scoef v i ≠ 0 → ¬ ZeroVec 2 (scoef v) :=
    fun v i hi h h' => h (h' i hi)
  refine ⟨?_, ⟨by decide, by decide, hz _ 0 (by norm_num) (by norm_num [angTmp, scoef])⟩, ?_, ?_⟩
  · intro c hc
    simp only [angCuts, List.mem_cons, List.not_mem_nil, or_false] at hc
    rcases hc with rfl | rfl
    · exact ⟨by decide, by decide, hz _ 0 (by norm_num) (by norm_num [scoef])⟩
    · exact ⟨by decide, by decide, hz _ 1 (by norm_num) (by norm_num [scoef])⟩
  · norm_num [parallelismPP, Par.mk, packedSquares, rowSquares, dotSparse, dotSparseLoop, dotStep, angTmp]
  · norm_num [parallelismPP, Par.mk, packedSquares, rowSquares, dotSparse, dotSparseLoop, dotStep, angTmp]

/-- Non-vacuity of `tooParallel_iff_partial`: the new cut is no duplicate; it is too parallel to the first
collected cut (cosine 4/5) for a minimal orthogonality of 1/2, not for 1/10. -/
example : howDupAngle angCuts angTmp 0 (1/2) defEps = ⟨0, none, some 0, .quot 4 25⟩ ∧
    orthoBelow (1/2) (.quot 4 25) = true ∧ orthoBelow (1/10) (.quot 4 25) = false := by
  decide +kernel

/-- Two cuts are tried, with computed angles. -/
def angEnv : GenEnv :=
  { poolEnv with ortho := orthoKey, MIN_ORTHO := orthoKeyBound (3/100) }

/-- Non-vacuity of `added_cut_angle`: the second cut is added (cosine 24/25); with a minimal
orthogonality of 1/10 it is not. -/
example : angEnv.ComputesAngles (3/100) ∧
    ((demoGen 5 false false false [] [] []).run
      [.tryObj angEnv none (.optimal [30, 40]) .ALL_ONES,
       .tryObj angEnv none (.optimal [40, 30]) .DISJ_LB]).map (fun g => g.cuts.map (·.cut)) =
      some [⟨[(0, 30), (1, 40)], 100⟩, ⟨[(0, 40), (1, 30)], 100⟩] ∧
    ((demoGen 5 false false false [] [] []).run
      [.tryObj { angEnv with MIN_ORTHO := orthoKeyBound (1/10) } none (.optimal [30, 40]) .ALL_ONES,
       .tryObj { angEnv with MIN_ORTHO := orthoKeyBound (1/10) } none (.optimal [40, 30]) .DISJ_LB]).map
        (fun g => g.cuts.length) = some 1 := by
  refine ⟨⟨rfl, rfl⟩, ?_, ?_⟩ <;> decide +kernel

theorem howDupAngleLoop_number (MO EPS : ℚ) (tmp : RowCut) (cs : List RowCut) (i : ℕ) (mi : Option ℕ) (mp : Par)
    (h : mp ≠ .nan) : (howDupAngleLoop MO EPS tmp i cs mi mp).minPar ≠ .nan := by
  induction cs generalizing i mi mp with
  | nil => exact h
  | cons c cs ih =>
    have hm : (if (decide (MO > 0) && orthoLess (parallelismPP tmp.row c.row) mp) = true
        then parallelismPP tmp.row c.row else mp) ≠ .nan := by
      split
      · rename_i hu
        rw [Bool.and_eq_true] at hu
        intro hn
        rw [hn] at hu
        simp [orthoLess] at hu
      · exact h
    unfold howDupAngleLoop
    dsimp only
    split
    · exact hm
    · exact ih _ _ _ hm

/-- **C127**: the smallest orthogonality is always a number: cuts without coefficients, whose angle does not exist,
never enter it. -/
theorem minPar_number (cuts : List RowCut) (tmp : RowCut) (start : ℕ) (MO EPS : ℚ) :
    (howDupAngle cuts tmp start MO EPS).minPar ≠ .nan :=
  howDupAngleLoop_number MO EPS tmp _ _ _ _ (by simp [parOpposite])

example : parallelismPP [] [(0, 1)] = .nan ∧
    (howDupAngle [⟨[(0, 1)], 1⟩] ⟨[], 0⟩ 0 (1/2) (1/100)).minPar = parOpposite := by decide +kernel

end VPC
