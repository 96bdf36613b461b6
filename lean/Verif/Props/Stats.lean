import Verif.Model.Stats
import Mathlib.Tactic.Ring
import Mathlib.Tactic.Linarith
import Mathlib.Tactic.FieldSimp
import Mathlib.Algebra.BigOperators.Group.List.Basic
import Mathlib.Algebra.Order.BigOperators.Group.List
import Mathlib.Analysis.SpecialFunctions.Sqrt

/-!
# C21: incremental statistics equal batch statistics
-/
namespace VPC

variable {K : Type} [Field K] [LinearOrder K] [IsStrictOrderedRing K]

/-- What a square-root operation must satisfy. -/
def IsSqrt (sqrt : K → K) : Prop := ∀ x, 0 < x → 0 ≤ sqrt x ∧ sqrt x * sqrt x = x

/-- Specification: textbook statistics of a nonempty data set. -/
structure IsStatsOf (xs : List K) (s : Stats K) : Prop where
  total : s.total = xs.sum
  avg : s.avg * (xs.length : K) = xs.sum
  stddev_nonneg : 0 ≤ s.stddev
  stddev : s.stddev * s.stddev * (xs.length : K) = (xs.map fun x => (x - s.avg) ^ 2).sum
  min_mem : s.min ∈ xs
  min_le : ∀ x ∈ xs, s.min ≤ x
  max_mem : s.max ∈ xs
  le_max : ∀ x ∈ xs, x ≤ s.max
  num : s.num = xs.length
  numNonzero : s.numNonzero = xs.countP fun x => decide (1 / 10 ^ 7 ≤ |x|)

omit [IsStrictOrderedRing K] in
theorem foldl_updateStat (xs : List K) (s : Stats K) :
    (xs.foldl (updateStat 1) s).total = s.total + xs.sum ∧
    (xs.foldl (updateStat 1) s).stddev = s.stddev + (xs.map fun x => x * x).sum ∧
    (xs.foldl (updateStat 1) s).num = s.num + xs.length ∧
    (xs.foldl (updateStat 1) s).numNonzero =
      s.numNonzero + xs.countP (fun x => decide (1 / 10 ^ 7 ≤ |x|)) ∧
    (xs.foldl (updateStat 1) s).min = xs.foldl Min.min s.min ∧
    (xs.foldl (updateStat 1) s).max = xs.foldl Max.max s.max := by
  induction xs generalizing s with
  | nil => simp
  | cons x xs ih =>
    obtain ⟨h1, h2, h3, h4, h5, h6⟩ := ih (updateStat 1 s x)
    rw [List.foldl_cons, h1, h2, h3, h4, h5, h6]
    refine ⟨?_, ?_, ?_, ?_, ?_, ?_⟩
    · simp [updateStat, add_assoc]
    · simp [updateStat, add_assoc]
    · simp [updateStat]; omega
    · by_cases hx : |x| < 1 / 10 ^ 7
      · have h0 : ¬ (1 / 10 ^ 7 ≤ |x|) := not_le.mpr hx
        have h7 : statIsZero x = true := decide_eq_true hx
        rw [List.countP_cons_of_neg (by simpa using h0)]
        simp only [updateStat, h7, if_true]
      · have h0 : (1 / 10 ^ 7 ≤ |x|) := not_lt.mp hx
        have h7 : statIsZero x = false := decide_eq_false hx
        rw [List.countP_cons_of_pos (by simpa using h0)]
        simp only [updateStat, h7]
        simp; omega
    · simp [updateStat]
    · simp [updateStat]

theorem sum_sq_dev (xs : List K) (m : K) :
    (xs.map fun x => (x - m) ^ 2).sum =
      (xs.map fun x => x * x).sum - 2 * m * xs.sum + m * m * (xs.length : K) := by
  induction xs with
  | nil => simp
  | cons x xs ih =>
    simp only [List.map_cons, List.sum_cons, ih, List.length_cons, Nat.cast_add, Nat.cast_one]
    ring

theorem var_nonneg (xs : List K) (h : xs ≠ []) :
    0 ≤ (xs.map fun x => x * x).sum / (xs.length : K)
      - xs.sum / (xs.length : K) * (xs.sum / (xs.length : K)) := by
  have hn : (0 : K) < xs.length := by
    rw [Nat.cast_pos]; exact List.length_pos_of_ne_nil h
  have h0 : 0 ≤ (xs.map fun x => (x - xs.sum / (xs.length : K)) ^ 2).sum := by
    apply List.sum_nonneg
    intro y hy
    obtain ⟨x, _, rfl⟩ := List.mem_map.mp hy
    positivity
  rw [sum_sq_dev] at h0
  have : (xs.map fun x => x * x).sum / (xs.length : K)
      - xs.sum / (xs.length : K) * (xs.sum / (xs.length : K)) =
      ((xs.map fun x => x * x).sum - 2 * (xs.sum / (xs.length : K)) * xs.sum +
        xs.sum / (xs.length : K) * (xs.sum / (xs.length : K)) * (xs.length : K))
        / (xs.length : K) := by
    field_simp; ring
  rw [this]
  exact div_nonneg h0 hn.le

/-- The raw accumulators after `computeStats` has processed `xs`, before finalizing. -/
def rawStats (dmax : K) (xs : List K) : Stats K :=
  xs.foldl (updateStat 1) (initializeStats 0 dmax)

omit [IsStrictOrderedRing K] in
theorem rawStats_fields (dmax : K) (xs : List K) :
    (rawStats dmax xs).total = xs.sum ∧
    (rawStats dmax xs).stddev = (xs.map fun x => x * x).sum ∧
    (rawStats dmax xs).num = xs.length ∧
    (rawStats dmax xs).numNonzero = xs.countP (fun x => decide (1 / 10 ^ 7 ≤ |x|)) ∧
    (rawStats dmax xs).min = xs.foldl Min.min dmax ∧
    (rawStats dmax xs).max = xs.foldl Max.max 0 := by
  obtain ⟨h1, h2, h3, h4, h5, h6⟩ := foldl_updateStat xs (initializeStats 0 dmax)
  refine ⟨h1.trans ?_, h2.trans ?_, h3.trans ?_, h4.trans ?_, h5, h6⟩ <;>
    simp [initializeStats, zeroStats]

omit [IsStrictOrderedRing K] in
theorem computeStats_eq (sqrt : K → K) (dmax : K) (xs : List K) (h : xs ≠ []) :
    computeStats sqrt dmax xs = finalizeStats sqrt (rawStats dmax xs) xs.length := by
  simp [computeStats, h, updateAndFinalizeStats, rawStats]

/-- The finalized record. -/
theorem computeStats_some (sqrt : K → K) (dmax : K) (xs : List K) (h : xs ≠ []) :
    computeStats sqrt dmax xs = some
      { rawStats dmax xs with
        avg := xs.sum / (xs.length : K)
        stddev :=
          let var := (xs.map fun x => x * x).sum / (xs.length : K) -
            xs.sum / (xs.length : K) * (xs.sum / (xs.length : K))
          if 0 < var then sqrt var else 0 } := by
  have hlen : 0 < xs.length := List.length_pos_of_ne_nil h
  obtain ⟨h1', h2', -⟩ := rawStats_fields dmax xs
  rw [computeStats_eq _ _ _ h, finalizeStats]
  have : (0 : ℤ) < (xs.length : ℤ) := by exact_mod_cast hlen
  simp only [this, if_true, h1', h2', Int.cast_natCast]
  rw [if_neg (by omega)]

theorem sd_sq (sqrt : K → K) (hs : IsSqrt sqrt) (var : K) (h : 0 ≤ var) :
    (if 0 < var then sqrt var else 0) * (if 0 < var then sqrt var else 0) = var := by
  split
  · exact (hs _ ‹_›).2
  · have : var = 0 := le_antisymm (not_lt.mp ‹_›) h
    simp [this]

theorem foldl_min_spec (xs : List K) (a : K) (hx : ∀ x ∈ xs, x ≤ a) (hne : xs ≠ []) :
    xs.foldl Min.min a ∈ xs ∧ ∀ x ∈ xs, xs.foldl Min.min a ≤ x := by
  have key : ∀ (xs : List K) (a : K), (xs.foldl Min.min a = a ∨ xs.foldl Min.min a ∈ xs) ∧
      xs.foldl Min.min a ≤ a ∧ ∀ x ∈ xs, xs.foldl Min.min a ≤ x := by
    intro xs
    induction xs with
    | nil => intro a; simp
    | cons x xs ih =>
      intro a
      obtain ⟨h1, h2, h3⟩ := ih (Min.min a x)
      refine ⟨?_, h2.trans (min_le_left _ _), ?_⟩
      · rcases h1 with h | h
        · simp only [List.foldl_cons, h]
          rcases le_total a x with hh | hh
          · left; exact min_eq_left hh
          · right; simp [min_eq_right hh]
        · right; exact List.mem_cons_of_mem _ h
      · intro y hy
        rcases List.mem_cons.mp hy with rfl | hy
        · exact h2.trans (min_le_right _ _)
        · exact h3 y hy
  obtain ⟨h1, h2, h3⟩ := key xs a
  refine ⟨?_, h3⟩
  rcases h1 with h | h
  · obtain ⟨y, hy⟩ := List.exists_mem_of_ne_nil xs hne
    have e1 := h3 y hy; have e2 := hx y hy
    have : xs.foldl Min.min a = y := by rw [h] at e1 ⊢; exact le_antisymm e1 e2
    rw [this]; exact hy
  · exact h

theorem foldl_max_spec (xs : List K) (a : K) :
    (xs.foldl Max.max a = a ∨ xs.foldl Max.max a ∈ xs) ∧
      a ≤ xs.foldl Max.max a ∧ ∀ x ∈ xs, x ≤ xs.foldl Max.max a := by
  induction xs generalizing a with
  | nil => simp
  | cons x xs ih =>
    obtain ⟨h1, h2, h3⟩ := ih (Max.max a x)
    refine ⟨?_, (le_max_left _ _).trans h2, ?_⟩
    · rcases h1 with h | h
      · simp only [List.foldl_cons, h]
        rcases le_total a x with hh | hh
        · right; simp [max_eq_right hh]
        · left; exact max_eq_left hh
      · right; exact List.mem_cons_of_mem _ h
    · intro y hy
      rcases List.mem_cons.mp hy with rfl | hy
      · exact (le_max_right _ _).trans h2
      · exact h3 y hy

/-- **Batch statistics are the textbook ones (partial).** For every nonempty data set with no
value above the largest double and *at least one nonnegative value*, `computeStats` returns the
statistics of the data. Missing: data that is all negative (`computeStats_max_wrong`). -/
theorem computeStats_spec_partial (sqrt : K → K) (hs : IsSqrt sqrt) (dmax : K) (xs : List K)
    (hne : xs ≠ []) (hmax : ∀ x ∈ xs, x ≤ dmax) (hnn : ∃ x ∈ xs, 0 ≤ x) :
    ∃ s, computeStats sqrt dmax xs = some s ∧ IsStatsOf xs s := by
  have hn : (0 : K) < xs.length := by
    rw [Nat.cast_pos]; exact List.length_pos_of_ne_nil hne
  refine ⟨_, computeStats_some sqrt dmax xs hne, ?_⟩
  obtain ⟨h1, h2, h3, h4, h5, h6⟩ := rawStats_fields dmax xs
  have hv := var_nonneg xs hne
  obtain ⟨m1, m2⟩ := foldl_min_spec xs dmax hmax hne
  obtain ⟨M1, M2, M3⟩ := foldl_max_spec xs 0
  constructor
  · exact h1
  · field_simp
  · simp only
    split
    · exact (hs _ ‹_›).1
    · exact le_rfl
  · simp only
    rw [sd_sq sqrt hs _ hv, sum_sq_dev]
    field_simp; ring
  · simpa [h5] using m1
  · simpa [h5] using m2
  · simp only [h6]
    rcases M1 with h | h
    · obtain ⟨y, hy, hy0⟩ := hnn
      have := M3 y hy
      rw [h] at this ⊢
      rw [le_antisymm hy0 this]; exact hy
    · exact h
  · simpa [h6] using M3
  · exact h3
  · exact h4

/-- Empty data: all statistics are reported as zero. -/
theorem computeStats_empty (sqrt : K → K) (dmax : K) :
    computeStats sqrt dmax [] = some (zeroStats : Stats K) := by simp [computeStats]

/-- **C21 fails for all-negative data**: the reported maximum of any all-negative data set is 0. -/
theorem computeStats_max_wrong (sqrt : K → K) (dmax : K) (xs : List K) (hne : xs ≠ [])
    (hneg : ∀ x ∈ xs, x < 0) :
    ∃ s, computeStats sqrt dmax xs = some s ∧ s.max = 0 ∧ s.max ∉ xs := by
  refine ⟨_, computeStats_some sqrt dmax xs hne, ?_⟩
  obtain ⟨h1, h2, h3, h4, h5, h6⟩ := rawStats_fields dmax xs
  obtain ⟨M1, M2, M3⟩ := foldl_max_spec xs 0
  have : xs.foldl Max.max 0 = 0 := by
    rcases M1 with h | h
    · exact h
    · have := hneg _ h; exact absurd M2 (not_le.mpr this)
  have e : (rawStats dmax xs).max = 0 := h6.trans this
  refine ⟨e, ?_⟩
  simp only [e]
  intro h
  exact lt_irrefl _ (hneg _ h)

omit [IsStrictOrderedRing K] in
theorem updateStat_avg (s : Stats K) (a : K) (xs : List K) (hx : xs ≠ []) :
    xs.foldl (updateStat 1) { s with avg := a } = xs.foldl (updateStat 1) s := by
  cases xs with
  | nil => exact absurd rfl hx
  | cons x xs => simp [updateStat]

/-- **C21.** Updating the finalized statistics of a nonempty data set `xs` with any further batch
`ys`, telling the routine how many values were seen, gives exactly the statistics of `xs ++ ys`
(and the internal consistency assertion never fires). -/
theorem update_eq_batch_partial (sqrt : K → K) (hs : IsSqrt sqrt) (dmax : K) (xs ys : List K)
    (hne : xs ≠ []) :
    ∃ s, computeStats sqrt dmax xs = some s ∧
      updateAndFinalizeStats sqrt s ys xs.length = computeStats sqrt dmax (xs ++ ys) := by
  refine ⟨_, computeStats_some sqrt dmax xs hne, ?_⟩
  by_cases hy : ys = []
  · subst hy
    simp only [updateAndFinalizeStats, if_true, List.append_nil]
    exact (computeStats_some sqrt dmax xs hne).symm
  have hlen : 0 < xs.length := List.length_pos_of_ne_nil hne
  have hn : (0 : K) < xs.length := by rw [Nat.cast_pos]; exact hlen
  have hi : (0 : ℤ) < (xs.length : ℤ) := by exact_mod_cast hlen
  obtain ⟨h1, h2, h3, h4, h5, h6⟩ := rawStats_fields dmax xs
  have hv := var_nonneg xs hne
  have htot := h1
  have hsq := h2
  rw [computeStats_eq _ _ _ (by simp [hne])]
  unfold updateAndFinalizeStats
  rw [if_neg hy]
  simp only [ne_eq, hi.ne', not_false_eq_true, if_true, hi]
  unfold unfinalizeStats
  simp only [hi, if_true, hi.ne', if_false, Int.cast_natCast, htot, sub_self, abs_zero]
  rw [if_pos (by positivity)]
  simp only [sd_sq sqrt hs _ hv, Option.bind_eq_bind, Option.bind_some]
  have e1 : ((xs.map fun x => x * x).sum / (xs.length : K)
      - xs.sum / (xs.length : K) * (xs.sum / (xs.length : K))
      + xs.sum / (xs.length : K) * (xs.sum / (xs.length : K))) * (xs.length : K)
      = (rawStats dmax xs).stddev := by
    rw [hsq, sub_add_cancel]; field_simp
  have e2 : xs.sum / (xs.length : K) * (xs.length : K) = xs.sum := by field_simp
  rw [e1, e2]
  have e3 : ys.foldl (updateStat 1)
      { total := xs.sum, avg := xs.sum, stddev := (rawStats dmax xs).stddev,
        min := (rawStats dmax xs).min, max := (rawStats dmax xs).max,
        num := (rawStats dmax xs).num, numNonzero := (rawStats dmax xs).numNonzero }
      = rawStats dmax (xs ++ ys) := by
    have : rawStats dmax (xs ++ ys) = ys.foldl (updateStat 1) (rawStats dmax xs) := by
      simp [rawStats]
    rw [this, ← updateStat_avg (rawStats dmax xs) xs.sum ys hy, ← htot]
  simp only [e3, List.length_append, Nat.cast_add]

/-- **C21, any number of batches.** Feeding batch after batch, each time passing the number of
values already seen, yields the statistics of all the data. -/
theorem updates_eq_batch_partial (sqrt : K → K) (hs : IsSqrt sqrt) (dmax : K) (xs : List K)
    (hne : xs ≠ []) (batches : List (List K)) :
    ∃ s, computeStats sqrt dmax xs = some s ∧
      (batches.foldlM (fun (p : Stats K × ℕ) ys =>
          (updateAndFinalizeStats sqrt p.1 ys p.2).map (fun s' => (s', p.2 + ys.length)))
        (s, xs.length)).map Prod.fst = computeStats sqrt dmax (xs ++ batches.flatten) := by
  induction batches generalizing xs with
  | nil =>
    obtain ⟨s, h1, h2⟩ := update_eq_batch_partial sqrt hs dmax xs [] hne
    exact ⟨s, h1, by simpa using h1.symm⟩
  | cons ys bs ih =>
    obtain ⟨s, h1, h2⟩ := update_eq_batch_partial sqrt hs dmax xs ys hne
    obtain ⟨s', h3, h4⟩ := ih (xs ++ ys) (by simp [hne])
    refine ⟨s, h1, ?_⟩
    rw [List.foldlM_cons]
    simp only [h2, h3, Option.map_some, Option.bind_eq_bind, Option.bind_some]
    rw [List.length_append] at h4
    rw [h4]; simp

/-- **C21 fails from the empty data set**: `computeStats` of no data has minimum 0, so updating it
with positive data keeps the minimum 0 although the batch minimum is positive. -/
theorem update_from_empty_wrong (sqrt : K → K) (dmax : K) (ys : List K) (hne : ys ≠ [])
    (hpos : ∀ y ∈ ys, 0 < y) :
    ∃ s0 s, computeStats sqrt dmax [] = some s0 ∧
      updateAndFinalizeStats sqrt s0 ys 0 = some s ∧ s.min = 0 ∧ s.min ∉ ys := by
  have hlen : (0 : ℤ) < (ys.length : ℤ) := by
    exact_mod_cast List.length_pos_of_ne_nil hne
  obtain ⟨s, hs1, hs2⟩ : ∃ s, updateAndFinalizeStats sqrt (zeroStats : Stats K) ys 0 = some s ∧
      s.min = (ys.foldl (updateStat 1) (zeroStats : Stats K)).min := by
    simp only [updateAndFinalizeStats, if_neg hne, finalizeStats, ne_eq, not_true_eq_false,
      if_false, Option.bind_eq_bind, Option.bind_some, zero_add]
    rw [if_neg (by omega)]
    exact ⟨_, rfl, rfl⟩
  refine ⟨zeroStats, s, computeStats_empty sqrt dmax, hs1, ?_⟩
  · obtain ⟨h1, h2, h3, h4, h5, h6⟩ := foldl_updateStat ys (zeroStats : Stats K)
    have key : ∀ (ys : List K), (∀ y ∈ ys, 0 < y) → ys.foldl Min.min 0 = 0 := by
      intro ys
      induction ys with
      | nil => simp
      | cons y ys ih =>
        intro h
        rw [List.foldl_cons, min_eq_left (h y (by simp)).le]
        exact ih fun z hz => h z (by simp [hz])
    have e : (ys.foldl (updateStat 1) (zeroStats : Stats K)).min = 0 := by
      rw [h5]; exact key ys hpos
    rw [hs2, e]
    exact ⟨rfl, fun h => lt_irrefl _ (hpos _ h)⟩

/-- **The documented use with a negative previous size fails**: after the one value 1, adding the
one value 3 with `prev_size = -1` (documented: take the size from the statistics) gives average 4
instead of 2. -/
theorem negative_prev_size_wrong (sqrt : K → K) (hs : IsSqrt sqrt) :
    ∃ s s', computeStats sqrt 10 ([1] : List K) = some s ∧
      updateAndFinalizeStats sqrt s [3] (-1) = some s' ∧ s'.avg = 4 ∧
      (∀ t, IsStatsOf ([1, 3] : List K) t → t.avg = 2) := by
  have h1 := computeStats_some sqrt (10 : K) [1] (by simp)
  refine ⟨_, { (updateStat 1 (rawStats (10 : K) [1]) 3) with avg := 4, stddev := 0 }, h1, ?_, rfl, ?_⟩
  · simp [updateAndFinalizeStats, unfinalizeStats, rawStats, updateStat, initializeStats, zeroStats,
      finalizeStats]
    norm_num
  · intro t ht
    have := ht.avg
    simp only [List.length_cons, List.length_nil, List.sum_cons, List.sum_nil] at this
    norm_num at this
    linarith

/-- Non-vacuity: the reals have a square root, and a concrete data set meets the hypotheses. -/
example : IsSqrt Real.sqrt ∧ ([1, -2, 5] : List ℝ) ≠ [] ∧ (∀ x ∈ ([1, -2, 5] : List ℝ), x ≤ 100) ∧
    ∃ x ∈ ([1, -2, 5] : List ℝ), 0 ≤ x := by
  refine ⟨fun x hx => ⟨Real.sqrt_nonneg x, Real.mul_self_sqrt hx.le⟩, by simp, ?_, 1, by simp, ?_⟩
  · intro x hx
    simp only [List.mem_cons, List.not_mem_nil, or_false] at hx
    rcases hx with rfl | rfl | rfl <;> norm_num
  · norm_num

end VPC
