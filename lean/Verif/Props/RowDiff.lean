import Verif.Model.CutHelper
import Mathlib.Tactic.Linarith
import Mathlib.Tactic.NormNum
import Mathlib.Tactic.Ring
import Mathlib.Tactic.FieldSimp
import Mathlib.Tactic.Positivity
import Mathlib.Algebra.BigOperators.Ring.Finset
import Mathlib.Algebra.Order.BigOperators.Group.Finset

/-! # C09: comparing rows (`isRowDifferent`, `howDuplicate`) -/
namespace VPC

/-! ## Specification -/

/-- The two rows agree up to the factor `r`: at every index both coefficients are negligible, or
neither is and they differ by less than `EPS` after scaling. -/
def AgreeUpTo (EPS r : ℚ) (v1 v2 : SVec) : Prop := ∀ i,
  (|scoef v1 i| < EPS ∧ |scoef v2 i| < EPS) ∨
  (EPS ≤ |scoef v1 i| ∧ EPS ≤ |scoef v2 i| ∧ |scoef v1 i - r * scoef v2 i| < EPS)

/-- Both right-hand sides are non-negligible and have (relatively significant) opposite signs. -/
def OppositeRhs (EPS rhs1 rhs2 : ℚ) : Prop :=
  EPS ≤ |rhs1| ∧ EPS ≤ |rhs2| ∧ rhs1 / rhs2 ≤ - defEps

/-! ## Lemmas -/

theorem scoef_of_mem {v : SVec} (hs : Sorted v) {i : ℕ} {a : ℚ} (h : (i, a) ∈ v) :
    scoef v i = a := by
  induction v with
  | nil => simp at h
  | cons e v ih =>
    obtain ⟨h1, h2⟩ := List.pairwise_cons.1 hs
    rw [scoef_cons]
    rcases List.mem_cons.1 h with rfl | h
    · rw [if_pos rfl, scoef_eq_zero_of_forall_ne]
      · simp
      · intro e' he' heq; have := h1 e' he'; simp only at this; omega
    · have := h1 _ h
      rw [if_neg (by simp only at this; omega), ih h2 h, zero_add]

theorem mem_of_scoef_ne_zero {v : SVec} (hs : Sorted v) {i : ℕ} (h : scoef v i ≠ 0) :
    (i, scoef v i) ∈ v := by
  by_contra hc
  apply h
  apply scoef_eq_zero_of_forall_ne
  intro e he heq
  apply hc
  have : (i, e.2) ∈ v := by rw [← heq]; exact he
  rw [scoef_of_mem hs this]; exact this

theorem defEps_pos : (0 : ℚ) < defEps := by norm_num [defEps]

structure MatchPost (EPS a b : ℚ) (s s' : RDState) : Prop where
  r : |a - s'.ratio * b| ≤ s'.maxDiff
  rc : |a - s'.ratioCoeff * b| ≤ s'.maxDiffCoeff
  mono : s.maxDiff ≤ s'.maxDiff
  monoC : s.maxDiffCoeff ≤ s'.maxDiffCoeff
  fix : - defEps < s.ratio → s'.ratio = s.ratio
  fixC : - defEps < s.ratioCoeff → s'.ratioCoeff = s.ratioCoeff
  set : - defEps < s'.ratio
  setC : - defEps < s'.ratioCoeff
  notBoth : ¬ (EPS ≤ |s'.maxDiff| ∧ EPS ≤ |s'.maxDiffCoeff|)
  orR : s'.ratio = s.ratio ∨ s'.ratio = a / b
  orC : s'.ratioCoeff = s.ratioCoeff ∨ s'.ratioCoeff = a / b

theorem upd_max (d x : ℚ) : ∃ m, (if d > x then d else x) = m ∧ d ≤ m ∧ x ≤ m := by
  refine ⟨_, rfl, ?_, ?_⟩
  · split <;> rename_i h
    · exact le_refl _
    · exact not_lt.1 h
  · split <;> rename_i h
    · exact le_of_lt h
    · exact le_refl _

theorem rdMatch_post {EPS a b : ℚ} {s s' : RDState} (hb : b ≠ 0) (h0 : 0 ≤ s.maxDiff)
    (h0C : 0 ≤ s.maxDiffCoeff) (h : rdMatch EPS a b s = some s') : MatchPost EPS a b s s' := by
  have hab : a - a / b * b = 0 := by field_simp; ring
  unfold rdMatch at h
  simp only [lessThanVal_iff, zero_sub] at h
  obtain ⟨m1, hm1, hm1a, hm1b⟩ := upd_max |a - s.ratio * b| s.maxDiff
  obtain ⟨m2, hm2, hm2a, hm2b⟩ := upd_max |a - s.ratioCoeff * b| s.maxDiffCoeff
  by_cases hr : s.ratio ≤ -defEps
  · rw [if_pos hr] at h
    by_cases hq : a / b ≤ -defEps
    · rw [if_pos hq] at h; simp at h
    · simp only [if_neg hq] at h
      by_cases hc : s.ratioCoeff ≤ -defEps
      · simp only [if_pos hc] at h
        split at h
        · cases h
        · rename_i hz
          simp only [Option.some.injEq] at h
          subst h
          simp only [Bool.and_eq_true, Bool.not_eq_true', isZero_false_iff] at hz
          refine ⟨?_, ?_, le_refl _, le_refl _, fun h => absurd hr (not_le.2 h),
            fun h => absurd hc (not_le.2 h), not_le.1 hq, not_le.1 hq, hz, Or.inr rfl, Or.inr rfl⟩
          · simp only [hab, abs_zero]; exact h0
          · simp only [hab, abs_zero]; exact h0C
      · simp only [if_neg hc, hm2] at h
        split at h
        · cases h
        · rename_i hz
          simp only [Option.some.injEq] at h
          subst h
          simp only [Bool.and_eq_true, Bool.not_eq_true', isZero_false_iff] at hz
          refine ⟨?_, hm2a, le_refl _, hm2b, fun h => absurd hr (not_le.2 h),
            fun _ => rfl, not_le.1 hq, not_le.1 hc, hz, Or.inr rfl, Or.inl rfl⟩
          simp only [hab, abs_zero]; exact h0
  · rw [if_neg hr] at h
    by_cases hc : s.ratioCoeff ≤ -defEps
    · simp only [if_pos hc, hm1] at h
      by_cases hq : a / b ≤ -defEps
      · simp only [if_pos hq] at h; simp at h
      · simp only [if_neg hq] at h
        split at h
        · cases h
        · rename_i hz
          simp only [Option.some.injEq] at h
          subst h
          simp only [Bool.and_eq_true, Bool.not_eq_true', isZero_false_iff] at hz
          refine ⟨hm1a, ?_, hm1b, le_refl _, fun _ => rfl,
            fun h => absurd hc (not_le.2 h), not_le.1 hr, not_le.1 hq, hz, Or.inl rfl, Or.inr rfl⟩
          simp only [hab, abs_zero]; exact h0C
    · simp only [if_neg hc, hm1, hm2] at h
      split at h
      · cases h
      · rename_i hz
        simp only [Option.some.injEq] at h
        subst h
        simp only [Bool.and_eq_true, Bool.not_eq_true', isZero_false_iff] at hz
        exact ⟨hm1a, hm2a, hm1b, hm2b, fun _ => rfl, fun _ => rfl, not_le.1 hr, not_le.1 hc, hz,
          Or.inl rfl, Or.inl rfl⟩

theorem rdSkip_post {EPS : ℚ} {i : ℕ} {v w : SVec} (hs : Sorted v) (h : rdSkip EPS i v = some w) :
    ∃ pre, v = pre ++ w ∧ (∀ e ∈ pre, e.1 < i ∧ |e.2| < EPS) ∧ (∀ e ∈ w, i ≤ e.1) := by
  induction v with
  | nil => simp [rdSkip] at h; subst h; exact ⟨[], by simp⟩
  | cons e v ih =>
    obtain ⟨j, b⟩ := e
    obtain ⟨h1, h2⟩ := List.pairwise_cons.1 hs
    simp only [rdSkip] at h
    by_cases hj : i > j
    · rw [if_pos hj] at h
      by_cases hz : isZero b EPS = true
      · rw [hz] at h
        obtain ⟨pre, hp1, hp2, hp3⟩ := ih h2 (by simpa using h)
        refine ⟨(j, b) :: pre, by simp [hp1], ?_, hp3⟩
        intro e he
        rcases List.mem_cons.1 he with rfl | he
        · exact ⟨hj, by simpa using hz⟩
        · exact hp2 e he
      · rw [Bool.eq_false_iff.2 hz] at h; simp at h
    · rw [if_neg hj] at h
      simp only [Option.some.injEq] at h
      subst h
      refine ⟨[], rfl, by simp, ?_⟩
      intro e he
      rcases List.mem_cons.1 he with rfl | he
      · exact not_lt.1 hj
      · have := h1 e he; simp only at this; omega

/-- Everything the loop establishes when it does not return 2. -/
structure LoopPost (EPS : ℚ) (v1 v2 : SVec) (s s' : RDState) : Prop where
  c1 : ∀ i a, (i, a) ∈ v1 → EPS ≤ |a| → ∃ b, (i, b) ∈ v2 ∧ EPS ≤ |b|
  c2 : ∀ i b, (i, b) ∈ v2 → EPS ≤ |b| → ∃ a, (i, a) ∈ v1 ∧ EPS ≤ |a|
  c3 : ∀ i a b, (i, a) ∈ v1 → (i, b) ∈ v2 → EPS ≤ |a| → EPS ≤ |b| →
    |a - s'.ratio * b| ≤ s'.maxDiff ∧ |a - s'.ratioCoeff * b| ≤ s'.maxDiffCoeff ∧
    - defEps < s'.ratio ∧ - defEps < s'.ratioCoeff
  mono : s.maxDiff ≤ s'.maxDiff
  monoC : s.maxDiffCoeff ≤ s'.maxDiffCoeff
  fix : - defEps < s.ratio → s'.ratio = s.ratio
  fixC : - defEps < s.ratioCoeff → s'.ratioCoeff = s.ratioCoeff
  notBoth : ¬ (EPS ≤ |s.maxDiff| ∧ EPS ≤ |s.maxDiffCoeff|) →
    ¬ (EPS ≤ |s'.maxDiff| ∧ EPS ≤ |s'.maxDiffCoeff|)

theorem rdLoop_post {EPS : ℚ} (he : 0 < EPS) (v1 v2 : SVec) (s s' : RDState)
    (hs1 : Sorted v1) (hs2 : Sorted v2) (h0 : 0 ≤ s.maxDiff) (h0C : 0 ≤ s.maxDiffCoeff)
    (h : rdLoop EPS v1 v2 s = some s') : LoopPost EPS v1 v2 s s' := by
  induction v1 generalizing v2 s with
  | nil =>
    simp only [rdLoop] at h
    split at h
    · rename_i hall
      simp only [Option.some.injEq] at h; subst h
      rw [List.all_eq_true] at hall
      refine ⟨by simp, ?_, by simp, le_refl _, le_refl _, fun _ => rfl, fun _ => rfl, id⟩
      intro i b hb hE
      have := hall _ hb
      rw [isZero_iff] at this
      linarith
    · cases h
  | cons e t1 ih =>
    obtain ⟨i, a⟩ := e
    obtain ⟨hp1, hp2⟩ := List.pairwise_cons.1 hs1
    simp only [rdLoop] at h
    cases hsk : rdSkip EPS i v2 with
    | none => rw [hsk] at h; simp at h
    | some w =>
      rw [hsk] at h
      obtain ⟨pre, hv2, hpre, hw⟩ := rdSkip_post hs2 hsk
      have hsw : Sorted w := by
        rw [hv2] at hs2; exact (List.pairwise_append.1 hs2).2.1
      -- the common case: `(i,a)` is negligible and unmatched
      have skipcase : ∀ (P : LoopPost EPS t1 w s s') (ha : |a| < EPS)
          (_ : ∀ b, (i, b) ∈ w → |b| < EPS), LoopPost EPS ((i, a) :: t1) v2 s s' := by
        intro P ha hwi
        refine ⟨?_, ?_, ?_, P.mono, P.monoC, P.fix, P.fixC, P.notBoth⟩
        · intro j a' hm hE
          rcases List.mem_cons.1 hm with heq | hm
          · cases heq; linarith
          · obtain ⟨b, hb, hb'⟩ := P.c1 j a' hm hE
            exact ⟨b, by rw [hv2]; exact List.mem_append_right _ hb, hb'⟩
        · intro j b hm hE
          rw [hv2] at hm
          rcases List.mem_append.1 hm with hm | hm
          · have := (hpre _ hm).2; simp only at this; linarith
          · obtain ⟨a', ha', h'⟩ := P.c2 j b hm hE
            exact ⟨a', List.mem_cons_of_mem _ ha', h'⟩
        · intro j a' b hm hmb hE hEb
          rw [hv2] at hmb
          rcases List.mem_append.1 hmb with hmb | hmb
          · have := (hpre _ hmb).2; simp only at this; linarith
          · rcases List.mem_cons.1 hm with heq | hm
            · cases heq; linarith
            · exact P.c3 j a' b hm hmb hE hEb
      cases w with
      | nil =>
        simp only at h
        by_cases hz : isZero a EPS = true
        · rw [hz] at h
          exact skipcase (ih [] s hp2 hsw h0 h0C (by simpa using h)) (by simpa using hz) (by simp)
        · rw [Bool.eq_false_iff.2 hz] at h; simp at h
      | cons e2 t2 =>
        obtain ⟨j, b⟩ := e2
        simp only at h
        obtain ⟨hq1, hq2⟩ := List.pairwise_cons.1 hsw
        by_cases hj : j > i
        · rw [if_pos hj] at h
          by_cases hz : isZero a EPS = true
          · rw [hz] at h
            refine skipcase (ih _ s hp2 hsw h0 h0C (by simpa using h)) (by simpa using hz) ?_
            intro b' hb'
            rcases List.mem_cons.1 hb' with heq | hb'
            · cases heq; omega
            · have := hq1 _ hb'; simp only at this; omega
          · rw [Bool.eq_false_iff.2 hz] at h; simp at h
        · rw [if_neg hj] at h
          have hji : j = i := by have := hw (j, b) (by simp); simp only at this; omega
          subst hji
          have hnb : ∀ b', (j, b') ∈ t2 → False := by
            intro b' hb'; have := hq1 _ hb'; simp only at this; omega
          have hna : ∀ a', (j, a') ∈ t1 → False := by
            intro b' hb'; have := hp1 _ hb'; simp only at this; omega
          have hv2j : ∀ k b', (k, b') ∈ v2 → EPS ≤ |b'| → (k, b') = (j, b) ∨ (k, b') ∈ t2 := by
            intro k b' hm hE
            rw [hv2] at hm
            rcases List.mem_append.1 hm with hm | hm
            · have := (hpre _ hm).2; simp only at this; linarith
            · exact List.mem_cons.1 hm
          have hmem2 : ∀ k b', (k, b') ∈ t2 → (k, b') ∈ v2 := by
            intro k b' hm; rw [hv2]
            exact List.mem_append_right _ (List.mem_cons_of_mem _ hm)
          have hmemj : (j, b) ∈ v2 := by rw [hv2]; exact List.mem_append_right _ (by simp)
          by_cases hza : isZero a EPS = true
          · by_cases hzb : isZero b EPS = true
            · rw [hza, hzb] at h
              have P := ih t2 s hp2 hq2 h0 h0C (by simpa using h)
              rw [isZero_iff] at hza hzb
              refine ⟨?_, ?_, ?_, P.mono, P.monoC, P.fix, P.fixC, P.notBoth⟩
              · intro k a' hm hE
                rcases List.mem_cons.1 hm with heq | hm
                · cases heq; linarith
                · obtain ⟨b', hb', h'⟩ := P.c1 k a' hm hE
                  exact ⟨b', hmem2 _ _ hb', h'⟩
              · intro k b' hm hE
                rcases hv2j k b' hm hE with heq | hm
                · cases heq; linarith
                · obtain ⟨a', ha', h'⟩ := P.c2 k b' hm hE
                  exact ⟨a', List.mem_cons_of_mem _ ha', h'⟩
              · intro k a' b' hm hmb hE hEb
                rcases hv2j k b' hmb hEb with heq | hmb
                · cases heq; linarith
                · rcases List.mem_cons.1 hm with heq | hm
                  · cases heq; linarith
                  · exact P.c3 k a' b' hm hmb hE hEb
            · rw [hza, Bool.eq_false_iff.2 hzb] at h; simp at h
          · by_cases hzb : isZero b EPS = true
            · rw [Bool.eq_false_iff.2 hza, hzb] at h; simp at h
            · rw [Bool.eq_false_iff.2 hza, Bool.eq_false_iff.2 hzb] at h
              simp only [Bool.or_self, Bool.false_eq_true, if_false] at h
              rw [isZero_iff, not_lt] at hza hzb
              cases hm' : rdMatch EPS a b s with
              | none => rw [hm'] at h; simp at h
              | some s1 =>
                rw [hm'] at h
                simp only at h
                have hb0 : b ≠ 0 := by
                  intro hb0; rw [hb0, abs_zero] at hzb; linarith
                have M := rdMatch_post hb0 h0 h0C hm'
                have P := ih t2 s1 hp2 hq2 (le_trans h0 M.mono) (le_trans h0C M.monoC) h
                have hr := P.fix M.set
                have hrc := P.fixC M.setC
                refine ⟨?_, ?_, ?_, le_trans M.mono P.mono, le_trans M.monoC P.monoC,
                  fun hh => hr.trans (M.fix hh), fun hh => hrc.trans (M.fixC hh),
                  fun _ => P.notBoth M.notBoth⟩
                · intro k a' hm hE
                  rcases List.mem_cons.1 hm with heq | hm
                  · cases heq; exact ⟨b, hmemj, hzb⟩
                  · obtain ⟨b', hb', h'⟩ := P.c1 k a' hm hE
                    exact ⟨b', hmem2 _ _ hb', h'⟩
                · intro k b' hm hE
                  rcases hv2j k b' hm hE with heq | hm
                  · cases heq; exact ⟨a, by simp, hza⟩
                  · obtain ⟨a', ha', h'⟩ := P.c2 k b' hm hE
                    exact ⟨a', List.mem_cons_of_mem _ ha', h'⟩
                · intro k a' b' hm hmb hE hEb
                  rcases hv2j k b' hmb hEb with heq | hmb
                  · cases heq
                    rcases List.mem_cons.1 hm with heq | hm
                    · cases heq
                      rw [hr, hrc]
                      exact ⟨le_trans M.r P.mono, le_trans M.rc P.monoC, M.set, M.setC⟩
                    · exact (hna _ hm).elim
                  · rcases List.mem_cons.1 hm with heq | hm
                    · cases heq; exact (hnb _ hmb).elim
                    · exact P.c3 k a' b' hm hmb hE hEb

theorem agree_of_post {EPS : ℚ} (he : 0 < EPS) {v1 v2 : SVec} {s s' : RDState}
    (hs1 : Sorted v1) (hs2 : Sorted v2) (P : LoopPost EPS v1 v2 s s') :
    (s'.maxDiff < EPS → AgreeUpTo EPS s'.ratio v1 v2) ∧
    (s'.maxDiffCoeff < EPS → AgreeUpTo EPS s'.ratioCoeff v1 v2) := by
  have key : ∀ i, (|scoef v1 i| < EPS ∧ |scoef v2 i| < EPS) ∨
      (EPS ≤ |scoef v1 i| ∧ EPS ≤ |scoef v2 i| ∧
        |scoef v1 i - s'.ratio * scoef v2 i| ≤ s'.maxDiff ∧
        |scoef v1 i - s'.ratioCoeff * scoef v2 i| ≤ s'.maxDiffCoeff) := by
    intro i
    have nz : ∀ {v : SVec}, EPS ≤ |scoef v i| → scoef v i ≠ 0 := by
      intro v hv h0; rw [h0, abs_zero] at hv; linarith
    by_cases h1 : EPS ≤ |scoef v1 i|
    · have m1 := mem_of_scoef_ne_zero hs1 (nz h1)
      obtain ⟨b, hb, hb'⟩ := P.c1 i _ m1 h1
      rw [scoef_of_mem hs2 hb]
      right
      have := P.c3 i _ b m1 hb h1 hb'
      exact ⟨h1, hb', this.1, this.2.1⟩
    · left
      refine ⟨not_le.1 h1, ?_⟩
      by_contra h2
      rw [not_lt] at h2
      have m2 := mem_of_scoef_ne_zero hs2 (nz h2)
      obtain ⟨a, ha, ha'⟩ := P.c2 i _ m2 h2
      rw [scoef_of_mem hs1 ha] at h1
      exact h1 ha'
  constructor
  · intro hlt i
    rcases key i with h | ⟨h1, h2, h3, -⟩
    · exact Or.inl h
    · exact Or.inr ⟨h1, h2, lt_of_le_of_lt h3 hlt⟩
  · intro hlt i
    rcases key i with h | ⟨h1, h2, -, h3⟩
    · exact Or.inl h
    · exact Or.inr ⟨h1, h2, lt_of_le_of_lt h3 hlt⟩

theorem rdInit_nonneg (EPS a b : ℚ) :
    0 ≤ (rdInit EPS a b).maxDiff ∧ (rdInit EPS a b).maxDiffCoeff = 0 := by
  unfold rdInit
  split
  · refine ⟨?_, rfl⟩
    simp only
    split
    · exact abs_nonneg _
    · split
      · exact abs_nonneg _
      · exact le_refl _
  · exact ⟨le_refl _, rfl⟩

theorem rdInit_notBoth {EPS : ℚ} (he : 0 < EPS) (a b : ℚ) :
    ¬ (EPS ≤ |(rdInit EPS a b).maxDiff| ∧ EPS ≤ |(rdInit EPS a b).maxDiffCoeff|) := by
  rw [(rdInit_nonneg EPS a b).2, abs_zero]
  intro h; linarith [h.2]

/-! ## C09 -/

/-- C09. The comparison only ever answers -1, 0, 1 or 2. -/
theorem isRowDifferent_range (v1 v2 : SVec) (rhs1 rhs2 EPS : ℚ) :
    isRowDifferent v1 rhs1 v2 rhs2 EPS = -1 ∨ isRowDifferent v1 rhs1 v2 rhs2 EPS = 0 ∨
    isRowDifferent v1 rhs1 v2 rhs2 EPS = 1 ∨ isRowDifferent v1 rhs1 v2 rhs2 EPS = 2 := by
  unfold isRowDifferent
  cases rdLoop EPS v1 v2 (rdInit EPS rhs1 rhs2) with
  | none => simp
  | some s =>
    simp only
    cases isZero s.maxDiff EPS <;> cases isZero s.maxDiffCoeff EPS <;>
      cases lessThanVal s.ratioCoeff 0 EPS <;> cases isZero (rhs1 - s.ratioCoeff * rhs2) EPS <;>
      cases greaterThanVal (rhs1 - s.ratioCoeff * rhs2) 0 EPS <;> simp

/-- C09. Answer `-1` ("row 1 is better"): the rows agree up to a single factor `r` (not
significantly negative) and row 1 has the larger right-hand side after scaling. -/
theorem isRowDifferent_minus_one (v1 v2 : SVec) (rhs1 rhs2 EPS : ℚ) (he : 0 < EPS)
    (hs1 : Sorted v1) (hs2 : Sorted v2) (h : isRowDifferent v1 rhs1 v2 rhs2 EPS = -1) :
    ∃ r, - EPS < r ∧ AgreeUpTo EPS r v1 v2 ∧ r * rhs2 + EPS ≤ rhs1 := by
  unfold isRowDifferent at h
  cases hl : rdLoop EPS v1 v2 (rdInit EPS rhs1 rhs2) with
  | none => rw [hl] at h; simp at h
  | some s =>
    rw [hl] at h
    simp only at h
    have hi := rdInit_nonneg EPS rhs1 rhs2
    have P := rdLoop_post he v1 v2 _ s hs1 hs2 hi.1 (le_of_eq hi.2.symm) hl
    split at h
    · simp at h
    · split at h
      · rename_i hz
        split at h
        · simp at h
        · rename_i hlt
          split at h
          · simp at h
          · split at h
            · rename_i hg
              rw [isZero_iff] at hz
              rw [lessThanVal_iff, zero_sub, not_le] at hlt
              rw [greaterThanVal_iff] at hg
              exact ⟨s.ratioCoeff, hlt, (agree_of_post he hs1 hs2 P).2
                (lt_of_le_of_lt (le_abs_self _) hz), by linarith⟩
            · simp at h
      · simp at h

/-- C09. Answer `1` ("row 2 is better"): the rows agree up to a single factor `r` and row 1 has the
smaller right-hand side after scaling. -/
theorem isRowDifferent_one (v1 v2 : SVec) (rhs1 rhs2 EPS : ℚ) (he : 0 < EPS)
    (hs1 : Sorted v1) (hs2 : Sorted v2) (h : isRowDifferent v1 rhs1 v2 rhs2 EPS = 1) :
    ∃ r, - EPS < r ∧ AgreeUpTo EPS r v1 v2 ∧ rhs1 + EPS ≤ r * rhs2 := by
  unfold isRowDifferent at h
  cases hl : rdLoop EPS v1 v2 (rdInit EPS rhs1 rhs2) with
  | none => rw [hl] at h; simp at h
  | some s =>
    rw [hl] at h
    simp only at h
    have hi := rdInit_nonneg EPS rhs1 rhs2
    have P := rdLoop_post he v1 v2 _ s hs1 hs2 hi.1 (le_of_eq hi.2.symm) hl
    split at h
    · simp at h
    · split at h
      · rename_i hz
        split at h
        · simp at h
        · rename_i hlt
          split at h
          · simp at h
          · rename_i hz2
            split at h
            · simp at h
            · rename_i hg
              rw [isZero_iff] at hz
              rw [isZero_iff, abs_lt, not_and, not_lt] at hz2
              rw [lessThanVal_iff, zero_sub, not_le] at hlt
              rw [greaterThanVal_iff, not_le] at hg
              refine ⟨s.ratioCoeff, hlt, (agree_of_post he hs1 hs2 P).2
                (lt_of_le_of_lt (le_abs_self _) hz), ?_⟩
              by_contra hcon
              have := hz2 (by linarith)
              linarith
      · simp at h

/-- C09. Answer `0` ("same row"): the rows agree up to a single factor `r`, and — provided the
right-hand sides do not have opposite signs — so do the right-hand sides (or both are negligible).
The excluded case is a defect: see `isRowDifferent_zero_wrong`. -/
theorem isRowDifferent_zero_partial (v1 v2 : SVec) (rhs1 rhs2 EPS : ℚ) (he : 0 < EPS)
    (hs1 : Sorted v1) (hs2 : Sorted v2) (hopp : ¬ OppositeRhs EPS rhs1 rhs2)
    (h : isRowDifferent v1 rhs1 v2 rhs2 EPS = 0) :
    ∃ r, AgreeUpTo EPS r v1 v2 ∧ (|rhs1 - r * rhs2| < EPS ∨ (|rhs1| < EPS ∧ |rhs2| < EPS)) := by
  unfold isRowDifferent at h
  cases hl : rdLoop EPS v1 v2 (rdInit EPS rhs1 rhs2) with
  | none => rw [hl] at h; simp at h
  | some s =>
    rw [hl] at h
    simp only at h
    have hi := rdInit_nonneg EPS rhs1 rhs2
    have P := rdLoop_post he v1 v2 _ s hs1 hs2 hi.1 (le_of_eq hi.2.symm) hl
    have A := agree_of_post he hs1 hs2 P
    split at h
    · rename_i hz
      rw [isZero_iff] at hz
      have hmd : s.maxDiff < EPS := lt_of_le_of_lt (le_abs_self _) hz
      refine ⟨s.ratio, A.1 hmd, ?_⟩
      by_cases h1 : |rhs1| < EPS
      · by_cases h2 : |rhs2| < EPS
        · exact Or.inr ⟨h1, h2⟩
        · exfalso
          have : (rdInit EPS rhs1 rhs2).maxDiff = |rhs2| := by
            unfold rdInit
            rw [isZero_iff.2 h1, isZero_false_iff.2 (not_lt.1 h2)]; simp
          have := P.mono
          linarith [not_lt.1 h2]
      · by_cases h2 : |rhs2| < EPS
        · exfalso
          have : (rdInit EPS rhs1 rhs2).maxDiff = |rhs1| := by
            unfold rdInit
            rw [isZero_iff.2 h2, isZero_false_iff.2 (not_lt.1 h1)]; simp
          have := P.mono
          linarith [not_lt.1 h1]
        · left
          have hr0 : (rdInit EPS rhs1 rhs2).ratio = rhs1 / rhs2 := by
            unfold rdInit
            rw [isZero_false_iff.2 (not_lt.1 h2), isZero_false_iff.2 (not_lt.1 h1)]; simp
          have hnn : - defEps < rhs1 / rhs2 := by
            by_contra hc
            exact hopp ⟨not_lt.1 h1, not_lt.1 h2, not_lt.1 hc⟩
          have hrr := P.fix (by rw [hr0]; exact hnn)
          rw [hr0] at hrr
          have hne : rhs2 ≠ 0 := by intro h0; rw [h0, abs_zero] at h2; exact h2 he
          rw [hrr]
          have : rhs1 - rhs1 / rhs2 * rhs2 = 0 := by field_simp; ring
          rw [this, abs_zero]; exact he
    · rename_i hz0
      split at h
      · rename_i hz
        rw [isZero_iff] at hz
        split at h
        · simp at h
        · split at h
          · rename_i hd
            rw [isZero_iff] at hd
            exact ⟨s.ratioCoeff, A.2 (lt_of_le_of_lt (le_abs_self _) hz), Or.inl hd⟩
          · split at h <;> simp at h
      · rename_i hz1
        exfalso
        rw [isZero_iff, not_lt] at hz0 hz1
        exact P.notBoth (rdInit_notBoth he _ _) ⟨hz0, hz1⟩

/-- C09 is violated when the right-hand sides have opposite signs: `x₀ ≥ 1` and `x₀ ≥ -1` are
reported as the same row although the first is strictly stronger; `x₀ = 0` satisfies one only. -/
theorem isRowDifferent_zero_wrong :
    isRowDifferent [(0, 1)] 1 [(0, 1)] (-1) (1/10^7) = 0 ∧
    ¬ (⟨[(0, 1)], 1⟩ : RowCut).Sat (fun _ => 0) ∧ (⟨[(0, 1)], -1⟩ : RowCut).Sat (fun _ => 0) := by
  refine ⟨by decide +kernel, ?_, ?_⟩ <;> norm_num [RowCut.Sat, sdot]

/-- C09, completeness direction. If row 1 is exactly `r > 0` times row 2 and no coefficient is
negligible, the rows are never reported different; the report is decided by the right-hand
sides: `-1` only if row 1 implies row 2, `1` only if row 2 implies row 1. -/
theorem isRowDifferent_parallel (v2 : SVec) (r rhs1 rhs2 EPS : ℚ) (he : 0 < EPS) (hr : 0 < r)
    (hs2 : Sorted v2) (hne : v2 ≠ [])
    (hbig : ∀ e ∈ v2, EPS ≤ |e.2| ∧ EPS ≤ |r * e.2|) :
    let v1 : SVec := v2.map fun e => (e.1, r * e.2)
    isRowDifferent v1 rhs1 v2 rhs2 EPS ≠ 2 ∧
    (isRowDifferent v1 rhs1 v2 rhs2 EPS = -1 →
      ∀ x : Vec, rhs1 ≤ sdot v1 x → rhs2 < sdot v2 x) ∧
    (isRowDifferent v1 rhs1 v2 rhs2 EPS = 1 →
      ∀ x : Vec, rhs2 ≤ sdot v2 x → rhs1 < sdot v1 x) := by
  intro v1
  have loop : ∀ (w : SVec) (s : RDState), Sorted w → (∀ e ∈ w, EPS ≤ |e.2| ∧ EPS ≤ |r * e.2|) →
      s.maxDiffCoeff = 0 → (s.ratioCoeff = -1 ∨ s.ratioCoeff = r) →
      ∃ s', rdLoop EPS (w.map fun e => (e.1, r * e.2)) w s = some s' ∧ s'.maxDiffCoeff = 0 ∧
        (w = [] → s'.ratioCoeff = s.ratioCoeff) ∧ (w ≠ [] → s'.ratioCoeff = r) ∧
        (s'.ratioCoeff = -1 ∨ s'.ratioCoeff = r) := by
    intro w
    induction w with
    | nil =>
      intro s _ _ h0 hrc
      exact ⟨s, by simp [rdLoop], h0, fun _ => rfl, fun h => absurd rfl h, hrc⟩
    | cons e w ih =>
      intro s hs hb h0 hrc
      obtain ⟨i, b⟩ := e
      obtain ⟨hp1, hp2⟩ := List.pairwise_cons.1 hs
      obtain ⟨hb1, hb2⟩ := hb (i, b) (by simp)
      simp only at hb1 hb2
      have hb0 : b ≠ 0 := by intro h; rw [h, abs_zero] at hb1; linarith
      have hq : r * b / b = r := by field_simp
      have hnl : ¬ r ≤ -defEps := by have := defEps_pos; intro h; linarith
      have h1l : (-1 : ℚ) ≤ -defEps := by norm_num [defEps]
      have hm : ∃ s1, rdMatch EPS (r * b) b s = some s1 ∧ s1.maxDiffCoeff = 0 ∧
          s1.ratioCoeff = r := by
        unfold rdMatch
        simp only [lessThanVal_iff, zero_sub, hq, hnl, if_false]
        have hz : isZero (0 : ℚ) EPS = true := by rw [isZero_iff, abs_zero]; exact he
        by_cases hr1 : s.ratio ≤ -defEps
        · simp only [hr1, if_true]
          rcases hrc with hrc | hrc
          · simp only [hrc, h1l, if_true, h0, hz]
            exact ⟨_, by simp; rfl, rfl, rfl⟩
          · simp only [hrc, hnl, if_false, h0, sub_self, abs_zero, lt_irrefl, gt_iff_lt, hz]
            exact ⟨_, by simp; rfl, rfl, rfl⟩
        · simp only [hr1, if_false]
          rcases hrc with hrc | hrc
          · simp only [hrc, h1l, if_true, h0, hz]
            exact ⟨_, by simp; rfl, rfl, rfl⟩
          · simp only [hrc, hnl, if_false, h0, sub_self, abs_zero, lt_irrefl, gt_iff_lt, hz]
            exact ⟨_, by simp; rfl, rfl, rfl⟩
      obtain ⟨s1, hm1, hm2, hm3⟩ := hm
      obtain ⟨s', hl, hl2, hl3, hl4, hl5⟩ :=
        ih s1 hp2 (fun e he => hb e (by simp [he])) hm2 (Or.inr hm3)
      have hsr : s'.ratioCoeff = r := by
        by_cases hw : w = []
        · rw [hl3 hw, hm3]
        · exact hl4 hw
      refine ⟨s', ?_, hl2, fun h => by simp at h, fun _ => hsr, Or.inr hsr⟩
      simp only [List.map_cons, rdLoop, rdSkip, gt_iff_lt, lt_irrefl, if_false]
      rw [isZero_false_iff.2 hb1, isZero_false_iff.2 hb2]
      simp only [Bool.or_self, Bool.false_eq_true, if_false, hm1]
      exact hl
  have hi := rdInit_nonneg EPS rhs1 rhs2
  have hirc : (rdInit EPS rhs1 rhs2).ratioCoeff = -1 := by unfold rdInit; split <;> rfl
  obtain ⟨s', hl, hl2, -, hl4, -⟩ := loop v2 _ hs2 hbig hi.2 (Or.inl hirc)
  have hsr := hl4 hne
  have hdot : ∀ x, sdot v1 x = r * sdot v2 x := by
    intro x
    show sdot (v2.map fun e => (e.1, r * e.2)) x = r * sdot v2 x
    clear hne hbig hs2 loop hl hl4
    induction v2 with
    | nil => simp
    | cons e v ih => simp [ih]; ring
  have hval : isRowDifferent v1 rhs1 v2 rhs2 EPS =
      if isZero s'.maxDiff EPS then 0 else
        if isZero (rhs1 - r * rhs2) EPS then 0 else
          if greaterThanVal (rhs1 - r * rhs2) 0 EPS then -1 else 1 := by
    unfold isRowDifferent
    rw [hl]
    simp only [hl2, hsr]
    have hz : isZero (0 : ℚ) EPS = true := by rw [isZero_iff, abs_zero]; exact he
    have hnl : lessThanVal r 0 EPS = false := by
      rw [Bool.eq_false_iff, ne_eq, lessThanVal_iff]; intro h; linarith
    rw [hz, hnl]
    simp
  rw [hval]
  refine ⟨?_, ?_, ?_⟩
  · split
    · simp
    · split
      · simp
      · split <;> simp
  · intro h x hx
    split at h
    · simp at h
    · split at h
      · simp at h
      · split at h
        · rename_i hg
          rw [greaterThanVal_iff] at hg
          rw [hdot] at hx
          have : r * rhs2 < r * sdot v2 x := by linarith
          exact lt_of_mul_lt_mul_left this hr.le
        · simp at h
  · intro h x hx
    split at h
    · simp at h
    · split at h
      · simp at h
      · rename_i hz
        split at h
        · simp at h
        · rename_i hg
          rw [greaterThanVal_iff] at hg
          rw [isZero_iff, abs_lt, not_and, not_lt] at hz
          rw [hdot]
          have := mul_le_mul_of_nonneg_left hx hr.le
          by_contra hcon
          rw [not_lt] at hcon
          have := hz (by linarith)
          linarith

/-- Non-vacuity of the theorems above, with every possible answer. -/
example :
    isRowDifferent [(0, 2), (3, 4)] 5 [(0, 1), (3, 2)] 2 (1/10^7) = -1 ∧
    isRowDifferent [(0, 2), (3, 4)] 3 [(0, 1), (3, 2)] 2 (1/10^7) = 1 ∧
    isRowDifferent [(0, 2), (3, 4)] 4 [(0, 1), (3, 2)] 2 (1/10^7) = 0 ∧
    isRowDifferent [(0, 2), (3, 5)] 4 [(0, 1), (3, 2)] 2 (1/10^7) = 2 ∧
    Sorted [(0, 2), (3, 4)] ∧ ¬ OppositeRhs (1/10^7) 4 2 := by
  refine ⟨by decide +kernel, by decide +kernel, by decide +kernel, by decide +kernel,
    by decide, ?_⟩
  unfold OppositeRhs defEps
  norm_num

/-- C09. A duplicate is reported exactly when some inspected cut compares as not different, and the
reported index is that of the *first* such cut; its comparison code is returned. -/
theorem howDuplicate_first (ortho : SVec → SVec → ℚ) (cuts : List RowCut) (tmp : RowCut)
    (start : ℕ) (MIN_ORTHO EPS : ℚ) :
    let R := howDuplicate ortho cuts tmp start MIN_ORTHO EPS
    let cmp : RowCut → ℤ := fun c => isRowDifferent c.row c.lb tmp.row tmp.lb EPS
    (R.dupIndex = none → R.code = 0 ∧
      ∀ k, (h : k < cuts.length) → start ≤ k → cmp cuts[k] = 2) ∧
    (∀ i, R.dupIndex = some i → start ≤ i ∧ ∃ h : i < cuts.length,
      cmp cuts[i] = R.code ∧ R.code ≠ 2 ∧
      ∀ k, (h : k < cuts.length) → start ≤ k → k < i → cmp cuts[k] = 2) := by
  intro R cmp
  have gen : ∀ (cs : List RowCut) (i : ℕ) (mi : Option ℕ) (mo : ℚ),
      let R := howDupLoop ortho MIN_ORTHO EPS tmp i cs mi mo
      (R.dupIndex = none → R.code = 0 ∧ ∀ k, (h : k < cs.length) → cmp cs[k] = 2) ∧
      (∀ j, R.dupIndex = some j → i ≤ j ∧ ∃ h : j - i < cs.length,
        cmp cs[j - i] = R.code ∧ R.code ≠ 2 ∧ ∀ k, (h : k < cs.length) → k < j - i → cmp cs[k] = 2)
      := by
    intro cs
    induction cs with
    | nil => intro i mi mo; simp [howDupLoop]
    | cons c cs ih =>
      intro i mi mo
      simp only [howDupLoop]
      by_cases hd : isRowDifferent c.row c.lb tmp.row tmp.lb EPS ≠ 2
      · rw [if_pos hd]
        refine ⟨by simp, ?_⟩
        intro j hj
        simp only [Option.some.injEq] at hj
        subst hj
        simp [cmp]
        exact hd
      · rw [if_neg hd]
        rw [not_not] at hd
        have := ih (i + 1) (if (decide (MIN_ORTHO > 0) && decide (ortho tmp.row c.row < mo)) = true
          then some i else mi) (if (decide (MIN_ORTHO > 0) && decide (ortho tmp.row c.row < mo)) = true
          then ortho tmp.row c.row else mo)
        obtain ⟨g1, g2⟩ := this
        constructor
        · intro hn
          obtain ⟨h1, h2⟩ := g1 hn
          refine ⟨h1, ?_⟩
          intro k hk
          cases k with
          | zero => exact hd
          | succ k => simpa using h2 k (by simpa using hk)
        · intro j hj
          obtain ⟨h1, h2, h3, h4, h5⟩ := g2 j hj
          refine ⟨by omega, by simp; omega, ?_, h4, ?_⟩
          · have : j - i = (j - (i + 1)) + 1 := by omega
            simp only [this, List.getElem_cons_succ]
            exact h3
          · intro k hk hkj
            cases k with
            | zero => exact hd
            | succ k => simpa using h5 k (by simpa using hk) (by omega)
  have := gen (cuts.drop start) start none 2
  obtain ⟨g1, g2⟩ := this
  constructor
  · intro hn
    obtain ⟨h1, h2⟩ := g1 hn
    refine ⟨h1, ?_⟩
    intro k hk hsk
    have := h2 (k - start) (by simp; omega)
    rw [List.getElem_drop] at this
    have e : start + (k - start) = k := by omega
    simpa only [e] using this
  · intro i hi
    obtain ⟨h1, h2, h3, h4, h5⟩ := g2 i hi
    have h2' := h2
    simp only [List.length_drop] at h2'
    refine ⟨h1, by omega, ?_, h4, ?_⟩
    · rw [List.getElem_drop] at h3
      have e : start + (i - start) = i := by omega
      simp only [e] at h3
      exact h3
    · intro k hk hsk hki
      have := h5 (k - start) (by simp; omega) (by omega)
      rw [List.getElem_drop] at this
      have e : start + (k - start) = k := by omega
      simpa only [e] using this

example : (howDuplicate (fun _ _ => 1) [⟨[(0, 1)], 1⟩, ⟨[(1, 1)], 1⟩, ⟨[(1, 2)], 2⟩]
    ⟨[(1, 1)], 1⟩ 0 0 (1/10^7)).dupIndex = some 1 := by decide +kernel

end VPC
