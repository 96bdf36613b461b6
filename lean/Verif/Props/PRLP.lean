import Verif.Model.PRLP
import Verif.Props.RowDiff
import Verif.Props.NBCut

/-! # C10 (deduplication), C47 (aborts) and the meaning of the point-ray LP (`PRLP::setup`) -/
namespace VPC
open Finset

/-! ## Specification -/

/-- `α` satisfies the (scaled) row `r` of the collection. -/
def RowOK (scale : ℚ) (α : Vec) (r : PRow) : Prop := r.rhs * scale ≤ sdot r.vec α

/-- Well-formed collection: right-hand sides are exactly zero (rays) or clearly nonzero after
scaling (points); no singleton ray has a negligible coefficient; indices are columns. -/
structure WellFormed (scale : ℚ) (numCols : ℕ) (rows : List PRow) : Prop where
  rhs : ∀ r ∈ rows, r.rhs = 0 ∨ defEps ≤ |r.rhs * scale|
  sing : ∀ r ∈ rows, ∀ j c, r.vec = [(j, c)] → r.rhs = 0 → defEps ≤ |c|
  idx : ∀ r ∈ rows, ∀ e ∈ r.vec, e.1 < numCols

instance (scale : ℚ) (α : Vec) (r : PRow) : Decidable (RowOK scale α r) := by
  unfold RowOK; infer_instance

/-! ## The duplicate loops -/

theorem dupInner_rows (isP : Bool) (EPS : ℚ) (r1 : PRow) (l : List (PRow × Bool)) :
    (dupInner isP EPS r1 l).2.map (·.1) = l.map (·.1) := by
  induction l with
  | nil => rfl
  | cons p t ih =>
    obtain ⟨r2, f⟩ := p
    cases f
    · simp only [dupInner]
      split
      · rfl
      · split
        · simpa using ih
        · split
          · rfl
          · split
            · rfl
            · simpa using ih
    · simpa [dupInner] using ih

theorem dupLoop_rows (isP : Bool) (EPS : ℚ) (rs : List PRow) (acc : List (PRow × Bool)) :
    (dupLoop isP EPS rs acc).map (·.1) = (acc.map (·.1)).reverse ++ rs := by
  induction rs generalizing acc with
  | nil => simp [dupLoop]
  | cons r rs ih =>
    simp only [dupLoop]
    split
    · rw [ih]; simp
    · rw [ih]; simp [dupInner_rows]

theorem retained_sublist (isP : Bool) (EPS : ℚ) (rows : List PRow) :
    (retained isP EPS rows).Sublist rows := by
  have h := dupLoop_rows isP EPS rows []
  simp only [List.map_nil, List.reverse_nil, List.nil_append] at h
  unfold retained
  conv_rhs => rw [← h]
  exact List.filter_sublist.map _

theorem dupInner_noReplace (isP : Bool) (EPS : ℚ) (r1 : PRow) (l : List (PRow × Bool))
    (hno : ∀ p ∈ l, (isP = true → rhsLineUp r1 p.1 = true) →
      isRowDifferent r1.vec r1.rhs p.1.vec p.1.rhs EPS ≠ -1) :
    (dupInner isP EPS r1 l).2 = l ∧
    ((dupInner isP EPS r1 l).1 = true → ∃ r2, (r2, false) ∈ l ∧
      (isP = true → rhsLineUp r1 r2 = true) ∧
      (isRowDifferent r1.vec r1.rhs r2.vec r2.rhs EPS = 0 ∨
        isRowDifferent r1.vec r1.rhs r2.vec r2.rhs EPS = 1)) := by
  induction l with
  | nil => simp [dupInner]
  | cons p t ih =>
    obtain ⟨r2, f⟩ := p
    have iht := ih (fun q hq => hno q (by simp [hq]))
    have h0 := hno (r2, f) (by simp)
    simp only at h0
    cases f
    · simp only [dupInner]
      split
      · simp
      · split
        · refine ⟨by simp [iht.1], fun h => ?_⟩
          obtain ⟨r3, h3, h4⟩ := iht.2 h
          exact ⟨r3, by simp [h3], h4⟩
        · rename_i hl
          have h0 := h0 (by intro hp; subst hp; simpa using hl)
          rw [if_neg h0]
          split
          · rename_i h2
            refine ⟨rfl, fun _ => ⟨r2, by simp, ?_, ?_⟩⟩
            · intro hp; subst hp; simpa using hl
            · rcases isRowDifferent_range r1.vec r2.vec r1.rhs r2.rhs EPS with h | h | h | h
              · exact absurd h h0
              · exact Or.inl h
              · exact Or.inr h
              · exact absurd h h2
          · refine ⟨by simp [iht.1], fun h => ?_⟩
            obtain ⟨r3, h3, h4⟩ := iht.2 h
            exact ⟨r3, by simp [h3], h4⟩
    · simp only [dupInner]
      refine ⟨by simp [iht.1], fun h => ?_⟩
      obtain ⟨r3, h3, h4⟩ := iht.2 h
      exact ⟨r3, by simp [h3], h4⟩

/-- The relation the removal of row `r` in favour of `r2` rests on. -/
def DupOf (isP : Bool) (EPS : ℚ) (r r2 : PRow) : Prop :=
  (isP = true → rhsLineUp r r2 = true) ∧
  (isRowDifferent r.vec r.rhs r2.vec r2.rhs EPS = 0 ∨
    isRowDifferent r.vec r.rhs r2.vec r2.rhs EPS = 1)

theorem dupLoop_noReplace (isP : Bool) (EPS : ℚ) (rs : List PRow) (acc : List (PRow × Bool))
    (hno : ∀ r ∈ acc.map (·.1) ++ rs, ∀ r2 ∈ acc.map (·.1) ++ rs,
      (isP = true → rhsLineUp r r2 = true) → isRowDifferent r.vec r.rhs r2.vec r2.rhs EPS ≠ -1)
    (hacc : ∀ r, (r, true) ∈ acc → ∃ r2, (r2, false) ∈ acc ∧ DupOf isP EPS r r2) :
    ∀ r, (r, true) ∈ dupLoop isP EPS rs acc →
      ∃ r2, (r2, false) ∈ dupLoop isP EPS rs acc ∧ DupOf isP EPS r r2 := by
  induction rs generalizing acc with
  | nil => simpa [dupLoop] using hacc
  | cons r rs ih =>
    simp only [dupLoop]
    split
    · apply ih
      · intro a ha b hb
        apply hno <;> simp_all <;> tauto
      · intro a ha
        simp only [List.mem_cons, Prod.mk.injEq, Bool.true_eq_false, and_false, false_or] at ha
        obtain ⟨r2, h2, h3⟩ := hacc a ha
        exact ⟨r2, by simp [h2], h3⟩
    · have hI := dupInner_noReplace isP EPS r acc (by
        intro p hp
        apply hno
        · simp
        · simp only [List.mem_append, List.mem_map]; exact Or.inl ⟨p, hp, rfl⟩)
      rw [hI.1]
      apply ih
      · intro a ha b hb
        apply hno <;> simp_all <;> tauto
      · intro a ha
        simp only [List.mem_cons, Prod.mk.injEq] at ha
        rcases ha with ⟨rfl, ht⟩ | ha
        · obtain ⟨r2, h2, h3⟩ := hI.2 ht.symm
          exact ⟨r2, by simp [h2], h3⟩
        · obtain ⟨r2, h2, h3⟩ := hacc a ha
          exact ⟨r2, by simp [h2], h3⟩

/-- C10 (partial). As long as no comparison of rows with right-hand sides of the same sign answers
"the new row is stronger" (`-1`), every row
removed from the points (or rays) has a *retained* row that the comparison found equal to it or at
least as strong. -/
theorem dedup_partial (isP : Bool) (EPS : ℚ) (rows : List PRow)
    (hno : ∀ r ∈ rows, ∀ r2 ∈ rows, (isP = true → rhsLineUp r r2 = true) →
      isRowDifferent r.vec r.rhs r2.vec r2.rhs EPS ≠ -1) :
    ∀ r ∈ rows, r ∈ retained isP EPS rows ∨
      ∃ r2 ∈ retained isP EPS rows, DupOf isP EPS r r2 := by
  intro r hr
  have hrows := dupLoop_rows isP EPS rows []
  simp only [List.map_nil, List.reverse_nil, List.nil_append] at hrows
  have hmem : r ∈ (dupLoop isP EPS rows []).map (·.1) := by rw [hrows]; exact hr
  obtain ⟨⟨r', f⟩, hp, rfl⟩ := List.mem_map.1 hmem
  have hret : ∀ a, (a, false) ∈ dupLoop isP EPS rows [] → a ∈ retained isP EPS rows := by
    intro a ha
    unfold retained
    exact List.mem_map.2 ⟨(a, false), List.mem_filter.2 ⟨ha, rfl⟩, rfl⟩
  cases f
  · exact Or.inl (hret _ hp)
  · obtain ⟨r2, h2, h3⟩ := dupLoop_noReplace isP EPS rows [] (by simpa using hno) (by simp) r' hp
    exact Or.inr ⟨r2, hret _ h2, h3⟩

/-- Rays (right-hand side 0) never trigger a replacement: equal up to scaling or different. -/
theorem isRowDifferent_rays (v1 v2 : SVec) (EPS : ℚ) (he : 0 < EPS) :
    isRowDifferent v1 0 v2 0 EPS = 0 ∨ isRowDifferent v1 0 v2 0 EPS = 2 := by
  unfold isRowDifferent
  cases rdLoop EPS v1 v2 (rdInit EPS 0 0) with
  | none => simp
  | some s =>
    simp only [mul_zero, sub_zero]
    have : isZero (0 : ℚ) EPS = true := by rw [isZero_iff]; simpa using he
    rw [this]
    cases isZero s.maxDiff EPS <;> cases isZero s.maxDiffCoeff EPS <;>
      cases lessThanVal s.ratioCoeff 0 EPS <;> simp

/-- C10 for rays, unconditional: every removed ray has a retained ray found parallel to it. -/
theorem dedup_rays (EPS : ℚ) (he : 0 < EPS) (rows : List PRow) (h0 : ∀ r ∈ rows, r.rhs = 0) :
    ∀ r ∈ rows, r ∈ retained false EPS rows ∨
      ∃ r2 ∈ retained false EPS rows, isRowDifferent r.vec 0 r2.vec 0 EPS = 0 := by
  intro r hr
  have hno : ∀ r ∈ rows, ∀ r2 ∈ rows, isRowDifferent r.vec r.rhs r2.vec r2.rhs EPS ≠ -1 := by
    intro a ha b hb
    rw [h0 a ha, h0 b hb]
    rcases isRowDifferent_rays a.vec b.vec EPS he with h | h <;> rw [h] <;> decide
  rcases dedup_partial false EPS rows (fun a ha b hb _ => hno a ha b hb) r hr with h | ⟨r2, h2, h3, h4⟩
  · exact Or.inl h
  · refine Or.inr ⟨r2, h2, ?_⟩
    have hr2 := (retained_sublist false EPS rows).subset h2
    rw [h0 r hr, h0 r2 hr2] at h4
    rcases isRowDifferent_rays r.vec r2.vec EPS he with h | h
    · exact h
    · rw [h] at h4; rcases h4 with h4 | h4 <;> cases h4

/-- C10 is violated: when the second of two parallel points is the stronger row, *both* rows are
dropped, so the point-ray LP accepts an inequality that cuts off the point `(1,1)`. -/
theorem dedup_drops_both :
    let r1 : PRow := ⟨[(0, 2), (1, 2)], 1, 0⟩
    let r2 : PRow := ⟨[(0, 1), (1, 1)], 1, 0⟩
    retained true (1/1000) [r1, r2] = [] ∧ retained true (1/1000) [r2, r1] = [r2] ∧
    ¬ RowOK 1 (fun _ => 0) r2 := by
  decide +kernel

/-- Non-vacuity of `dedup_partial` / `dedup_rays`: a removed and a retained ray. -/
example : retained false (1/1000) [⟨[(0, 1), (1, 2)], 0, 3⟩, ⟨[(0, 2), (1, 4)], 0, 3⟩,
    ⟨[(0, 2), (1, 5)], 0, 3⟩] = [⟨[(0, 1), (1, 2)], 0, 3⟩, ⟨[(0, 2), (1, 5)], 0, 3⟩] := by
  decide +kernel

/-! ## How much a removed row can be violated -/

theorem sdot_eq_sum (n : ℕ) (v : SVec) (x : Vec) (hv : ∀ e ∈ v, e.1 < n) :
    sdot v x = ∑ i ∈ range n, scoef v i * x i := by
  induction v with
  | nil => simp
  | cons e v ih =>
    rw [sdot_cons, ih (fun e' he' => hv e' (by simp [he']))]
    have : ∀ i ∈ range n, scoef (e :: v) i * x i
        = (if i = e.1 then e.2 * x e.1 else 0) + scoef v i * x i := by
      intro i _
      rw [scoef_cons]
      by_cases h : e.1 = i
      · subst h; simp; ring
      · rw [if_neg h, if_neg (fun h' => h h'.symm)]; ring
    rw [sum_congr rfl this, sum_add_distrib, sum_ite_eq', if_pos (mem_range.2 (hv e (by simp)))]

/-- Rows that agree up to a factor `ρ ≥ 0` have nearly proportional activities. -/
theorem agree_activity (EPS ρ : ℚ) (n : ℕ) (v1 v2 : SVec) (x : Vec) (hρ : 0 ≤ ρ) (he : 0 ≤ EPS)
    (h1 : ∀ e ∈ v1, e.1 < n) (h2 : ∀ e ∈ v2, e.1 < n) (ha : AgreeUpTo EPS ρ v1 v2) :
    |sdot v1 x - ρ * sdot v2 x| ≤ EPS * (1 + ρ) * ∑ i ∈ range n, |x i| := by
  rw [sdot_eq_sum n v1 x h1, sdot_eq_sum n v2 x h2, mul_sum, ← sum_sub_distrib, mul_sum]
  refine (abs_sum_le_sum_abs _ _).trans (sum_le_sum fun i _ => ?_)
  have : scoef v1 i * x i - ρ * (scoef v2 i * x i) = (scoef v1 i - ρ * scoef v2 i) * x i := by ring
  rw [this, abs_mul]
  apply mul_le_mul_of_nonneg_right _ (abs_nonneg _)
  rcases ha i with ⟨h3, h4⟩ | ⟨_, _, h5⟩
  · calc |scoef v1 i - ρ * scoef v2 i| ≤ |scoef v1 i| + |ρ * scoef v2 i| := abs_sub _ _
      _ ≤ EPS + ρ * EPS := by
        rw [abs_mul, abs_of_nonneg hρ]
        exact add_le_add h3.le (mul_le_mul_of_nonneg_left h4.le hρ)
      _ = EPS * (1 + ρ) := by ring
  · nlinarith [mul_nonneg he hρ]

/-- C10 for rays, numeric form: a removed ray row is violated by at most `EPS (1+ρ) ‖α‖₁` by any
`α` satisfying the retained rows, where `ρ` is the scaling factor between the two rays. -/
theorem dedup_rays_error (EPS : ℚ) (he : 0 < EPS) (n : ℕ) (rows : List PRow)
    (h0 : ∀ r ∈ rows, r.rhs = 0) (hs : ∀ r ∈ rows, Sorted r.vec)
    (hn : ∀ r ∈ rows, ∀ e ∈ r.vec, e.1 < n) (α : Vec)
    (hα : ∀ r ∈ retained false EPS rows, 0 ≤ sdot r.vec α) :
    ∀ r ∈ rows, 0 ≤ sdot r.vec α ∨ ∃ r2 ∈ rows, ∃ ρ, AgreeUpTo EPS ρ r.vec r2.vec ∧
      (0 ≤ ρ → - (EPS * (1 + ρ) * ∑ i ∈ range n, |α i|) ≤ sdot r.vec α) := by
  intro r hr
  rcases dedup_rays EPS he rows h0 r hr with h | ⟨r2, h2, h3⟩
  · exact Or.inl (hα r h)
  · have hr2 := (retained_sublist false EPS rows).subset h2
    have hopp : ¬ OppositeRhs EPS 0 0 := by
      rintro ⟨h, _⟩; simp at h; linarith
    obtain ⟨ρ, hρ, _⟩ := isRowDifferent_zero_partial r.vec r2.vec 0 0 EPS he (hs r hr) (hs r2 hr2)
      hopp h3
    refine Or.inr ⟨r2, hr2, ρ, hρ, fun hpos => ?_⟩
    have := agree_activity EPS ρ n r.vec r2.vec α hpos he.le (hn r hr) (hn r2 hr2) hρ
    rw [abs_le] at this
    have h4 := mul_nonneg hpos (hα r2 h2)
    linarith [this.1]

end VPC
