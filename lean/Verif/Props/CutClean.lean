import Verif.Model.CutHelper
import Mathlib.Tactic.Linarith
import Mathlib.Tactic.NormNum
import Mathlib.Tactic.Ring
import Mathlib.Tactic.Positivity

/-! # C07, C08: cleaning a cut -/
namespace VPC

/-! ## Specification vocabulary -/

/-- `x` respects the column bounds. -/
def InBox (l u x : Vec) : Prop := ∀ i, l i ≤ x i ∧ x i ≤ u i

/-- Total magnitude of `x` over the entries of a row whose coefficient is below `EPS`. -/
def tinyMass (EPS : ℚ) (row : SVec) (x : Vec) : ℚ :=
  ((row.filter fun e => decide (|e.2| < EPS)).map fun e => |x e.1|).sum

/-! ## Lemmas -/

theorem foldl_sub_eq {α : Type} (f : α → ℚ) (l : List α) (b : ℚ) :
    l.foldl (fun r s => r - f s) b = b - (l.map f).sum := by
  induction l generalizing b with
  | nil => simp
  | cons a l ih => simp [ih]; ring

/-- Case analysis of one loop iteration. -/
theorem rscStep_cases (l u obj : Vec) (EPS EC : ℚ) (e : ℕ × ℚ) :
    (|e.2| < EPS ∧ |(|e.2| * obj e.1)| < EPS ∧ rscStep l u obj EPS EC e = (none, 0)) ∨
    (¬ (|e.2| < EPS ∧ |(|e.2| * obj e.1)| < EPS) ∧
      ((|e.2| ≤ EC ∧ e.2 < 0 ∧ isNegInfinity (l e.1) = false ∧
          rscStep l u obj EPS EC e = (none, e.2 * l e.1)) ∨
       (|e.2| ≤ EC ∧ 0 < e.2 ∧ isInfinity (u e.1) = false ∧
          rscStep l u obj EPS EC e = (none, e.2 * u e.1)) ∨
       (¬ (|e.2| ≤ EC ∧ e.2 < 0 ∧ isNegInfinity (l e.1) = false) ∧
        ¬ (|e.2| ≤ EC ∧ 0 < e.2 ∧ isInfinity (u e.1) = false) ∧
          rscStep l u obj EPS EC e = (some e, 0)))) := by
  unfold rscStep
  simp only
  split
  · rename_i h
    simp only [Bool.and_eq_true, isZero_iff, abs_abs] at h
    exact Or.inl ⟨h.1, h.2, rfl⟩
  · rename_i h
    simp only [Bool.and_eq_true, isZero_iff, abs_abs] at h
    refine Or.inr ⟨h, ?_⟩
    split
    · rename_i h1
      split
      · rename_i h2
        simp only [Bool.and_eq_true, decide_eq_true_eq, Bool.not_eq_true'] at h2
        exact Or.inl ⟨h1, h2.1, h2.2, rfl⟩
      · rename_i h2
        simp only [Bool.and_eq_true, decide_eq_true_eq, Bool.not_eq_true'] at h2
        split
        · rename_i h3
          simp only [Bool.and_eq_true, decide_eq_true_eq, Bool.not_eq_true'] at h3
          exact Or.inr (Or.inl ⟨h1, h3.1, h3.2, rfl⟩)
        · rename_i h3
          simp only [Bool.and_eq_true, decide_eq_true_eq, Bool.not_eq_true'] at h3
          exact Or.inr (Or.inr ⟨fun h => h2 h.2, fun h => h3 h.2, rfl⟩)
    · rename_i h1
      exact Or.inr (Or.inr ⟨fun h => h1 h.1, fun h => h1 h.1, rfl⟩)

theorem rscStep_bound {l u obj x : Vec} {EPS EC : ℚ} (hx : InBox l u x) (e : ℕ × ℚ) :
    e.2 * x e.1 ≤ (match (rscStep l u obj EPS EC e).1 with | none => 0 | some e' => e'.2 * x e'.1)
      + (rscStep l u obj EPS EC e).2 + (if |e.2| < EPS then EPS * |x e.1| else 0) := by
  obtain ⟨hl, hu⟩ := hx e.1
  have hnn : (0 : ℚ) ≤ (if |e.2| < EPS then EPS * |x e.1| else 0) := by
    split
    · rename_i h
      exact mul_nonneg (le_trans (abs_nonneg _) h.le) (abs_nonneg _)
    · exact le_refl _
  rcases rscStep_cases l u obj EPS EC e with ⟨h1, -, hr⟩ | ⟨-, ⟨-, h1, -, hr⟩ | ⟨-, h1, -, hr⟩ | ⟨-, -, hr⟩⟩
  · rw [hr, if_pos h1]
    have h3 : e.2 * x e.1 ≤ |e.2| * |x e.1| := by rw [← abs_mul]; exact le_abs_self _
    have h2 : |e.2| * |x e.1| ≤ EPS * |x e.1| := mul_le_mul_of_nonneg_right h1.le (abs_nonneg _)
    simp only; linarith
  · rw [hr]
    have := mul_le_mul_of_nonpos_left hl h1.le
    simp only; linarith
  · rw [hr]
    have := mul_le_mul_of_nonneg_left hu (le_of_lt h1)
    simp only; linarith
  · rw [hr]; simp only; linarith

theorem rsc_row_bound {l u obj x : Vec} {EPS EC : ℚ} (hx : InBox l u x) (row : SVec) :
    sdot row x ≤ sdot ((row.map (rscStep l u obj EPS EC)).filterMap (·.1)) x
      + ((row.map (rscStep l u obj EPS EC)).map (·.2)).sum + EPS * tinyMass EPS row x := by
  induction row with
  | nil => simp [tinyMass]
  | cons e row ih =>
    have hb := rscStep_bound (obj := obj) (EPS := EPS) (EC := EC) hx e
    have ht : EPS * tinyMass EPS (e :: row) x
        = (if |e.2| < EPS then EPS * |x e.1| else 0) + EPS * tinyMass EPS row x := by
      unfold tinyMass
      by_cases h : |e.2| < EPS
      · simp [h, mul_add]
      · simp [h]
    rw [ht]
    simp only [List.map_cons, List.sum_cons, sdot_cons, List.filterMap_cons]
    cases h : (rscStep l u obj EPS EC e).1 with
    | none => rw [h] at hb; simp only at hb ⊢; linarith
    | some e' => rw [h] at hb; simp only [sdot_cons] at hb ⊢; linarith

/-! ## C07 -/

/-- C07 (with the exact loss). If `x` lies in the column bounds and satisfies the cut, then it
satisfies the cleaned cut up to `EPS · (mass of x on coefficients below EPS)` for the coefficients
thrown away outright, plus at most `EPS` for rounding the right-hand side to zero. -/
theorem removeSmall_valid_up_to_eps (l u obj x : Vec) (EPS EC : ℚ) (he : 0 ≤ EPS) (cut : RowCut)
    (hx : InBox l u x) (hs : cut.Sat x) :
    (removeSmallCoefficients l u obj EPS EC cut).lb
      ≤ sdot (removeSmallCoefficients l u obj EPS EC cut).row x + EPS * tinyMass EPS cut.row x + EPS
      := by
  have hb := rsc_row_bound (obj := obj) (EPS := EPS) (EC := EC) hx cut.row
  unfold RowCut.Sat at hs
  unfold removeSmallCoefficients
  simp only [foldl_sub_eq (fun s : Option (ℕ × ℚ) × ℚ => s.2)]
  split
  · rename_i h
    rw [isZero_iff, abs_lt] at h
    linarith
  · linarith

/-- C07 (exact). When no coefficient is below `EPS` in absolute value and the adjusted right-hand
side is not in `(-EPS, 0)`, cleaning only weakens the cut: every point of the box satisfying the
cut satisfies the cleaned cut. Coefficients in `[EPS, EPS_COEFF]` *are* dropped here. -/
theorem removeSmall_valid_partial (l u obj x : Vec) (EPS EC : ℚ) (cut : RowCut)
    (hx : InBox l u x) (hs : cut.Sat x)
    (htiny : ∀ e ∈ cut.row, EPS ≤ |e.2|)
    (hrhs : let rhs := cut.lb - ((cut.row.map (rscStep l u obj EPS EC)).map (·.2)).sum
            ¬ (-EPS < rhs ∧ rhs < 0)) :
    (removeSmallCoefficients l u obj EPS EC cut).Sat x := by
  have hb := rsc_row_bound (obj := obj) (EPS := EPS) (EC := EC) hx cut.row
  have ht : tinyMass EPS cut.row x = 0 := by
    unfold tinyMass
    rw [List.filter_eq_nil_iff.2]
    · simp
    · intro e he; simpa using htiny e he
  rw [ht] at hb
  unfold RowCut.Sat at hs ⊢
  unfold removeSmallCoefficients
  simp only [foldl_sub_eq (fun s : Option (ℕ × ℚ) × ℚ => s.2)]
  simp only [not_and, not_lt] at hrhs
  split
  · rename_i h
    rw [isZero_iff, abs_lt] at h
    have := hrhs h.1
    linarith
  · linarith

/-- The hypotheses of the two theorems above are met by a cut from which a coefficient really is
dropped: `2x₀ + (1/1000) x₁ ≥ 1`, bounds `[0,3]`, `EPS = 1e-6`, `EPS_COEFF = 1/100`. -/
example :
    let l : Vec := fun _ => 0
    let u : Vec := fun _ => 3
    let x : Vec := fun i => if i = 0 then 1/2 else 3
    let cut : RowCut := ⟨[(0, 2), (1, 1/1000)], 1⟩
    InBox l u x ∧ cut.Sat x ∧ (∀ e ∈ cut.row, (1/10^6 : ℚ) ≤ |e.2|) ∧
      (removeSmallCoefficients l u (fun _ => 0) (1/10^6) (1/100) cut) = ⟨[(0, 2)], 1 - 3/1000⟩ := by
  refine ⟨?_, ?_, ?_, by decide +kernel⟩
  · intro i; dsimp only; constructor <;> split <;> norm_num
  · unfold RowCut.Sat; norm_num [sdot]
  · intro e he; simp only [List.mem_cons, List.not_mem_nil, or_false] at he
    rcases he with rfl | rfl <;> norm_num

/-- C07 is violated in general: a coefficient below `EPS` (and with small objective product) is
thrown away with no adjustment, so a point of the box satisfying the cut can violate the cleaned
cut: `x₀ + 2⁻³⁰ x₁ ≥ 1` at `x = (0, 2³⁰)`. -/
theorem removeSmall_can_cut_off :
    ∃ (l u obj x : Vec) (EPS EC : ℚ) (cut : RowCut), 0 < EPS ∧ InBox l u x ∧ cut.Sat x ∧
      ¬ (removeSmallCoefficients l u obj EPS EC cut).Sat x := by
  refine ⟨fun _ => 0, fun _ => 2^30, fun _ => 0, fun i => if i = 0 then 0 else 2^30, 1/2^20,
    1/2^10, ⟨[(0, 1), (1, 1/2^30)], 1⟩, by norm_num, ?_, ?_, ?_⟩
  · intro i; dsimp only; constructor <;> split <;> norm_num
  · unfold RowCut.Sat; norm_num [sdot]
  · unfold RowCut.Sat; decide +kernel

/-- C07: exactly which entries survive, in order and with unchanged coefficients. An entry is
removed iff it is tiny (also after weighting by the objective), or it is small and the bound needed
to relax it is finite. -/
theorem removeSmall_retained_iff (l u obj : Vec) (EPS EC : ℚ) (cut : RowCut) :
    (removeSmallCoefficients l u obj EPS EC cut).row
      = cut.row.filter fun e =>
          !( (decide (|e.2| < EPS) && decide (|(|e.2| * obj e.1)| < EPS)) ||
             (decide (|e.2| ≤ EC) &&
               ((decide (e.2 < 0) && !(isNegInfinity (l e.1))) ||
                (decide (0 < e.2) && !(isInfinity (u e.1)))))) := by
  unfold removeSmallCoefficients
  simp only [List.filterMap_map]
  rw [← List.filterMap_eq_filter]
  apply List.filterMap_congr
  intro e _
  simp only [Function.comp, Option.guard]
  rcases rscStep_cases l u obj EPS EC e with ⟨h1, h2, hr⟩ |
    ⟨hn, ⟨h1, h2, h3, hr⟩ | ⟨h1, h2, h3, hr⟩ | ⟨h1, h2, hr⟩⟩
  · rw [hr, if_neg]
    simp only [decide_eq_true h1, decide_eq_true h2]; simp
  · rw [hr, if_neg]
    simp only [decide_eq_true h1, decide_eq_true h2, h3]; simp
  · rw [hr, if_neg]
    simp only [decide_eq_true h1, decide_eq_true h2, h3]; simp
  · rw [hr, if_pos]
    rw [Bool.not_eq_true', Bool.eq_false_iff]
    simp only [ne_eq, Bool.or_eq_true, Bool.and_eq_true, decide_eq_true_eq, Bool.not_eq_true']
    rintro (h | ⟨h, ⟨h', h''⟩ | ⟨h', h''⟩⟩)
    · exact hn h
    · exact h1 ⟨h, h', h''⟩
    · exact h2 ⟨h, h', h''⟩

/-- C07: the right-hand side adjustment is the sum of the removed coefficients times the bound
used for each; it is rounded to zero only within `EPS` of zero. -/
theorem removeSmall_rhs (l u obj : Vec) (EPS EC : ℚ) (cut : RowCut) :
    let adj : ℕ × ℚ → ℚ := fun e =>
      if |e.2| < EPS ∧ |(|e.2| * obj e.1)| < EPS then 0
      else if |e.2| ≤ EC ∧ e.2 < 0 ∧ isNegInfinity (l e.1) = false then e.2 * l e.1
      else if |e.2| ≤ EC ∧ 0 < e.2 ∧ isInfinity (u e.1) = false then e.2 * u e.1
      else 0
    let rhs := cut.lb - (cut.row.map adj).sum
    (removeSmallCoefficients l u obj EPS EC cut).lb = if |rhs| < EPS then 0 else rhs := by
  intro adj rhs
  have : (cut.row.map (rscStep l u obj EPS EC)).map (·.2) = cut.row.map adj := by
    rw [List.map_map]
    apply List.map_congr_left
    intro e _
    simp only [adj, Function.comp]
    rcases rscStep_cases l u obj EPS EC e with ⟨h1, h2, hr⟩ |
      ⟨hn, ⟨h1, h2, h3, hr⟩ | ⟨h1, h2, h3, hr⟩ | ⟨h1, h2, hr⟩⟩
    · rw [hr, if_pos ⟨h1, h2⟩]
    · rw [hr, if_neg hn, if_pos ⟨h1, h2, h3⟩]
    · rw [hr, if_neg hn, if_neg (fun h => lt_asymm h.2.1 h2), if_pos ⟨h1, h2, h3⟩]
    · rw [hr, if_neg hn, if_neg h1, if_neg h2]
  unfold removeSmallCoefficients
  simp only [foldl_sub_eq (fun s : Option (ℕ × ℚ) × ℚ => s.2), this]
  simp only [isZero, isVal, sub_zero, decide_eq_true_eq]
  rfl

/-! ## C08 -/

theorem minMaxStep_zero {EPS : ℚ} {acc : ℚ × ℚ} {e : ℕ × ℚ} (h : isZero |e.2| EPS = true) :
    minMaxStep EPS acc e = acc := by simp only [minMaxStep]; rw [if_pos h]

theorem minMaxStep_nonzero {EPS : ℚ} {acc : ℚ × ℚ} {e : ℕ × ℚ} (h : ¬ isZero |e.2| EPS = true) :
    minMaxStep EPS acc e = (if acc.1 > |e.2| || isZero acc.1 EPS then |e.2| else acc.1,
      if acc.2 < |e.2| then |e.2| else acc.2) := by simp only [minMaxStep]; rw [if_neg h]

theorem minMaxAbs_aux (EPS : ℚ) (row : SVec) (mn mx : ℚ) (hmn : mn = 0 ∨ EPS ≤ mn) (he : 0 < EPS) :
    let r := row.foldl (minMaxStep EPS) (mn, mx)
    (r.1 = 0 ∨ EPS ≤ r.1) ∧ mx ≤ r.2 ∧
    (∀ e ∈ row, EPS ≤ |e.2| → r.1 ≠ 0 ∧ r.1 ≤ |e.2| ∧ |e.2| ≤ r.2) ∧
    (mn ≠ 0 → r.1 ≠ 0 ∧ r.1 ≤ mn) ∧
    (r.1 = mn ∨ ∃ e ∈ row, |e.2| = r.1) ∧ (r.2 = mx ∨ ∃ e ∈ row, |e.2| = r.2) := by
  induction row generalizing mn mx with
  | nil => simp [hmn]
  | cons e row ih =>
    simp only [List.foldl_cons]
    by_cases h : isZero |e.2| EPS = true
    · rw [minMaxStep_zero h]
      have := ih mn mx hmn
      simp only at this ⊢
      obtain ⟨h1, h2, h3, h4, h5, h6⟩ := this
      refine ⟨h1, h2, ?_, h4, ?_, ?_⟩
      · intro e' he'
        rcases List.mem_cons.1 he' with rfl | he'
        · intro hc; rw [isZero_iff, abs_abs] at h; linarith
        · exact h3 e' he'
      · rcases h5 with h5 | ⟨e', he', h5⟩
        · exact Or.inl h5
        · exact Or.inr ⟨e', by simp [he'], h5⟩
      · rcases h6 with h6 | ⟨e', he', h6⟩
        · exact Or.inl h6
        · exact Or.inr ⟨e', by simp [he'], h6⟩
    · rw [minMaxStep_nonzero h]
      simp only [isZero_iff, abs_abs, not_lt] at h
      set mn' := (if (decide (mn > |e.2|) || isZero mn EPS) = true then |e.2| else mn) with hmn'
      set mx' := (if mx < |e.2| then |e.2| else mx) with hmx'
      have hm1 : EPS ≤ mn' ∧ mn' ≤ |e.2| ∧ (mn ≠ 0 → mn' ≤ mn) ∧ (mn' = mn ∨ |e.2| = mn') := by
        rw [hmn']
        split
        · rename_i hc
          simp only [gt_iff_lt, Bool.or_eq_true, decide_eq_true_eq, isZero_iff] at hc
          refine ⟨h, le_refl _, ?_, Or.inr rfl⟩
          intro hne
          rcases hc with hc | hc
          · exact hc.le
          · rcases hmn with h0 | h0
            · exact absurd h0 hne
            · exfalso; have := le_abs_self mn; linarith
        · rename_i hc
          simp only [gt_iff_lt, Bool.or_eq_true, decide_eq_true_eq, isZero_iff, not_or,
            not_lt] at hc
          refine ⟨?_, hc.1, fun _ => le_refl _, Or.inl rfl⟩
          rcases hmn with h0 | h0
          · rw [h0, abs_zero] at hc; linarith
          · exact h0
      have hm2 : mx ≤ mx' ∧ |e.2| ≤ mx' ∧ (mx' = mx ∨ |e.2| = mx') := by
        rw [hmx']
        split
        · rename_i hc; exact ⟨hc.le, le_refl _, Or.inr rfl⟩
        · rename_i hc; exact ⟨le_refl _, not_lt.1 hc, Or.inl rfl⟩
      have := ih mn' mx' (Or.inr hm1.1)
      simp only at this ⊢
      obtain ⟨h1, h2, h3, h4, h5, h6⟩ := this
      have hne : mn' ≠ 0 := by intro h0; rw [h0] at hm1; linarith [hm1.1]
      obtain ⟨h4a, h4b⟩ := h4 hne
      refine ⟨h1, le_trans hm2.1 h2, ?_, ?_, ?_, ?_⟩
      · intro e' he' hc
        rcases List.mem_cons.1 he' with rfl | he'
        · exact ⟨h4a, le_trans h4b hm1.2.1, le_trans hm2.2.1 h2⟩
        · exact h3 e' he' hc
      · intro hne'; exact ⟨h4a, le_trans h4b (hm1.2.2.1 hne')⟩
      · rcases h5 with h5 | ⟨e', he', h5⟩
        · rcases hm1.2.2.2 with h7 | h7
          · exact Or.inl (h5.trans h7)
          · exact Or.inr ⟨e, by simp, by rw [h7, h5]⟩
        · exact Or.inr ⟨e', by simp [he'], h5⟩
      · rcases h6 with h6 | ⟨e', he', h6⟩
        · rcases hm2.2.2 with h7 | h7
          · exact Or.inl (h6.trans h7)
          · exact Or.inr ⟨e, by simp, by rw [h7, h6]⟩
        · exact Or.inr ⟨e', by simp [he'], h6⟩

/-- What an accepted cut satisfies (specification for C08). -/
structure Accepted (norm : SVec → ℚ) (p : CleanParams) (s : CutSolver) (c : RowCut) : Prop where
  /-- small support: below the threshold, or below both the absolute and the relative maximum -/
  support : (c.row.length : ℚ) ≤ p.MIN_SUP_THRESH ∨
    ((c.row.length : ℚ) ≤ p.MAX_SUP_ABS ∧ (c.row.length : ℚ) ≤ p.MAX_SUP_REL * s.numCols)
  /-- if requested, the current LP solution violates the cut by enough, absolutely and relatively -/
  violated : p.checkViolation = true → 0 < p.MIN_VIOL_ABS → sdot c.row s.colSolution + p.MIN_VIOL_ABS ≤ c.lb
    ∧ sdot c.row s.colSolution + norm c.row * p.MIN_VIOL_REL ≤ c.lb
  /-- some coefficient is not negligible -/
  nonzero : ∃ e ∈ c.row, p.EPS ≤ |e.2|
  /-- any two non-negligible coefficients, and the right-hand side against any such coefficient,
  differ in magnitude by a factor of less than `max(1/EPS, MAX_DYN) + EPS` -/
  dynamism : ∀ e ∈ c.row, p.EPS ≤ |e.2| → ∀ a : ℚ, (a = |c.lb| ∨ ∃ e' ∈ c.row, p.EPS ≤ |e'.2| ∧ a = |e'.2|) →
    a < (max (1 / p.EPS) p.MAX_DYN + p.EPS) * |e.2|

/-- C08. A cut for which cleaning reports success satisfies every acceptance test. -/
theorem cleanCut_accepts_only_good (norm : SVec → ℚ) (p : CleanParams) (s : CutSolver)
    (cut : RowCut) (he : 0 < p.EPS) (h : (cleanCut norm p s cut).2 = none) :
    Accepted norm p s (cleanCut norm p s cut).1 := by
  unfold cleanCut at h ⊢
  simp only at h ⊢
  set c := removeSmallCoefficients s.colLower s.colUpper s.obj p.EPS p.EPS_COEFF cut with hc
  clear_value c
  by_cases hs : badSupport c.row.length s.numCols p.MIN_SUP_THRESH p.MAX_SUP_ABS p.MAX_SUP_REL = true
  · rw [if_pos hs] at h; cases h
  rw [if_neg hs] at h ⊢
  by_cases hv : (p.checkViolation && badViolation norm c s.colSolution p.MIN_VIOL_ABS p.MIN_VIOL_REL) = true
  · rw [if_pos hv] at h; cases h
  rw [if_neg hv] at h ⊢
  by_cases hd : badDynamism c p.MIN_ABS_COEFF p.MAX_ABS_COEFF
      (max (if p.EPS > 0 then 1 / p.EPS else p.MAX_DYN) p.MAX_DYN) p.EPS = true
  · rw [if_pos hd] at h; cases h
  rw [if_neg hd]
  simp only [gt_iff_lt, he, if_true] at hd
  have hmm := minMaxAbs_aux p.EPS c.row 0 0 (Or.inl rfl) he
  simp only at hmm
  rw [← minMaxAbs] at hmm
  unfold badDynamism at hd
  simp only [Bool.or_eq_true, not_or, isZero_iff, not_lt, Bool.not_eq_true] at hd
  obtain ⟨⟨hd1, hd2⟩, -⟩ := hd
  set mm := minMaxAbs p.EPS c.row with hmmdef
  obtain ⟨h1, h2, h3, -, h5, h6⟩ := hmm
  by_cases hm0 : mm.1 = 0
  · rw [if_pos hm0] at hd2; cases hd2
  rw [if_neg hm0] at hd2
  set M := (if |c.lb| > mm.2 then |c.lb| else mm.2) with hM
  have hM1 : |c.lb| ≤ M ∧ mm.2 ≤ M := by
    rw [hM]; split
    · rename_i hgt; exact ⟨le_refl _, hgt.le⟩
    · rename_i hgt; exact ⟨not_lt.1 hgt, le_refl _⟩
  have hmpos : 0 < mm.1 := by
    rcases h1 with h1 | h1
    · exact absurd h1 hm0
    · linarith
  have hdyn : M < (max (1 / p.EPS) p.MAX_DYN + p.EPS) * mm.1 := by
    have : ¬ (max (1 / p.EPS) p.MAX_DYN + p.EPS ≤ M / mm.1) := by
      intro hle; rw [← greaterThanVal_iff] at hle; rw [hle] at hd2; cases hd2
    rw [not_le, div_lt_iff₀ hmpos] at this
    exact this
  refine ⟨?_, ?_, ?_, ?_⟩
  · unfold badSupport at hs
    simp only [gt_iff_lt, Bool.and_eq_true, decide_eq_true_eq, Bool.or_eq_true, not_and, not_or,
      not_lt] at hs
    by_cases ht : p.MIN_SUP_THRESH < (c.row.length : ℚ)
    · exact Or.inr (hs ht)
    · exact Or.inl (not_lt.1 ht)
  · intro hcv hpos
    rw [hcv] at hv
    simp only [Bool.true_and, badViolation, Bool.or_eq_true, Bool.not_eq_true', not_or,
      Bool.not_eq_false, greaterThanVal_iff, zero_add] at hv
    obtain ⟨hv1, hv2⟩ := hv
    unfold RowCut.violated at hv1 hv2
    split at hv1
    · rename_i hlt; rw [if_pos hlt] at hv2; constructor <;> linarith
    · linarith
  · rcases h5 with h5 | ⟨e, he1, he2⟩
    · exact absurd h5 hm0
    · rcases h1 with h1 | h1
      · exact absurd h1 hm0
      · exact ⟨e, he1, by rw [he2]; exact h1⟩
  · intro e hee hE a ha
    obtain ⟨-, h7, -⟩ := h3 e hee hE
    have haM : a ≤ M := by
      rcases ha with rfl | ⟨e', he', hE', rfl⟩
      · exact hM1.1
      · exact le_trans (h3 e' he' hE').2.2 hM1.2
    have hpos : 0 < max (1 / p.EPS) p.MAX_DYN + p.EPS := by
      have : 0 < 1 / p.EPS := by positivity
      have := le_max_left (1 / p.EPS) p.MAX_DYN
      linarith
    calc a ≤ M := haM
      _ < _ := hdyn
      _ ≤ _ := mul_le_mul_of_nonneg_left h7 hpos.le

/-- C08. Each failure code means that the corresponding test is the first to fail on the cleaned
cut; success means none fails. (The failure codes are distinct, so the caller can tell.) -/
theorem cleanCut_first_failure (norm : SVec → ℚ) (p : CleanParams) (s : CutSolver) (cut : RowCut) :
    let c := removeSmallCoefficients s.colLower s.colUpper s.obj p.EPS p.EPS_COEFF cut
    let sup := badSupport c.row.length s.numCols p.MIN_SUP_THRESH p.MAX_SUP_ABS p.MAX_SUP_REL
    let vio := p.checkViolation && badViolation norm c s.colSolution p.MIN_VIOL_ABS p.MIN_VIOL_REL
    let dyn := badDynamism c p.MIN_ABS_COEFF p.MAX_ABS_COEFF
      (max (if p.EPS > 0 then 1 / p.EPS else p.MAX_DYN) p.MAX_DYN) p.EPS
    (cleanCut norm p s cut).1 = c ∧
    ((cleanCut norm p s cut).2 = some .badSupport ↔ sup = true) ∧
    ((cleanCut norm p s cut).2 = some .badViolation ↔ sup = false ∧ vio = true) ∧
    ((cleanCut norm p s cut).2 = some .badDynamism ↔ sup = false ∧ vio = false ∧ dyn = true) ∧
    ((cleanCut norm p s cut).2 = none ↔ sup = false ∧ vio = false ∧ dyn = false) := by
  intro c sup vio dyn
  have : cleanCut norm p s cut = if sup = true then (c, some CleanFail.badSupport)
    else if vio = true then (c, some .badViolation)
    else if dyn = true then (c, some .badDynamism) else (c, none) := rfl
  rw [this]
  cases sup <;> cases vio <;> cases dyn <;> simp

/-- Non-vacuity for C08: with the repository's default parameters a two-element cut is accepted. -/
example :
    let p : CleanParams := ⟨1/10^5, 10^8, 100, 1000, 9/10, 1/10^7, 1/10^7, 1, 1, 1/10^7, true⟩
    let s : CutSolver := ⟨2, fun _ => 0, fun _ => 5, fun _ => 1, fun _ => 0⟩
    (cleanCut (fun _ => 3) p s ⟨[(0, 1), (1, 2)], 1⟩).2 = none := by
  decide +kernel

end VPC
