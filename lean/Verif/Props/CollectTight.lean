import Verif.Props.EndToEndEx
import Verif.Props.SavedObj
import Verif.Props.PrlpTime
import Mathlib.Tactic.Positivity
import Mathlib.Tactic.FieldSimp

/-!
# C97: what is collected is consistent with the LP values; C28, C70, C75: exact outcomes

The objective value of a point, and the slope of a ray, are known twice: the LP solver of the term reports
them, and they can be recomputed from the packed vector. The code compares them and ends the process if they
differ too much.
-/
namespace VPC

/-! ## Specification -/

/-- The recomputed objective value `got` of a point and the value `viol` reported by the LP solver agree:
absolutely up to the larger tolerance; or both are almost zero; or one is almost zero and they differ by at
most three percent of one; or they have the same sign and neither exceeds the other by more than three
percent (all up to `1e-7`). -/
def PointAgrees (EPS DIFFEPS got viol : ℚ) : Prop :=
  |got - viol| < max EPS DIFFEPS ∨
  (|got| < EPS ∧ |viol| < EPS) ∨
  (((|got| < EPS ∧ EPS ≤ |viol|) ∨ (EPS ≤ |got| ∧ |viol| < EPS)) ∧ |got - viol| < 3 / 100 + defEps) ∨
  (EPS ≤ |got| ∧ EPS ≤ |viol| ∧ 0 < got * viol ∧
    |got| < (103 / 100 + defEps) * |viol| ∧ |viol| < (103 / 100 + defEps) * |got|)

/-- The recomputed slope `got` of a stored ray agrees with the slope `viol` reported by the LP solver, and
the ray does not improve the objective. -/
def RayAgrees (EPS DIFFEPS got viol : ℚ) : Prop :=
  |got - viol| < DIFFEPS ∧ -(max EPS DIFFEPS) < got

/-! ## Points -/

theorem isZero_decide (v eps : ℚ) : isZero v eps = decide (|v| < eps) := by
  rw [Bool.eq_iff_iff, isZero_iff, decide_eq_true_iff]

theorem div_lt_iff_abs {a b c : ℚ} (hab : 0 < a * b) : a / b < c ↔ |a| < c * |b| := by
  have hb : b ≠ 0 := by rintro rfl; simp at hab
  have hbp : 0 < |b| := abs_pos.2 hb
  have : a / b = |a| / |b| := by
    rw [← abs_div, abs_of_pos]
    rcases lt_or_gt_of_ne hb with h | h
    · exact div_pos_of_neg_of_neg (by nlinarith) h
    · exact div_pos (by nlinarith) h
  rw [this, div_lt_iff₀ hbp]

theorem ratio_small_iff {a b : ℚ} (hab : 0 < a * b) :
    greaterThanVal (if a / b < 1 then b / a else a / b) (103 / 100) = false ↔
      |a| < (103 / 100 + defEps) * |b| ∧ |b| < (103 / 100 + defEps) * |a| := by
  have hba : 0 < b * a := by rwa [mul_comm]
  have hd : (0 : ℚ) < defEps := by norm_num [defEps]
  rw [Bool.eq_false_iff, ne_eq, greaterThanVal_iff, not_le, ← div_lt_iff_abs hab, ← div_lt_iff_abs hba]
  have hb : b ≠ 0 := by rintro rfl; simp at hab
  have ha : a ≠ 0 := by rintro rfl; simp at hab
  have hp : 0 < a / b := by
    have : a / b = a * b / b ^ 2 := by field_simp
    rw [this]; positivity
  have hinv : b / a = (a / b)⁻¹ := by rw [inv_div]
  by_cases h : a / b < 1
  · rw [if_pos h]
    exact ⟨fun h' => ⟨by linarith, h'⟩, fun h' => h'.2⟩
  · rw [if_neg h]
    have : b / a ≤ 1 := by rw [hinv]; exact inv_le_one_of_one_le₀ (not_lt.1 h)
    exact ⟨fun h' => ⟨h', by linarith⟩, fun h' => h'.1⟩

/-- **C97.** The check of a point lets it pass exactly if the recomputed and the reported value agree. -/
theorem point_check_iff (E : NumEnv) (hE : 0 < E.EPS) (got viol : ℚ) :
    pointCheckExits E got viol = false ↔ PointAgrees E.EPS E.DIFFEPS got viol := by
  have hd : (0 : ℚ) < defEps := by norm_num [defEps]
  unfold pointCheckExits PointAgrees
  rw [lt_max_iff]
  by_cases h1 : |got - viol| < E.EPS
  · rw [if_pos (isVal_iff.2 (by rwa [sub_zero]))]; tauto
  rw [if_neg (by rw [isVal_iff, sub_zero]; exact h1)]
  by_cases h2 : |got - viol| < E.DIFFEPS
  · rw [isVal_iff.2 (by rwa [sub_zero])]; simp [h2]
  have h2' : isVal (got - viol) 0 E.DIFFEPS = false := by
    rw [Bool.eq_false_iff, ne_eq, isVal_iff, sub_zero]; exact h2
  rw [h2', Bool.not_false, Bool.true_and]
  have hopp : ((lessThanVal got 0 E.EPS && greaterThanVal viol 0 E.EPS) ||
      (lessThanVal viol 0 E.EPS && greaterThanVal got 0 E.EPS)) = true ↔
      E.EPS ≤ |got| ∧ E.EPS ≤ |viol| ∧ got * viol < 0 := by
    rw [Bool.or_eq_true, Bool.and_eq_true, Bool.and_eq_true, lessThanVal_iff, greaterThanVal_iff,
      lessThanVal_iff, greaterThanVal_iff, le_abs, le_abs]
    constructor
    · rintro (⟨a, b⟩ | ⟨a, b⟩)
      · exact ⟨Or.inr (by linarith), Or.inl (by linarith), by nlinarith⟩
      · exact ⟨Or.inl (by linarith), Or.inr (by linarith), by nlinarith⟩
    · rintro ⟨a | a, b | b, c⟩
      · nlinarith
      · right; constructor <;> linarith
      · left; constructor <;> linarith
      · nlinarith
  unfold pointRatio
  by_cases hg : |got| < E.EPS <;> by_cases hv : |viol| < E.EPS
  · rw [if_neg (by rw [hopp]; intro h; linarith [h.1]), isZero_decide, isZero_decide,
      decide_eq_true hg, decide_eq_true hv]
    simp only [Bool.and_self, if_true, hg, hv, and_self, true_or, or_true, iff_true]
    rw [Bool.eq_false_iff, ne_eq, greaterThanVal_iff]; intro h; linarith
  · have hv' := not_lt.1 hv
    have hng : ¬ E.EPS ≤ |got| := not_le.2 hg
    rw [if_neg (by rw [hopp]; intro h; linarith [h.1]), isZero_decide, isZero_decide,
      decide_eq_true hg, decide_eq_false hv]
    simp only [Bool.and_false, Bool.false_eq_true, if_false, Bool.or_false, if_true]
    rw [Bool.eq_false_iff, ne_eq, greaterThanVal_iff, not_le]
    constructor
    · intro h; right; right; left; exact ⟨Or.inl ⟨hg, hv'⟩, by linarith⟩
    · rintro ((h | h) | h | ⟨-, h⟩ | h)
      · exact absurd h h1
      · exact absurd h h2
      · exact absurd h.2 hv
      · linarith
      · exact absurd h.1 hng
  · have hg' := not_lt.1 hg
    have hnv : ¬ E.EPS ≤ |viol| := not_le.2 hv
    rw [if_neg (by rw [hopp]; intro h; linarith [h.2.1]), isZero_decide, isZero_decide,
      decide_eq_false hg, decide_eq_true hv]
    simp only [Bool.false_and, Bool.false_eq_true, if_false, Bool.false_or, if_true]
    rw [Bool.eq_false_iff, ne_eq, greaterThanVal_iff, not_le]
    constructor
    · intro h; right; right; left; exact ⟨Or.inr ⟨hg', hv⟩, by linarith⟩
    · rintro ((h | h) | h | ⟨-, h⟩ | h)
      · exact absurd h h1
      · exact absurd h h2
      · exact absurd h.1 hg
      · linarith
      · exact absurd h.2.1 hnv
  · have hg' := not_lt.1 hg
    have hv' := not_lt.1 hv
    have hgn : got ≠ 0 := by rintro rfl; simp at hg'; linarith
    have hvn : viol ≠ 0 := by rintro rfl; simp at hv'; linarith
    rcases lt_or_gt_of_ne (mul_ne_zero hgn hvn) with hs | hs
    · rw [if_pos (hopp.2 ⟨hg', hv', hs⟩)]
      constructor
      · intro h
        rw [Bool.eq_false_iff, ne_eq, greaterThanVal_iff] at h
        exfalso; apply h
        have : defEps = 1 / 10 ^ 7 := rfl
        rw [this]; norm_num
      · rintro ((h | h) | h | ⟨h, -⟩ | h)
        · exact absurd h h1
        · exact absurd h h2
        · exact absurd h.1 hg
        · rcases h with h | h
          · exact absurd h.1 hg
          · exact absurd h.2 hv
        · linarith [h.2.2.1]
    · rw [if_neg (by rw [hopp]; intro h; linarith [h.2.2]), isZero_decide, isZero_decide,
        decide_eq_false hg, decide_eq_false hv]
      simp only [Bool.and_self, Bool.or_self, Bool.false_eq_true, if_false]
      rw [ratio_small_iff hs]
      constructor
      · intro h; right; right; right; exact ⟨hg', hv', hs, h⟩
      · rintro ((h | h) | h | ⟨h, -⟩ | h)
        · exact absurd h h1
        · exact absurd h h2
        · exact absurd h.1 hg
        · rcases h with h | h
          · exact absurd h.1 hg
          · exact absurd h.2 hv
        · exact h.2.2.2

/-- Non-vacuity: two percent apart is accepted, four percent and opposite signs are not; a value near zero
is accepted if the other is below 0.03. -/
example : pointCheckExits ⟨id, fun _ => 0, 1 / 10 ^ 7, 1 / 10 ^ 7, 1 / 1000⟩ 102 100 = false ∧
    pointCheckExits ⟨id, fun _ => 0, 1 / 10 ^ 7, 1 / 10 ^ 7, 1 / 1000⟩ 100 104 = true ∧
    pointCheckExits ⟨id, fun _ => 0, 1 / 10 ^ 7, 1 / 10 ^ 7, 1 / 1000⟩ 100 (-100) = true ∧
    pointCheckExits ⟨id, fun _ => 0, 1 / 10 ^ 7, 1 / 10 ^ 7, 1 / 1000⟩ 0 (2 / 100) = false ∧
    pointCheckExits ⟨id, fun _ => 0, 1 / 10 ^ 7, 1 / 10 ^ 7, 1 / 1000⟩ 0 (4 / 100) = true := by
  decide +kernel

/-- Values of opposite signs that are not almost zero and differ by at least the tolerances are never
accepted. -/
theorem point_opposite_rejected (E : NumEnv) (hE : 0 < E.EPS) {got viol : ℚ} (h : got * viol < 0)
    (hg : E.EPS ≤ |got|) (hv : E.EPS ≤ |viol|) (hd : E.DIFFEPS ≤ |got - viol|) (he : E.EPS ≤ |got - viol|) :
    pointCheckExits E got viol = true := by
  rw [← Bool.not_eq_false, point_check_iff E hE]
  rintro (h' | h' | ⟨h', -⟩ | h')
  · rcases lt_max_iff.1 h' with h' | h' <;> linarith
  · linarith [h'.1]
  · rcases h' with h' | h' <;> linarith [h'.1, h'.2]
  · linarith [h'.2.2.1]

example : (1 : ℚ) * (-1) < 0 ∧
    pointCheckExits ⟨id, fun _ => 0, 1 / 10 ^ 7, 1 / 10 ^ 7, 1 / 1000⟩ 1 (-1) = true :=
  ⟨by norm_num, point_opposite_rejected _ (by norm_num) (by norm_num) (by norm_num) (by norm_num) (by norm_num)
    (by norm_num)⟩

/-! ## Rays -/

theorem ray_store_iff (E : NumEnv) (got viol : ℚ) :
    rayStoreExits E got viol = false ↔ RayAgrees E.EPS E.DIFFEPS got viol := by
  unfold rayStoreExits RayAgrees
  rw [Bool.or_eq_false_iff, Bool.not_eq_false', isVal_iff, abs_sub_comm, Bool.and_eq_false_iff]
  refine and_congr_right fun _ => ?_
  rw [Bool.eq_false_iff, ne_eq, lessThanVal_iff, Bool.eq_false_iff, ne_eq, lessThanVal_iff, not_le, not_le,
    neg_lt, lt_max_iff]
  constructor
  · rintro (h | h)
    · left; linarith
    · right; linarith
  · rintro (h | h)
    · left; linarith
    · right; linarith

theorem ray_check_of_agrees {E : NumEnv} {got viol : ℚ} (h : RayAgrees E.EPS E.DIFFEPS got viol) :
    rayCheckExits E got viol = false := by
  have h' := (ray_store_iff E got viol).2 h
  unfold rayStoreExits at h'
  rw [Bool.or_eq_false_iff] at h'
  unfold rayCheckExits
  rw [h'.2, isVal_iff.2 h.1]; simp

/-- **C97.** A ray is stored exactly if its packed vector is not empty and its recomputed slope agrees with
the reported one and is not (noticeably) negative; it is skipped exactly if the packed vector is empty and
the reported slope is almost zero; in all other cases the process ends. -/
theorem collectRay_iff (E : NumEnv) (hE : 0 < E.EPS) (o : NBData) (s : TermSol) (j : ℕ) :
    (∀ r, collectRay E o s j = .ok (some r) ↔
      r = ((rayOf E o s j).1, s.rayObj j) ∧ (rayOf E o s j).1 ≠ [] ∧
      RayAgrees E.EPS E.DIFFEPS (dotRC o.rc (rayOf E o s j).1 / (rayOf E o s j).2) (s.rayObj j)) ∧
    (collectRay E o s j = .ok none ↔
      (rayOf E o s j).1 = [] ∧ |s.rayObj j| < max E.EPS E.DIFFEPS) := by
  unfold collectRay
  dsimp only
  rw [show packRay E.sortDecr E.expo E.EPS E.RAYEPS (s.rayObj j) o.rc (rayVals o s j) = rayOf E o s j
    from rfl]
  generalize rayOf E o s j = p
  by_cases hp : p.1 = []
  · rw [if_pos hp]
    refine ⟨fun r => ?_, ?_⟩
    · split <;> simp [hp]
    · rw [hp]
      have h0 : dotRC o.rc [] / p.2 = 0 := by simp [dotRC]
      rw [h0]
      have : rayCheckExits E 0 (s.rayObj j) = false ↔ |s.rayObj j| < max E.EPS E.DIFFEPS := by
        unfold rayCheckExits
        have hl : lessThanVal 0 0 E.EPS = false := by
          rw [Bool.eq_false_iff, ne_eq, lessThanVal_iff]; intro h; linarith
        rw [hl, Bool.false_and, Bool.false_or, Bool.and_eq_false_iff, Bool.not_eq_false',
          Bool.not_eq_false', isVal_iff, isVal_iff, zero_sub, abs_neg, lt_max_iff]
      constructor
      · intro h
        split at h
        · cases h
        · rename_i hc; exact ⟨rfl, this.1 (by simpa using hc)⟩
      · rintro ⟨-, h⟩
        rw [this.2 h]; rfl
  · rw [if_neg hp]
    refine ⟨fun r => ?_, ?_⟩
    · constructor
      · intro h
        split at h
        · cases h
        split at h
        · cases h
        · rename_i hc
          simp only [Res.ok.injEq, Option.some.injEq] at h
          exact ⟨h.symm, hp, (ray_store_iff _ _ _).1 (by simpa using hc)⟩
      · rintro ⟨rfl, -, h⟩
        rw [ray_check_of_agrees h, (ray_store_iff _ _ _).2 h]; rfl
    · constructor
      · intro h
        split at h
        · cases h
        split at h <;> cases h
      · intro h; exact absurd h.1 hp

/-- **C97.** Everything that is collected for a term is consistent: the value stored with the point is the
difference of the LP values of the term and of the relaxation and agrees with the value recomputed from the
point; each ray belongs to a nonbasic variable that is not fixed, is not the zero vector, and the slope
stored with it agrees with the slope recomputed from it (after undoing the scaling) and is not noticeably
negative. -/
theorem collected_consistent {E : NumEnv} (hE : 0 < E.EPS) (hsort : ∀ l, (E.sortDecr l).Perm l)
    {o : NBData} {s : TermSol} {p : SVec} {d : ℚ} {rays : List (SVec × ℚ)}
    (h : genDepth1 E o s = .ok (.collected p d rays)) :
    d = s.obj - o.obj ∧ PointAgrees E.EPS E.DIFFEPS (dotRC o.rc p) d ∧
    ∀ r ∈ rays, ∃ j ∈ s.nb, s.isFixed j = false ∧ r.1 ≠ [] ∧ r.2 = s.rayObj j ∧
      ∃ scale > 0, RayAgrees E.EPS E.DIFFEPS (dotRC o.rc r.1 / scale) r.2 := by
  unfold genDepth1 at h
  obtain ⟨q, hq, h⟩ := Res.bind_ok h
  obtain ⟨rs, hrs, h⟩ := Res.bind_ok h
  simp only [Res.ok.injEq, TermOutcome.collected.injEq] at h
  obtain ⟨rfl, rfl, rfl⟩ := h
  unfold collectPoint at hq
  dsimp only at hq
  split at hq
  · cases hq
  rename_i hc
  simp only [Res.ok.injEq] at hq
  subst hq
  refine ⟨rfl, (point_check_iff E hE _ _).1 (by simpa using hc), ?_⟩
  clear hc
  generalize s.nb = js at hrs ⊢
  clear * - hE hsort hrs
  induction js generalizing rs with
  | nil => simp only [collectRays, Res.ok.injEq] at hrs; subst hrs; simp
  | cons j js ih =>
    simp only [collectRays] at hrs
    split at hrs
    · intro r hr
      obtain ⟨k, hk, h⟩ := ih rs hrs r hr
      exact ⟨k, by simp [hk], h⟩
    · rename_i hf
      obtain ⟨r', hr', hrs⟩ := Res.bind_ok hrs
      obtain ⟨rs', hrs', hrs⟩ := Res.bind_ok hrs
      simp only [Res.ok.injEq] at hrs
      subst hrs
      intro r hr
      rcases List.mem_append.1 hr with hr | hr
      · cases r' with
        | none => simp at hr
        | some r' =>
          simp only [Option.toList_some, List.mem_singleton] at hr
          subst hr
          obtain ⟨rfl, hne, ha⟩ := ((collectRay_iff E hE o s j).1 _).1 hr'
          refine ⟨j, by simp, by simpa using hf, hne, rfl, (rayOf E o s j).2, ?_, ha⟩
          exact (packRay_spec E.sortDecr hsort E.expo E.EPS E.RAYEPS (s.rayObj j) o.rc
            (rayVals o s j)).1
      · obtain ⟨k, hk, h⟩ := ih rs' hrs' r hr
        exact ⟨k, by simp [hk], h⟩

/-- Non-vacuity: the first term of the worked example has a point and two rays, all consistent. -/
example : ∃ p d rays, genDepth1 Tri.E Tri.o Tri.s0 = .ok (.collected p d rays) ∧ rays.length = 2 ∧
    d = 1 ∧ dotRC Tri.o.rc p = 1 ∧ 0 < Tri.E.EPS ∧ ∀ l, (Tri.E.sortDecr l).Perm l :=
  ⟨[(1, 2)], 1, [([(1, 4)], 2), ([(0, 1), (1, 1)], 1)], by decide +kernel, rfl, rfl, by decide +kernel,
    by norm_num [Tri.E], fun l => List.Perm.refl l⟩

/-! ## The outcome of a term -/

/-- **C70/C28.** What becomes of a feasible term, for every answer of the LP solver: if the LP of the term is
not solved to optimality, the term is marked infeasible, contributes neither a value nor rows; if it is,
the term is unchanged and its LP value is reported whether or not there is time left to collect its point
and rays. -/
theorem finishTerm_iff (E : NumEnv) (o : NBData) (w : TermWorld) (t : Term) :
    finishTerm E o w t none = .ok (none, { t with feasible := false }, .notOptimal) ∧
    ∀ s : TermSol,
      (w.timeUp = true → finishTerm E o w t (some s) = .ok (some s.obj, t, .timeLimit)) ∧
      (w.timeUp = false → ∀ r, finishTerm E o w t (some s) = .ok r ↔
        ∃ oc, genDepth1 E o s = .ok oc ∧ r = (some s.obj, t, oc)) := by
  refine ⟨rfl, fun s => ⟨fun h => by simp [finishTerm, h], fun h r => ?_⟩⟩
  simp only [finishTerm, h, Bool.false_eq_true, if_false]
  constructor
  · intro h
    obtain ⟨oc, h1, h2⟩ := Res.bind_ok h
    simp only [Res.ok.injEq] at h2
    exact ⟨oc, h1, h2.symm⟩
  · rintro ⟨oc, h1, rfl⟩
    rw [h1]; rfl

/-- **C28.** The value a term reports and its new feasibility flag: a term that is infeasible or whose LP is
not solved reports nothing; every other term reports the value of the LP solved last (after Gomory
strengthening, if that is used). -/
theorem doTerm_value {E : NumEnv} {o : NBData} {strengthen : Bool} {V : Relax} {w : TermWorld} {t t' : Term}
    {v : Option ℚ} {oc : TermOutcome} (h : doTerm E o strengthen V w t = .ok (v, t', oc)) :
    (v = none ∧ t' = { t with feasible := false } ∧ ∀ flip, termRows flip oc = []) ∨
    (t.feasible = true ∧ t' = t ∧ ∃ Q s, termLP V t = .ok Q ∧ w.solve Q = .optimal s ∧
      ((strengthen = false ∧ v = some s.obj) ∨
       (strengthen = true ∧ ∃ s2, w.solve2 (applyIneqs (w.gmics Q) Q) = .optimal s2 ∧ v = some s2.obj))) := by
  unfold doTerm at h
  split at h
  · rename_i hf
    simp only [Res.ok.injEq, Prod.mk.injEq] at h
    obtain ⟨rfl, rfl, rfl⟩ := h
    have hf' : t.feasible = false := by simpa using hf
    left
    refine ⟨rfl, ?_, fun _ => rfl⟩
    cases t; simp only at hf'; subst hf'; rfl
  rename_i hf
  have hf' : t.feasible = true := by simpa using hf
  obtain ⟨Q, hQ, h⟩ := Res.bind_ok h
  split at h
  · cases h
  obtain ⟨a, ha, h⟩ := Res.bind_ok h
  have hval : ∀ s : TermSol, finishTerm E o w t (some s) = .ok (v, t', oc) → v = some s.obj ∧ t' = t := by
    intro s h
    simp only [finishTerm] at h
    split at h
    · simp only [Res.ok.injEq, Prod.mk.injEq] at h; exact ⟨h.1.symm, h.2.1.symm⟩
    · obtain ⟨oc', -, h⟩ := Res.bind_ok h
      simp only [Res.ok.injEq, Prod.mk.injEq] at h; exact ⟨h.1.symm, h.2.1.symm⟩
  have hnone : finishTerm E o w t none = .ok (v, t', oc) →
      v = none ∧ t' = { t with feasible := false } ∧ ∀ flip, termRows flip oc = [] := by
    intro h
    simp only [finishTerm, Res.ok.injEq, Prod.mk.injEq] at h
    obtain ⟨rfl, rfl, rfl⟩ := h
    exact ⟨rfl, rfl, fun _ => rfl⟩
  cases hsol : w.solve Q with
  | notOptimal =>
    rw [hsol] at ha
    simp only [LPAns.check, Res.ok.injEq] at ha
    subst ha
    exact Or.inl (hnone h)
  | dualInfeasible => rw [hsol] at ha; cases ha
  | optimal s =>
    rw [hsol] at ha
    simp only [LPAns.check, Res.ok.injEq] at ha
    subst ha
    simp only at h
    split at h
    · cases h
    unfold strengthenTerm at h
    cases strengthen with
    | false =>
      simp only [Bool.false_eq_true, if_false, Res.bind] at h
      obtain ⟨h1, h2⟩ := hval s h
      exact Or.inr ⟨hf', h2, Q, s, hQ, hsol, Or.inl ⟨rfl, h1⟩⟩
    | true =>
      simp only [if_true] at h
      obtain ⟨a2, ha2, h⟩ := Res.bind_ok h
      cases hsol2 : w.solve2 (applyIneqs (w.gmics Q) Q) with
      | notOptimal =>
        rw [hsol2] at ha2
        simp only [LPAns.check, Res.ok.injEq] at ha2
        subst ha2
        exact Or.inl (hnone h)
      | dualInfeasible => rw [hsol2] at ha2; cases ha2
      | optimal s2 =>
        rw [hsol2] at ha2
        simp only [LPAns.check, Res.ok.injEq] at ha2
        subst ha2
        obtain ⟨h1, h2⟩ := hval s2 h
        exact Or.inr ⟨hf', h2, Q, s, hQ, hsol, Or.inr ⟨rfl, s2, hsol2, h1⟩⟩

/-! ## The reported bounds -/

/-- The value of the stored integer solution that is reported to the disjunction: its objective value in the
objective of the solver, less the constant. -/
theorem collectInt_value {E : NumEnv} {o : NBData} {cost : Vec} {offset : ℚ} {sol : List ℚ}
    {r : Option (SVec × ℚ) × List ℚ} (h : collectInt E o cost offset sol = .ok r) :
    (sol = [] → r = (none, [])) ∧
    (sol ≠ [] → r.2 = [((List.range o.lp.numCols).map fun i => cost i * sol.getD i 0).sum - offset]) := by
  unfold collectInt at h
  split at h
  · rename_i hs
    simp only [Res.ok.injEq] at h; subst h
    exact ⟨fun _ => rfl, fun h => absurd hs h⟩
  · rename_i hs
    dsimp only at h
    split at h
    · cases h
    · simp only [Res.ok.injEq] at h; subst h
      exact ⟨fun h => absurd h hs, fun _ => rfl⟩

theorem doTerms_spec {E : NumEnv} {o : NBData} {strengthen : Bool} {V : Relax} {w : ℕ → TermWorld}
    {ts : List Term} {k : ℕ} {r : List ℚ × List Term × List TermOutcome}
    (h : doTerms E o strengthen V w k ts = .ok r) :
    ∃ rs : List (Option ℚ × Term × TermOutcome),
      rs.length = ts.length ∧
      (∀ (i : ℕ) (hi : i < ts.length) (hi' : i < rs.length),
        doTerm E o strengthen V (w (k + i)) ts[i] = .ok rs[i]) ∧
      r = (rs.filterMap (·.1), rs.map (·.2.1), rs.map (·.2.2)) := by
  induction ts generalizing k r with
  | nil =>
    simp only [doTerms, Res.ok.injEq] at h; subst h
    exact ⟨[], rfl, fun i hi => by simp at hi, rfl⟩
  | cons t ts ih =>
    simp only [doTerms] at h
    obtain ⟨q, hq, h⟩ := Res.bind_ok h
    obtain ⟨q', hq', h⟩ := Res.bind_ok h
    simp only [Res.ok.injEq] at h; subst h
    obtain ⟨rs, hl, hall, rfl⟩ := ih hq'
    refine ⟨q :: rs, by simp [hl], ?_, ?_⟩
    · intro i hi hi'
      cases i with
      | zero => simpa using hq
      | succ i =>
        have := hall i (by simpa using hi) (by simpa using hi')
        simpa [Nat.add_assoc, Nat.add_comm 1 i] using this
    · obtain ⟨v, t', oc⟩ := q
      cases v <;> simp

theorem foldl_min_bound (l : List ℚ) (a : ℚ) :
    l.foldl min a ≤ a ∧ (∀ v ∈ l, l.foldl min a ≤ v) ∧ (l.foldl min a = a ∨ l.foldl min a ∈ l) := by
  induction l generalizing a with
  | nil => simp
  | cons v l ih =>
    obtain ⟨h1, h2, h3⟩ := ih (min a v)
    simp only [List.foldl_cons]
    refine ⟨le_trans h1 (min_le_left _ _), ?_, ?_⟩
    · intro u hu
      rcases List.mem_cons.1 hu with rfl | hu
      · exact le_trans h1 (min_le_right _ _)
      · exact h2 u hu
    · rcases h3 with h3 | h3
      · rcases min_choice a v with h | h
        · left; rw [h3, h]
        · right; rw [h3, h]; simp
      · right; simp [h3]

theorem foldl_max_bound (l : List ℚ) (a : ℚ) :
    a ≤ l.foldl max a ∧ (∀ v ∈ l, v ≤ l.foldl max a) ∧ (l.foldl max a = a ∨ l.foldl max a ∈ l) := by
  induction l generalizing a with
  | nil => simp
  | cons v l ih =>
    obtain ⟨h1, h2, h3⟩ := ih (max a v)
    simp only [List.foldl_cons]
    refine ⟨le_trans (le_max_left _ _) h1, ?_, ?_⟩
    · intro u hu
      rcases List.mem_cons.1 hu with rfl | hu
      · exact le_trans (le_max_right _ _) h1
      · exact h2 u hu
    · rcases h3 with h3 | h3
      · rcases max_choice a v with h | h
        · left; rw [h3, h]
        · right; rw [h3, h]; simp
      · right; simp [h3]

/-- The values reported to a disjunction by one collection of points and rays. -/
structure ReportedValue (E : NumEnv) (o : NBData) (strengthen : Bool) (cost : Vec) (offset : ℚ) (V : Relax)
    (w : ℕ → TermWorld) (D : Disj) (v : ℚ) : Prop where
  /-- It is the value of the stored integer solution or of a term. -/
  source :
    (D.intSol ≠ [] ∧
      v = ((List.range o.lp.numCols).map fun i => cost i * D.intSol.getD i 0).sum - offset) ∨
    ∃ (i : ℕ) (t t' : Term) (oc : TermOutcome),
      D.terms[i]? = some t ∧ doTerm E o strengthen V (w i) t = .ok (some v, t', oc)

/-- **C28.** After a collection, the best objective value of the disjunction is the least and the worst the
greatest of its previous value and of all values reported: that of the stored integer solution and those of
the terms that were solved. The other terms are marked infeasible; no term is added or removed. -/
theorem setupAll_bounds {E : NumEnv} {o : NBData} {strengthen flip : Bool} {cost : Vec} {offset : ℚ}
    {V : Relax} {w : ℕ → TermWorld} {D D' : Disj} {rows : List PRow}
    (h : setupAll E o strengthen flip cost offset V w D = .ok (rows, D')) :
    (D'.bestObj ≤ D.bestObj ∧
      (∀ v, ReportedValue E o strengthen cost offset V w D v → D'.bestObj ≤ v) ∧
      (D'.bestObj = D.bestObj ∨ ReportedValue E o strengthen cost offset V w D D'.bestObj)) ∧
    (D.worstObj ≤ D'.worstObj ∧
      (∀ v, ReportedValue E o strengthen cost offset V w D v → v ≤ D'.worstObj) ∧
      (D'.worstObj = D.worstObj ∨ ReportedValue E o strengthen cost offset V w D D'.worstObj)) ∧
    D'.terms.length = D.terms.length ∧
    (∀ (i : ℕ) (t : Term), D.terms[i]? = some t → ∃ (t' : Term) (v : Option ℚ) (oc : TermOutcome),
      D'.terms[i]? = some t' ∧ doTerm E o strengthen V (w i) t = .ok (v, t', oc) ∧
      (v = none ↔ t'.feasible = false) ∧ (v ≠ none → t' = t)) := by
  unfold setupAll at h
  obtain ⟨p, hp, h⟩ := Res.bind_ok h
  obtain ⟨r, hr, h⟩ := Res.bind_ok h
  simp only [Res.ok.injEq, Prod.mk.injEq] at h
  obtain ⟨-, rfl⟩ := h
  obtain ⟨rs, hl, hall, rfl⟩ := doTerms_spec hr
  obtain ⟨hint1, hint2⟩ := collectInt_value hp
  obtain ⟨hb, hw⟩ := disj_updateObj_fold { D with terms := rs.map (·.2.1) } (p.2 ++ rs.filterMap (·.1))
  have hterms : ∀ (vs : List ℚ) (d : Disj), (vs.foldl Disj.updateObj d).terms = d.terms := by
    intro vs
    induction vs with
    | nil => intro d; rfl
    | cons v vs ih =>
      intro d
      rw [List.foldl_cons, ih]
      unfold Disj.updateObj
      dsimp only
      split <;> split <;> rfl
  have hmem : ∀ v, v ∈ p.2 ++ rs.filterMap (·.1) ↔ ReportedValue E o strengthen cost offset V w D v := by
    intro v
    constructor
    · intro hv
      rcases List.mem_append.1 hv with hv | hv
      · refine ⟨Or.inl ?_⟩
        by_cases hs : D.intSol = []
        · rw [hint1 hs] at hv; simp at hv
        · rw [hint2 hs] at hv; exact ⟨hs, by simpa using hv⟩
      · obtain ⟨q, hq, hqv⟩ := List.mem_filterMap.1 hv
        obtain ⟨i, hi, rfl⟩ := List.mem_iff_getElem.1 hq
        have hi' : i < D.terms.length := by omega
        refine ⟨Or.inr ⟨i, D.terms[i], rs[i].2.1, rs[i].2.2, List.getElem?_eq_getElem hi', ?_⟩⟩
        have := hall i hi' hi
        rw [Nat.zero_add] at this
        rw [this, ← hqv]
    · rintro ⟨⟨hs, rfl⟩ | ⟨i, t, t', oc, hi, hd⟩⟩
      · rw [hint2 hs]; simp
      · obtain ⟨hi', rfl⟩ := List.getElem?_eq_some_iff.1 hi
        have hi2 : i < rs.length := by omega
        have := hall i hi' hi2
        rw [Nat.zero_add, hd] at this
        simp only [Res.ok.injEq] at this
        apply List.mem_append_right
        apply List.mem_filterMap.2
        exact ⟨rs[i], List.getElem_mem hi2, by rw [← this]⟩
  refine ⟨?_, ?_, ?_, ?_⟩
  · rw [hb]
    obtain ⟨h1, h2, h3⟩ := foldl_min_bound (p.2 ++ rs.filterMap (·.1)) D.bestObj
    exact ⟨h1, fun v hv => h2 v ((hmem v).2 hv), h3.imp id fun h => (hmem _).1 h⟩
  · rw [hw]
    obtain ⟨h1, h2, h3⟩ := foldl_max_bound (p.2 ++ rs.filterMap (·.1)) D.worstObj
    exact ⟨h1, fun v hv => h2 v ((hmem v).2 hv), h3.imp id fun h => (hmem _).1 h⟩
  · rw [hterms]; simp [hl]
  · intro i t hi
    obtain ⟨hi', rfl⟩ := List.getElem?_eq_some_iff.1 hi
    have hi2 : i < rs.length := by omega
    have hd := hall i hi' hi2
    rw [Nat.zero_add] at hd
    obtain ⟨q, hq⟩ : ∃ q, q = rs[i] := ⟨_, rfl⟩
    rw [← hq] at hd
    obtain ⟨v, t', oc⟩ := q
    refine ⟨t', v, oc, ?_, hd, ?_⟩
    · rw [hterms]; simp [hi2, ← hq]
    · rcases doTerm_value hd with ⟨h1, h2, -⟩ | ⟨h1, h2, Q, s, -, -, h3⟩
      · exact ⟨⟨fun _ => by rw [h2], fun _ => h1⟩, fun h => absurd h1 h⟩
      · have hne : v ≠ none := by
          rcases h3 with ⟨-, h3⟩ | ⟨-, s2, -, h3⟩ <;> rw [h3] <;> simp
        refine ⟨⟨fun h => absurd h hne, fun h => ?_⟩, fun _ => h2⟩
        rw [h2] at h; rw [h1] at h; cases h

/-- Non-vacuity: in the worked example with a stored integer solution and one term that runs into the time
limit, three values (all 0) are reported, and both bounds become 0. -/
example : setupAll Tri.E Tri.o false false Tri.cost 0 Tri.V Tri.w2 Tri.D2 =
      .ok (Tri.rows2, { Tri.D2 with bestObj := 0, worstObj := 0 }) ∧
    ReportedValue Tri.E Tri.o false Tri.cost 0 Tri.V Tri.w2 Tri.D2 0 ∧
    doTerm Tri.E Tri.o false Tri.V (Tri.w2 1) Tri.t1 = .ok (some 0, Tri.t1, .timeLimit) := by
  refine ⟨Tri.rows2_eq, ⟨Or.inl ⟨by decide, by decide +kernel⟩⟩, by decide +kernel⟩

/-! ## The failure recorded by the first solve -/

/-- **C75.** The failure recorded, for every answer of the LP solver. -/
theorem prlpSetupExit_fail_iff (maxTime : ℚ) (a : PrlpAnswer) :
    ((prlpSetupExit maxTime a).2 = some .NUMERICAL_ISSUES_NO_OBJ ↔
      a.optimal = false ∧ ¬ (a.primalInf = true ∧ a.abandoned = false) ∧
        (maxTime - defEps < a.dur ∨ a.iterLimit = true ∨ a.hitMax = true ∨
          (a.dualInf = true ∧ a.abandoned = false))) ∧
    ((prlpSetupExit maxTime a).2 = some .UNKNOWN ↔
      a.optimal = false ∧ ¬ (a.primalInf = true ∧ a.abandoned = false) ∧ a.dur ≤ maxTime - defEps ∧
        a.iterLimit = false ∧ a.hitMax = false ∧ ¬ (a.dualInf = true ∧ a.abandoned = false)) := by
  have hl : lessThanVal a.dur maxTime defEps = true ↔ a.dur ≤ maxTime - defEps := lessThanVal_iff
  unfold prlpSetupExit
  by_cases hlt : lessThanVal a.dur maxTime defEps = true
  · have hlt' := hl.1 hlt
    have hn : ¬ (maxTime - defEps < a.dur) := not_lt.2 hlt'
    cases a.optimal <;> cases a.primalInf <;> cases a.abandoned <;> cases a.iterLimit <;>
      cases a.hitMax <;> cases a.dualInf <;> simp [hlt, hlt', hn]
  · have hlt' : ¬ (a.dur ≤ maxTime - defEps) := fun h => hlt (hl.2 h)
    have hn := not_le.1 hlt'
    have hlt'' : lessThanVal a.dur maxTime defEps = false := by rw [Bool.eq_false_iff]; exact hlt
    cases a.optimal <;> cases a.primalInf <;> cases a.abandoned <;> cases a.iterLimit <;>
      cases a.hitMax <;> cases a.dualInf <;> simp [hlt'', hlt', hn]

example : (prlpSetupExit 60 ⟨false, false, true, false, false, false, 1⟩).2 = some .NUMERICAL_ISSUES_NO_OBJ ∧
    (prlpSetupExit 60 ⟨false, false, true, true, false, false, 1⟩).2 = some .UNKNOWN := by decide +kernel

end VPC
