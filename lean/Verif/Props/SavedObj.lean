import Verif.Props.EndToEnd

/-! # C70: objective values of the terms and of the root are compared with the recorded ones -/
namespace VPC

/-! ## Specification -/

/-- Two objective values of the same sign agree: up to `DIFFEPS`, or up to a factor 1.03 (plus 1e-7). -/
def ValuesAgree (DIFFEPS a b : ℚ) : Prop :=
  |a - b| < DIFFEPS ∨ (|a| < (103 / 100 + defEps) * |b| ∧ |b| < (103 / 100 + defEps) * |a|)

theorem ratio_agree {a b : ℚ} (h : 0 < a * b) :
    greaterThanVal (if a / b < 1 then 1 / (a / b) else a / b) (103 / 100) = false ↔
      (|a| < (103 / 100 + defEps) * |b| ∧ |b| < (103 / 100 + defEps) * |a|) := by
  have ha : a ≠ 0 := by rintro rfl; simp at h
  have hb : b ≠ 0 := by rintro rfl; simp at h
  have hpa : 0 < |a| := abs_pos.2 ha
  have hpb : 0 < |b| := abs_pos.2 hb
  have hd : (0 : ℚ) < defEps := by norm_num [defEps]
  have hab : a / b = |a| / |b| := by
    rw [← abs_div, abs_of_pos]
    rw [div_eq_mul_inv, ← mul_self_div_self b⁻¹]
    have : 0 < a * b / (b * b) := div_pos h (mul_self_pos.2 hb)
    have h2 : a * b / (b * b) = a / b := by field_simp
    rw [h2, div_eq_mul_inv] at this
    rwa [mul_self_div_self]
  rw [hab]
  rw [Bool.eq_false_iff, ne_eq, greaterThanVal_iff, not_le]
  split
  · rename_i hlt
    rw [div_lt_one hpb] at hlt
    rw [one_div, inv_div, div_lt_iff₀ hpa]
    constructor
    · intro h1; exact ⟨by nlinarith, h1⟩
    · exact fun h1 => h1.2
  · rename_i hlt
    rw [not_lt, one_le_div hpb] at hlt
    rw [div_lt_iff₀ hpb]
    constructor
    · intro h1; exact ⟨h1, by nlinarith⟩
    · exact fun h1 => h1.1

/-- **C70 (partial: both values of the same sign and not within `DIFFEPS` of zero).** A finite recorded
value is accepted exactly if it agrees with the new value. -/
theorem savedObj_agree_partial {DIFFEPS saved new : ℚ} (hfin : isInfinity saved = false)
    (hs : 0 < new * saved) (h1 : DIFFEPS ≤ |new|) (h2 : DIFFEPS ≤ |saved|) :
    savedObjExits DIFFEPS saved new = false ↔ ValuesAgree DIFFEPS new saved := by
  have hz : ∀ v : ℚ, DIFFEPS ≤ |v| → isZero v DIFFEPS = false := by
    intro v hv
    rw [Bool.eq_false_iff]; intro h
    unfold isZero at h
    rw [isVal_iff, sub_zero] at h
    linarith
  unfold savedObjExits ValuesAgree
  rw [hfin]
  simp only [Bool.false_eq_true, if_false]
  cases hv : isVal new saved DIFFEPS with
  | true => simp only [if_true, true_iff]; exact Or.inl (isVal_iff.1 hv)
  | false =>
    simp only [Bool.false_eq_true, if_false]
    have hnv : ¬ |new - saved| < DIFFEPS := by
      intro h; rw [isVal_iff.2 h] at hv; cases hv
    unfold savedRatio
    rw [hz new h1, hz saved h2]
    simp only [Bool.false_and, Bool.or_self, Bool.false_eq_true, if_false]
    rw [ratio_agree hs]
    constructor
    · exact Or.inr
    · rintro (h | h)
      · exact absurd h hnv
      · exact h

/-- **C70 fails** for opposite signs: values of opposite sign, both at least `DIFFEPS` away from zero,
are accepted however far apart they are. -/
theorem savedObj_opposite_sign {DIFFEPS saved new : ℚ} (hs : new * saved < 0) (h1 : DIFFEPS ≤ |new|)
    (h2 : DIFFEPS ≤ |saved|) : savedObjExits DIFFEPS saved new = false := by
  have hz : ∀ v : ℚ, DIFFEPS ≤ |v| → isZero v DIFFEPS = false := by
    intro v hv
    rw [Bool.eq_false_iff]; intro h
    unfold isZero at h
    rw [isVal_iff, sub_zero] at h
    linarith
  have hb : saved ≠ 0 := by rintro rfl; simp at hs
  have ha : new ≠ 0 := by rintro rfl; simp at hs
  have hneg : new / saved < 0 := by
    rcases lt_or_gt_of_ne hb with h | h
    · have : 0 < new := by nlinarith
      exact div_neg_of_pos_of_neg this h
    · have : new < 0 := by nlinarith
      exact div_neg_of_neg_of_pos this h
  have hd : (0 : ℚ) < defEps := by norm_num [defEps]
  unfold savedObjExits
  split
  · rfl
  split
  · rfl
  unfold savedRatio
  rw [hz new h1, hz saved h2]
  simp only [Bool.false_and, Bool.or_self, Bool.false_eq_true, if_false]
  rw [if_pos (by linarith), Bool.eq_false_iff, ne_eq, greaterThanVal_iff, not_le]
  have : 1 / (new / saved) < 0 := one_div_neg.2 hneg
  linarith

/-- Values `1000` and `-5` are taken to agree. -/
example : savedObjExits (1 / 1000) 1000 (-5) = false := by decide +kernel

/-- If one of the values is within `DIFFEPS` of zero and the other is not, they are accepted exactly if
they differ by less than `max DIFFEPS (0.03 + 1e-7)`. -/
theorem savedObj_near_zero {DIFFEPS saved new : ℚ} (hfin : isInfinity saved = false)
    (h : (|new| < DIFFEPS ∧ DIFFEPS ≤ |saved|) ∨ (DIFFEPS ≤ |new| ∧ |saved| < DIFFEPS)) :
    savedObjExits DIFFEPS saved new = false ↔
      |new - saved| < DIFFEPS ∨ |new - saved| < 3 / 100 + defEps := by
  have hz : ∀ v : ℚ, isZero v DIFFEPS = decide (|v| < DIFFEPS) := by
    intro v
    unfold isZero
    rw [Bool.eq_iff_iff, isVal_iff, sub_zero, decide_eq_true_iff]
  unfold savedObjExits
  rw [hfin]
  simp only [Bool.false_eq_true, if_false]
  cases hv : isVal new saved DIFFEPS with
  | true => simp only [if_true, true_iff]; exact Or.inl (isVal_iff.1 hv)
  | false =>
    simp only [Bool.false_eq_true, if_false]
    have hnv : ¬ |new - saved| < DIFFEPS := by
      intro h; rw [isVal_iff.2 h] at hv; cases hv
    have hr : savedRatio DIFFEPS new saved = 1 + |new - saved| := by
      unfold savedRatio
      rw [hz, hz]
      rcases h with ⟨ha, hb⟩ | ⟨ha, hb⟩
      · rw [decide_eq_true ha, decide_eq_false (not_lt.2 hb)]; rfl
      · rw [decide_eq_false (not_lt.2 ha), decide_eq_true hb]; rfl
    rw [hr, Bool.eq_false_iff, ne_eq, greaterThanVal_iff, not_le]
    constructor
    · intro h; right; linarith
    · rintro (h | h)
      · exact absurd h hnv
      · linarith

/-- **C70.** Every term that contributes a value to the point-ray collection, without Gomory
strengthening, has passed the comparison: the value reported is the LP value of the term, and it is
accepted against the recorded value. -/
theorem doTerm_checked {E : NumEnv} {o : NBData} {V : Relax} {w : TermWorld} {t t' : Term} {v : ℚ}
    {oc : TermOutcome} (h : doTerm E o false V w t = .ok (some v, t', oc)) :
    ∃ Q s, termLP V t = .ok Q ∧ w.solve Q = .optimal s ∧ v = s.obj ∧
      savedObjExits E.DIFFEPS t.obj v = false := by
  unfold doTerm at h
  split at h
  · simp at h
  obtain ⟨Q, hQ, h⟩ := Res.bind_ok h
  split at h
  · cases h
  obtain ⟨a, ha, h⟩ := Res.bind_ok h
  cases hsol : w.solve Q with
  | notOptimal =>
    rw [hsol] at ha
    simp only [LPAns.check, Res.ok.injEq] at ha
    subst ha
    simp [finishTerm] at h
  | dualInfeasible => rw [hsol] at ha; cases ha
  | optimal s =>
    rw [hsol] at ha
    simp only [LPAns.check, Res.ok.injEq] at ha
    subst ha
    simp only at h
    split at h
    · cases h
    · rename_i hex
      refine ⟨Q, s, hQ, hsol, ?_⟩
      simp only [strengthenTerm, Bool.false_eq_true, if_false, Res.bind, finishTerm] at h
      have hv : v = s.obj := by
        split at h
        · simp only [Res.ok.injEq, Prod.mk.injEq, Option.some.injEq] at h; exact h.1.symm
        · obtain ⟨oc', -, h⟩ := Res.bind_ok h
          simp only [Res.ok.injEq, Prod.mk.injEq, Option.some.injEq] at h; exact h.1.symm
      exact ⟨hv, by rw [hv]; simpa using hex⟩

/-- The root's LP value is compared only if the disjunction has no common inequalities; a missing
recorded value is replaced by the new one. -/
theorem rootObj_checked {DIFFEPS : ℚ} {limit : ℕ → Bool} {bad : RowCut → Bool}
    {opt : Relax → Option ℚ} {D : Disj} {P : Relax} {st : RootSt}
    (h : rootChanges DIFFEPS limit bad opt D P = .ok (false, st)) (hc : D.common ≠ [])
    (hi : D.commonIneqs = []) (hfin : isInfinity D.rootObj = false) :
    ∃ v, opt st.V = some v ∧ savedObjExits DIFFEPS D.rootObj v = false := by
  unfold rootChanges at h
  obtain ⟨r, hr, h⟩ := Res.bind_ok h
  split at h
  · rename_i hb
    simp only [Res.ok.injEq] at h; subst h; cases hb
  · dsimp only at h
    split at h
    · rename_i hb
      simp only [Res.ok.injEq] at h; rw [h] at hb; cases hb
    · split at h
      · rename_i hb; exact absurd hb.1 hc
      · cases ho : opt (rootIneqs limit bad D.commonIneqs r.2).2.V with
        | none => rw [ho] at h; cases h
        | some v =>
          rw [ho] at h
          simp only at h
          split at h
          · cases h
          · rename_i hex
            simp only [Res.ok.injEq] at h
            rw [h] at ho
            refine ⟨v, ho, ?_⟩
            unfold rootObjExits at hex
            rw [if_pos hi, hfin] at hex
            unfold savedObjExits
            rw [hfin]
            simp only [Bool.false_eq_true, if_false] at hex ⊢
            simpa only [Bool.not_eq_true] using hex

/-- Non-vacuity: a root bound whose LP value 3 matches the recorded 3.05 up to 3 %. -/
example : rootChanges (1/1000) (fun _ => false) (fun _ => false) (fun _ => some 3)
    { Disj.new with common := [⟨0, 0, 3⟩], rootObj := 305/100 } ⟨[some 0], [some 5], []⟩
    = .ok (false, ⟨⟨[some 3], [some 5], []⟩, [⟨[(0, 1)], 3⟩]⟩) := by decide +kernel

/-- and one that is 10 % off ends the process. -/
example : rootChanges (1/1000) (fun _ => false) (fun _ => false) (fun _ => some 3)
    { Disj.new with common := [⟨0, 0, 3⟩], rootObj := 33/10 } ⟨[some 0], [some 5], []⟩
    = .exit := by decide +kernel

end VPC
