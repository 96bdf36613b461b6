import Verif.Props.TargetProps
import Verif.Props.GenLimits

/-!
# How many objectives are tried on one point-ray LP
-/
namespace VPC

/-- Not stopped by the failure limit: few objectives so far, or at least one in six successful. -/
theorem not_stopped {L : ℤ} (h1 : 1 ≤ L) (h2 : L ≤ 10 ^ 12) {t tl : ℚ} {cuts fails : ℕ}
    (h : reachedFailureLimit L t tl cuts fails = false) :
    ((cuts + fails : ℕ) : ℤ) < max 20 (10 * ((L + 3) / 4) + 1) ∨ fails ≤ 5 * cuts := by
  obtain ⟨c1, c2, c3⟩ := failure_constants L h1 h2
  rcases Nat.eq_zero_or_pos (cuts + fails) with h0 | h0
  · left
    rw [h0]
    exact lt_of_lt_of_le (by norm_num) (le_max_left _ _)
  by_contra hno
  push Not at hno
  obtain ⟨ha, hb⟩ := hno
  have hpos : (0 : ℚ) < ((cuts + fails : ℕ) : ℚ) := by exact_mod_cast h0
  have hg : greaterThanVal ((fails : ℚ) / ((cuts + fails : ℕ) : ℚ)) thr80 = true := by
    rw [greaterThanVal_iff, le_div_iff₀ hpos]
    have hb' : (5 : ℚ) * cuts < fails := by exact_mod_cast hb
    have h83 : thr80 + defEps ≤ 5 / 6 := by unfold thr80 defEps; norm_num
    calc (thr80 + defEps) * ((cuts + fails : ℕ) : ℚ) ≤ 5 / 6 * ((cuts + fails : ℕ) : ℚ) :=
          mul_le_mul_of_nonneg_right h83 hpos.le
      _ ≤ fails := by push_cast; linarith
  have : failRatioReached L cuts fails thr95 thr90 thr80 = true := by
    unfold failRatioReached
    dsimp only
    rw [c3, if_pos ⟨ha, hg⟩]
  unfold reachedFailureLimit at h
  rw [if_neg (by omega), this] at h
  simp at h

/-- The cuts counted against the limit. -/
def Gen.counted (g : Gen) : ℕ :=
  if g.perDisj then (g.disjID.take g.numCuts).count g.currDisj else g.numCuts

theorem counted_lt {g : Gen} (h : g.reachedCutLimit = false) : (g.counted : ℤ) < g.cutLimit := by
  unfold Gen.reachedCutLimit Gen.reachedForDisj reachedLimit at h
  unfold Gen.counted
  cases hp : g.perDisj <;> rw [hp] at h <;> simpa using h

theorem counted_eff {g g' : Gen} {heur : ObjType} {r : Ret} (hl : g.disjID.length = g.numCuts)
    (h : Eff g heur g' r) : g'.counted = g.counted + r.cuts ∧ g'.disjID.length = g'.numCuts := by
  cases h with
  | added c h =>
    refine ⟨?_, by simp [Gen.addCut, Gen.tick, hl]⟩
    show (if g.perDisj then ((g.disjID ++ [g.currDisj]).take (g.numCuts + 1)).count g.currDisj
      else g.numCuts + 1) = (if g.perDisj then (g.disjID.take g.numCuts).count g.currDisj
      else g.numCuts) + 1
    rcases Bool.eq_false_or_eq_true g.perDisj with hp | hp
    · rw [if_pos hp, if_pos hp, List.take_of_length_le (by simp [hl]), List.take_of_length_le (by omega)]
      simp
    · rw [if_neg (by simp [hp]), if_neg (by simp [hp])]
  | failed f => exact ⟨rfl, hl⟩
  | kept => exact ⟨rfl, hl⟩
  | replaced c k _ _ =>
    exact ⟨by simp [Gen.counted, Gen.failed, Gen.tick, Gen.replaceCut, Ret.cuts], hl⟩

/-- **C102.** On one point-ray LP never more objectives are tried than the larger of 20, `10⌈L/4⌉ + 1` and
`6 (L - k) `, where `L` is the cut limit and `k` the number of cuts already counted against it. -/
theorem tried_total_bounded {W : TWorld} {L : BuiltLP} (hW : W.Sorts L) {cur : Option (List ℚ)} {g : Gen}
    {st : TSt} (h1 : 1 ≤ g.cutLimit) (h2 : g.cutLimit ≤ 10 ^ 12) (hd : g.disjID.length = g.numCuts)
    (h : targetCuts W L cur g = .ok st) :
    (st.log.length : ℤ) ≤ max (max 20 (10 * ((g.cutLimit + 3) / 4) + 1)) (6 * (g.cutLimit - g.counted)) := by
  have hK : Keeps W L (fun st => TRefines g st ∧ st.g.disjID.length = st.g.numCuts ∧
      st.g.counted = g.counted + st.pCuts ∧ (st.log.length : ℤ) ≤
        max (max 20 (10 * ((g.cutLimit + 3) / 4) + 1)) (6 * (g.cutLimit - g.counted))) := by
    refine ⟨hW.cands, ?_, ?_, ?_⟩
    · intro st st' hP hg hl hc hf hb
      refine ⟨(refines_keeps hW g).same st st' hP.1 hg hl hc hf hb, ?_, ?_, ?_⟩
      · rw [hg]; exact hP.2.1
      · rw [hg, hc]; exact hP.2.2.1
      · rw [hl]; exact hP.2.2.2
    · intro st heur st' r ⟨hR, hlen, hcnt, hlog⟩ hb hs hi ha
      refine ⟨refines_att hR ha, ?_⟩
      obtain ⟨g', hg, rfl⟩ := attempt_ok ha
      obtain ⟨p, hp, he⟩ := genCut_eff W.env st.g st.cur (W.solve st.n st.lp) heur
      rw [hg] at hp
      simp only [Option.some.injEq] at hp
      subst hp
      obtain ⟨e1, e2⟩ := counted_eff hlen he
      simp only at e1 e2
      refine ⟨e2, ?_, ?_⟩
      · simp only [TSt.after]; rw [e1, hcnt]; omega
      · rw [after_log, List.length_append, List.length_singleton]
        have hlt := counted_lt hb.1
        rw [hR.limit, hcnt] at hlt
        obtain ⟨t, ht⟩ := hb.2
        rw [hR.limit] at ht
        have htr := hR.tried
        rcases not_stopped h1 h2 ht with hn | hn
        · rw [← htr] at hn
          refine le_trans ?_ (le_max_left _ _)
          push_cast
          omega
        · refine le_trans ?_ (le_max_right _ _)
          push_cast at hlt ⊢
          omega
    · intro st x j m hP hr hj hs
      exact ⟨(refines_keeps hW g).low st x j m hP.1 hr hj hs, hP.2.1, hP.2.2.1, hP.2.2.2⟩
  refine (targetCuts_keeps hK (fun st hg hl hc hf _ => ⟨refines_init g st hg hl hc hf, ?_, ?_, ?_⟩) h).1.2.2.2
  · rw [hg]; exact hd
  · rw [hg, hc]; rfl
  · rw [hl]
    refine le_trans ?_ (le_max_left _ _)
    exact le_trans (by norm_num) (le_max_left _ _)

end VPC
