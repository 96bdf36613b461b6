import Verif.Props.CutsOff

/-! # How far every cut cuts off the LP optimum, without hypotheses on the size of coefficients (C156)

`setOsiRowCut` (src/cut/CutHelper.cpp:21-48) leaves out coefficients below `EPS` without touching the right-hand side. What
that costs at a point is the coefficient times the value of the variable. With this, the statements of `CutsOff` hold for
all solutions of the point-ray LP. -/

namespace VPC

open Finset

/-- What the coefficients that are not stored contribute at `x`. -/
def tinyLoss (e : GenEnv) (β : List ℚ) (x : Vec) : ℚ :=
  ∑ k ∈ range e.lp.numCols,
    (if |structCoeff e.lp (scPairs e.lp.numCols e.nz β e.nbVar) e.beta k| < e.EPS then
      structCoeff e.lp (scPairs e.lp.numCols e.nz β e.nbVar) e.beta k * x k else 0)

/-- **C156.** The cut of any solution of the point-ray LP is violated at the LP optimum by the right-hand side of that LP
and what the coefficients that are not stored contribute. -/
theorem violation_any {e : GenEnv} (he : EnvOk e) (β : List ℚ) {x : Vec} (hx : AtOrigin e.lp e.nbVar x) :
    violAt (setCutFromNBCoefficients e.lp e.nz β e.beta e.nbVar e.EPS) x = e.beta + tinyLoss e β x := by
  have h1 := setCut_slack_eq e.lp e.nz β e.beta e.EPS e.nbVar x (nbOrder_scPairs he.order he.len he.ne he.sub)
  simp only at h1
  rw [nbDot_scPairs e.lp e.nz β e.nbVar x he.ne (he.sub.nodup List.nodup_range)
    (fun j hj => List.mem_range.1 (he.sub.subset hj))] at h1
  have h2 : ddot e.lp.numCols (expand e.nz β) (fun j => nbCoord e.lp x (e.nbVar.getD j 0)) = 0 := by
    unfold ddot
    refine sum_eq_zero fun i hi => ?_
    show expand e.nz β i * nbCoord e.lp x (e.nbVar.getD i 0) = 0
    rw [hx i (mem_range.1 hi), mul_zero]
  rw [h2] at h1
  unfold violAt tinyLoss
  linarith

theorem tinyLoss_abs {e : GenEnv} (he : 0 ≤ e.EPS) (β : List ℚ) {x : Vec} {X : ℚ} (hX : ∀ k < e.lp.numCols, |x k| ≤ X) :
    |tinyLoss e β x| ≤ e.lp.numCols * (e.EPS * X) := by
  unfold tinyLoss
  refine (abs_sum_le_sum_abs _ _).trans ?_
  have : ∀ k ∈ range e.lp.numCols,
      |(if |structCoeff e.lp (scPairs e.lp.numCols e.nz β e.nbVar) e.beta k| < e.EPS then
        structCoeff e.lp (scPairs e.lp.numCols e.nz β e.nbVar) e.beta k * x k else 0)| ≤ e.EPS * X := by
    intro k hk
    have hk' := hX k (mem_range.1 hk)
    have h0 : 0 ≤ X := (abs_nonneg _).trans hk'
    split
    · rename_i h
      rw [abs_mul]
      exact mul_le_mul h.le hk' (abs_nonneg _) he
    · rw [abs_zero]; exact mul_nonneg he h0
  refine (sum_le_sum this).trans ?_
  simp

/-- **C156.** The violation of every cut that passed cleaning, at the LP optimum. -/
theorem collected_violation_any {e : GenEnv} (he : EnvOk e) {β : List ℚ} {c : RowCut} (hc : CutFrom e β c)
    {x : Vec} (hx : AtOrigin e.lp e.nbVar x) :
    ∃ ρ : ℚ, (ρ = 0 ∨ (|ρ| < e.EPS ∧ c.lb = 0)) ∧
      violAt c x = e.beta + tinyLoss e β x -
        ((setCutFromNBCoefficients e.lp e.nz β e.beta e.nbVar e.EPS).row.map
        (dropLoss e.solver.colLower e.solver.colUpper e.solver.obj e.EPS e.clean.EPS_COEFF x)).sum - ρ := by
  have hcl : c = removeSmallCoefficients e.solver.colLower e.solver.colUpper e.solver.obj e.EPS
      e.clean.EPS_COEFF (setCutFromNBCoefficients e.lp e.nz β e.beta e.nbVar e.EPS) := by
    rw [← he.eps, ← cleanCut_fst e.norm, he.eps, hc]
  obtain ⟨ρ, h1, h2⟩ := violation_after_cleaning e.solver.colLower e.solver.colUpper e.solver.obj e.EPS
    e.clean.EPS_COEFF (setCutFromNBCoefficients e.lp e.nz β e.beta e.nbVar e.EPS) x
  rw [← hcl, violation_any he β hx] at h2
  rw [← hcl] at h1
  exact ⟨ρ, h1, h2⟩

/-- **C156, when the LP optimum is cut off** (partial: needs the bounds to be close enough). If no finite bound is further
than `R` from the LP optimum and no value of it is larger than `X`, the cut is violated there by at least the right-hand
side of the point-ray LP less `numCols · (EPS_COEFF · R + EPS · X) + EPS`. -/
theorem cuts_off_any_partial {e : GenEnv} (he : EnvOk e) {β : List ℚ} {c : RowCut} (hc : CutFrom e β c)
    {x : Vec} (hx : AtOrigin e.lp e.nbVar x) {R X : ℚ} (hEC : 0 ≤ e.clean.EPS_COEFF) (hR : 0 ≤ R)
    (hX : ∀ k < e.lp.numCols, |x k| ≤ X)
    (hl : ∀ k, isNegInfinity (e.solver.colLower k) = false → x k - e.solver.colLower k ≤ R)
    (hu : ∀ k, isInfinity (e.solver.colUpper k) = false → e.solver.colUpper k - x k ≤ R) :
    e.beta - e.lp.numCols * (e.clean.EPS_COEFF * R + e.EPS * X) - e.EPS ≤ violAt c x := by
  obtain ⟨ρ, h1, h2⟩ := collected_violation_any he hc hx
  have hs : ((setCutFromNBCoefficients e.lp e.nz β e.beta e.nbVar e.EPS).row.map
      (dropLoss e.solver.colLower e.solver.colUpper e.solver.obj e.EPS e.clean.EPS_COEFF x)).sum ≤
      e.lp.numCols * (e.clean.EPS_COEFF * R) := by
    refine (sum_le_length (c := e.clean.EPS_COEFF * R) fun q hq => ?_).trans ?_
    · obtain ⟨d, hd, rfl⟩ := List.mem_map.1 hq
      exact dropLoss_le hEC hR (setCut_noTiny _ _ _ _ _ _ d hd) (hl _) (hu _)
    · rw [List.length_map]
      have := setCut_length e.lp e.nz β e.beta e.nbVar e.EPS
      exact mul_le_mul_of_nonneg_right (by exact_mod_cast this) (mul_nonneg hEC hR)
  have hρ : ρ ≤ e.EPS := by
    rcases h1 with h | ⟨h, -⟩
    · rw [h]; exact he.pos
    · exact (le_abs_self _).trans h.le
  have ht := (neg_le_neg (tinyLoss_abs he.pos β hX)).trans (neg_abs_le _)
  rw [h2, mul_add]
  linarith

/-- **C156.** The violation is never more than the right-hand side of the point-ray LP, up to the coefficients that are not
stored and the rounding. -/
theorem violation_le_any {e : GenEnv} (he : EnvOk e) {β : List ℚ} {c : RowCut} (hc : CutFrom e β c)
    {x : Vec} (hx : AtOrigin e.lp e.nbVar x) (hbox : InBox e.solver.colLower e.solver.colUpper x) {X : ℚ}
    (hX : ∀ k < e.lp.numCols, |x k| ≤ X) :
    violAt c x ≤ e.beta + e.lp.numCols * (e.EPS * X) + e.EPS := by
  obtain ⟨ρ, h1, h2⟩ := collected_violation_any he hc hx
  have hs : 0 ≤ ((setCutFromNBCoefficients e.lp e.nz β e.beta e.nbVar e.EPS).row.map
      (dropLoss e.solver.colLower e.solver.colUpper e.solver.obj e.EPS e.clean.EPS_COEFF x)).sum := by
    refine List.sum_nonneg fun q hq => ?_
    obtain ⟨d, hd, rfl⟩ := List.mem_map.1 hq
    exact dropLoss_nonneg hbox (setCut_noTiny _ _ _ _ _ _ d hd)
  have hρ : -e.EPS ≤ ρ := by
    rcases h1 with h | ⟨h, -⟩
    · rw [h]; linarith [he.pos]
    · exact (neg_le_neg h.le).trans (neg_abs_le _)
  have ht := (le_abs_self _).trans (tinyLoss_abs he.pos β hX)
  rw [h2]
  linarith

/-- **C156, the run** (partial as above), for all solutions an LP solver may return. -/
theorem run_cuts_off_any_partial {W : TWorld} {L : BuiltLP} (hW : W.Sorts L) {cur : Option (List ℚ)} {g : Gen}
    {st : TSt} (h : targetCuts W L cur g = .ok st) (he : EnvOk W.env)
    {x : Vec} (hx : AtOrigin W.env.lp W.env.nbVar x)
    {R X : ℚ} (hEC : 0 ≤ W.env.clean.EPS_COEFF) (hR : 0 ≤ R) (hX : ∀ k < W.env.lp.numCols, |x k| ≤ X)
    (hl : ∀ k, isNegInfinity (W.env.solver.colLower k) = false → x k - W.env.solver.colLower k ≤ R)
    (hu : ∀ k, isInfinity (W.env.solver.colUpper k) = false → W.env.solver.colUpper k - x k ≤ R)
    (hroom : W.env.lp.numCols * (W.env.clean.EPS_COEFF * R + W.env.EPS * X) + W.env.EPS < W.env.beta) :
    ∀ c ∈ st.g.cuts, c ∈ g.cuts ∨ ¬ c.cut.Sat x := by
  intro c hc
  rcases cuts_from_attempts hW h c hc with h1 | ⟨a, ha, β, hβ, hcf⟩
  · exact .inl h1
  · right
    have := cuts_off_any_partial he hcf hx hEC hR hX hl hu
    unfold violAt at this
    unfold RowCut.Sat
    linarith

/-! ## Non-vacuity -/

namespace CutsOffEx

/-- As `lp`, with lower bounds 1: the LP optimum is `(1, 1)`. -/
def lp1 : LP := { lp with colLower := fun _ => 1, colUpper := fun _ => 2 }

def env1 : GenEnv :=
  { env with lp := lp1
             solver := { env.solver with colLower := lp1.colLower, colUpper := lp1.colUpper, colSolution := fun _ => 1 } }

theorem envOk1 : EnvOk env1 where
  order := ⟨⟨[0, 1], [], rfl, by decide, by decide, by decide⟩, fun r e he => by simp [env1, lp1, lp] at he⟩
  len := rfl
  ne := by decide
  sub := List.Sublist.refl _
  eps := rfl
  pos := by norm_num [env1, env]

end CutsOffEx

/-- Non-vacuity of `collected_violation_any`, `cuts_off_any_partial` and `violation_le_any`: a cut with a coefficient that
is not stored and changes the violation. -/
example : ∃ c, CutFrom CutsOffEx.env1 [1 / 10 ^ 8, 1] c ∧ EnvOk CutsOffEx.env1 ∧
    AtOrigin CutsOffEx.env1.lp CutsOffEx.env1.nbVar (fun _ => 1) ∧
    (∀ k < CutsOffEx.env1.lp.numCols, |(fun _ => 1 : Vec) k| ≤ 1) ∧
    InBox CutsOffEx.env1.solver.colLower CutsOffEx.env1.solver.colUpper (fun _ => 1) ∧
    tinyLoss CutsOffEx.env1 [1 / 10 ^ 8, 1] (fun _ => 1) = 1 / 10 ^ 8 ∧ violAt c (fun _ => 1) = 1 + 1 / 10 ^ 8 := by
  refine ⟨⟨[(1, 1)], 2 + 1 / 10 ^ 8⟩, by unfold CutFrom; decide +kernel, CutsOffEx.envOk1, by unfold AtOrigin; decide +kernel,
    fun _ _ => by norm_num, fun i => ?_, by decide +kernel, by decide +kernel⟩
  simp only [CutsOffEx.env1, CutsOffEx.lp1]
  norm_num

/-- Non-vacuity of `run_cuts_off_any_partial`: the run of `TargetEx`, whose columns have the bounds 0 and 1. -/
example : ∃ st, targetCuts Tri.tW Tri.L none Tri.tG = .ok st ∧ EnvOk Tri.tW.env ∧
    AtOrigin Tri.tW.env.lp Tri.tW.env.nbVar Tri.o.sol ∧
    (∀ k < Tri.tW.env.lp.numCols, |Tri.o.sol k| ≤ 1) ∧
    (∀ k, isNegInfinity (Tri.tW.env.solver.colLower k) = false → Tri.o.sol k - Tri.tW.env.solver.colLower k ≤ 1) ∧
    (∀ k, isInfinity (Tri.tW.env.solver.colUpper k) = false → Tri.tW.env.solver.colUpper k - Tri.o.sol k ≤ 1) ∧
    Tri.tW.env.lp.numCols * (Tri.tW.env.clean.EPS_COEFF * 1 + Tri.tW.env.EPS * 1) + Tri.tW.env.EPS < Tri.tW.env.beta ∧
    st.g.cuts ≠ [] := by
  have hb : (targetCuts Tri.tW Tri.L none Tri.tG).bind (fun st => Res.ok (!st.g.cuts.isEmpty)) = .ok true := by
    decide +kernel
  obtain ⟨st, h, hb⟩ := Res.bind_ok hb
  simp only [Res.ok.injEq, Bool.not_eq_true', List.isEmpty_eq_false_iff] at hb
  refine ⟨st, h, ⟨Tri.nbOk.order, rfl, by decide, List.Sublist.refl _, rfl, by norm_num [Tri.tW, Tri.tEnv]⟩,
    by unfold AtOrigin; decide +kernel, fun k _ => ?_, fun k _ => ?_, fun k _ => ?_, by decide +kernel, hb⟩
  · simp only [Tri.o]
    split <;> norm_num [abs_of_pos]
  · simp only [Tri.tW, Tri.tEnv, Tri.o]
    split <;> norm_num
  · simp only [Tri.tW, Tri.tEnv, Tri.o]
    split <;> norm_num

end VPC
