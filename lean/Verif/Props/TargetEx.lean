import Verif.Props.TargetLimits
import Verif.Props.TargetValid
import Verif.Props.TargetCounts
import Verif.Props.EndToEndEx

/-!
# Concrete runs of the loop over objectives (non-vacuity of `Target*`)
-/
namespace VPC

/-! ## The split of `EndToEndEx` with a truthful solver -/
namespace Tri

/-- The LPs the solver of the example knows how to solve: nonnegative objectives on the point-ray LP
`L`, whose least element is `(1/2, 1/2)`. -/
def known (p : PLP) : Bool :=
  decide (p.base = L) && decide (p.obj.length = 2) && p.obj.all (fun c => decide (0 ≤ c)) &&
    (decide (p.eqRow = none) || decide (p.eqRow = some 0) || decide (p.eqRow = some 1))

def tEnv : GenEnv :=
  { lp := lp, nbVar := [2, 3], nz := [0, 1], beta := 1, EPS := 1 / 10000000, MIN_ORTHO := 0
    clean := { EPS_COEFF := 1 / 10 ^ 5, MAX_DYN := 10 ^ 8, MIN_SUP_THRESH := 100, MAX_SUP_ABS := 1000,
               MAX_SUP_REL := 1, MIN_VIOL_ABS := 1 / 10 ^ 7, MIN_VIOL_REL := 1 / 10 ^ 7,
               MIN_ABS_COEFF := 1, MAX_ABS_COEFF := 1, EPS := 1 / 10000000, checkViolation := true }
    solver := { numCols := 2, colLower := fun _ => 0, colUpper := fun _ => 1, obj := cost
                colSolution := o.sol }
    norm := fun _ => 1
    ortho := fun _ _ => 1 }

/-- A world with that solver; the sorts do nothing; every heuristic is on. -/
def tW : TWorld :=
  { env := tEnv
    solve := fun _ p => if known p then .optimal [1/2, 1/2] else .other
    timeUp := fun _ => false, time := fun _ => 0, basics := fun _ _ => [0, 1, 2, 3, 4]
    order := fun _ l => l, unitOrder := [0, 1]
    gomory := .point [1, 1], gomoryStep := fun _ => .stationary
    prlpTimeLimit := 100, numCols := 2, useAllOnes := 1, useIterBilinear := 1, useDisjLB := 1
    useTightPoints := 10, useTightRays := 10, useUnitVectors := 10 }

theorem tSorts : tW.Sorts L := ⟨fun _ l => List.Perm.refl l, by decide⟩

theorem tWF : L.WF := ⟨by decide, rfl, rfl⟩

theorem tTruthful : tW.Truthful 1000000 := by
  intro n p x h
  simp only [tW] at h
  split at h
  · rename_i hk
    simp only [Solve.optimal.injEq] at h
    subst h
    simp only [known, Bool.and_eq_true, Bool.or_eq_true, decide_eq_true_eq, List.all_eq_true] at hk
    obtain ⟨⟨⟨hb, hl⟩, hpos⟩, he⟩ := hk
    obtain ⟨B, eq, obj⟩ := p
    simp only at hb hl hpos he
    subst hb
    refine ⟨⟨feasβ, ?_⟩, ?_⟩
    · intro k hk
      simp only at hk
      rcases he with (he | he) | he
      · rw [he] at hk; cases hk
      · rw [he] at hk; cases hk; show L.act _ _ ≤ L.rhs _; decide +kernel
      · rw [he] at hk; cases hk; show L.act _ _ ≤ L.rhs _; decide +kernel
    · rintro y ⟨hy, -⟩
      have hlen : y.length = 2 := hy.1
      match obj, hl, y, hlen with
      | [a, b], _, [u, v], _ =>
        have h1 := hy.2.2 ([(0, 2)], 1) (by simp [L])
        have h2 := hy.2.2 ([(1, 2)], 1) (by simp [L])
        simp [sdot] at h1 h2
        have ha := hpos a (by simp)
        have hb := hpos b (by simp)
        simp [objVal]
        nlinarith
  · cases h


/-- The generator of the example: at most 10 cuts. -/
def tG : Gen := demoGen 10 false false false [] [] []

/-- The objectives tried: the all-ones objective finds the cut `x1 ≤ 0`; the others find the same solution
again, or no solution. (Unit vectors are skipped because both lower bounds are tight already; the last
point is reached only in the second round of points.) -/
theorem tRun_log : (targetCuts tW L none tG).bind (fun st =>
      Res.ok (st.log.map (fun a => (a.heur, a.lp.eqRow, a.lp.obj)))) =
    .ok [(.ALL_ONES, none, [1, 1]), (.ITER_BILINEAR, none, [1, 1]), (.DISJ_LB, none, [0, 2]),
      (.DISJ_LB, some 0, [-1, 0]), (.DISJ_LB, some 0, [0, -1]), (.TIGHT_RAYS, none, [1, 1]),
      (.TIGHT_POINTS2, none, [2, 0]), (.TIGHT_POINTS2, some 1, [-1, 0]),
      (.TIGHT_POINTS2, some 1, [0, -1])] := by
  decide +kernel

/-- The result: one cut, eight failures, and the LP as it was, with zero objective. -/
theorem tRun_res : (targetCuts tW L none tG).bind (fun st =>
      Res.ok (st.g.cuts.map (fun c => (c.cut.row, c.cut.lb)), st.pCuts, st.pFails, st.lp)) =
    .ok ([([(1, -1)], 0)], 1, 8, ⟨L, none, [0, 0]⟩) := by
  decide +kernel

/-- The solutions used by the attempts are all the solution of the run of `EndToEndEx`. -/
theorem tRun_sol : (targetCuts tW L none tG).bind (fun st =>
      Res.ok (st.log.all fun a => decide (a.sol? = none ∨ a.sol? = some [1/2, 1/2]))) = .ok true := by
  decide +kernel

/-- Non-vacuity of `objectives_as_documented`, `target_is_history`, `tried_only_below_limits`,
`tried_total_bounded`, `heuristic_budgets`, `heuristic_order`, `solutions_optimal`,
`cuts_from_attempts`: the run exists and satisfies their hypotheses. -/
example : ∃ st, targetCuts tW L none tG = .ok st ∧ st.log.length = 9 ∧
    (∀ a ∈ st.log, HeurSpec L a.heur a.lp ∧ SameRows L a.lp) ∧
    tG.run (st.log.map (·.op)) = some st.g ∧
    (st.log.length : ℤ) ≤ max (max 20 (10 * ((tG.cutLimit + 3) / 4) + 1)) (6 * (tG.cutLimit - tG.counted)) ∧
    usesOf .TIGHT_RAYS st.log + usesOf .TIGHT_RAYS2 st.log ≤ (maxRays tW L).toNat ∧
    st.log.Pairwise (fun a b => a.heur.rank ≤ b.heur.rank) ∧
    (∀ a ∈ st.log, ∀ x, a.sol? = some x → L.Feas 1000000 x) ∧
    ∀ c ∈ st.g.cuts, c ∈ tG.cuts ∨ ∃ a ∈ st.log, ∃ x, a.sol? = some x ∧ CutFrom tW.env x c.cut := by
  obtain ⟨st, h, hl⟩ := Res.bind_ok tRun_log
  refine ⟨st, h, ?_, (objectives_as_documented tWF tSorts h).1, (target_is_history tSorts h).1,
    tried_total_bounded tSorts (by decide) (by decide) rfl h, (heuristic_budgets h).2.2.2.2.2.1,
    (heuristic_order h).1, fun a ha x hx => (solutions_optimal tWF tSorts tTruthful h a ha x hx).1,
    cuts_from_attempts tSorts h⟩
  simp only [Res.ok.injEq] at hl
  simpa using congrArg List.length hl

/-- Non-vacuity of `target_cuts_valid_partial`: the cut of the run is satisfied by every point of the problem
with `x0 ∈ {0, 1}`. -/
example (x : Vec) (hx : V.Feas x) (h0 : x 0 = 0 ∨ x 0 = 1) (hb : ∀ i, 0 ≤ x i ∧ x i ≤ 1) :
    ∃ st, targetCuts tW L none tG = .ok st ∧
    ∀ c ∈ st.g.cuts, c ∈ tG.cuts ∨ c.cut.lb ≤ sdot c.cut.row x + 1 / 10000000 := by
  obtain ⟨st, h, hl⟩ := Res.bind_ok tRun_sol
  refine ⟨st, h, ?_⟩
  simp only [Res.ok.injEq, List.all_eq_true, decide_eq_true_eq] at hl
  have hrun : ∀ a ∈ st.log, ∀ β, a.sol? = some β → L.Feas 1000000 β →
      RunOk E D V ⟨V, []⟩ o false false w L β 1 tW.env.EPS x := by
    intro a ha β hβ _
    have := hl a ha
    rw [hβ] at this
    simp only [reduceCtorEq, Option.some.injEq, false_or] at this
    subst this
    exact runOk x
  rcases h0 with h0 | h0
  · exact target_cuts_valid_partial tWF tSorts tTruthful h ⟨rfl, rfl, rfl, by decide +kernel⟩ rfl
      (by decide +kernel) hrun
      (t := t0) (by simp [D]) rfl ⟨hx, by simp [D, Disj.new], by simp [t0, BChange.Sat, h0], by simp [t0]⟩
      (by simp [D, Disj.new]) hb
  · exact target_cuts_valid_partial tWF tSorts tTruthful h ⟨rfl, rfl, rfl, by decide +kernel⟩ rfl
      (by decide +kernel) hrun
      (t := t1) (by simp [D]) rfl ⟨hx, by simp [D, Disj.new], by simp [t1, BChange.Sat, h0], by simp [t1]⟩
      (by simp [D, Disj.new]) hb

end Tri
end VPC
