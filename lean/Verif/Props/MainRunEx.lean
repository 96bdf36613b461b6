import Verif.Props.MainRun

/-!
# Concrete runs of the main program (C119, C120)
-/
namespace VPC

/-- The LP of one column. -/
theorem feas_one {a b : ℚ} {rows : List MRow} {x : Vec} :
    (⟨[some a], [some b], rows⟩ : Relax).Feas x ↔ a ≤ x 0 ∧ x 0 ≤ b ∧
      ∀ r ∈ rows, geLo r.lb (sdot r.coeffs x) ∧ leHi r.ub (sdot r.coeffs x) := by
  constructor
  · rintro ⟨h1, h2, h3⟩
    exact ⟨h1 0 _ rfl a rfl, h2 0 _ rfl b rfl, h3⟩
  · rintro ⟨h1, h2, h3⟩
    refine ⟨?_, ?_, h3⟩
    · rintro i c hc l rfl
      cases i with
      | zero => simp at hc; exact hc ▸ h1
      | succ i => simp at hc
    · rintro i c hc l rfl
      cases i with
      | zero => simp at hc; exact hc ▸ h2
      | succ i => simp at hc

/-- The optimum in the result of a run, if the run ends regularly. -/
def ipObjOf : Res MainOut → Option ℚ
  | .ok o => some o.ipObj
  | .exit => none
  | .undef => none

theorem ipObjOf_some {r : Res MainOut} {v : ℚ} (h : ipObjOf r = some v) : ∃ o, r = .ok o ∧ o.ipObj = v := by
  cases r with
  | ok o => exact ⟨o, rfl, by simpa [ipObjOf] using h⟩
  | exit => simp [ipObjOf] at h
  | undef => simp [ipObjOf] at h

/-- Minimize `x - off` subject to `2 x ≥ 5`, `0 ≤ x ≤ 4`, `x` integer; Gurobi finds `x = 3`. -/
def mrW (off : ℚ) : MainWorld where
  stod := fun _ => none
  optLines := none
  prob := { prepInst 1 1 with offset := off }
  lp := some (5 / 2 - off, [5 / 2])
  frac := [0]
  fexists := fun _ => false
  hasGurobi := true
  gurobi := fun _ => .ok [3]
  prep := prepW (prepInst 1 1)
  logOpen := false
  rounds := demoRounds

/-- Default parameters, with the search for an optimal solution. -/
def mrP : Params := ((Params.default.setI .TEMP 8).getD Params.default).setS .FILENAME "d/a.mps"

/-- A run in which the optimum comes from the solution that Gurobi found. -/
theorem mr_run : ipObjOf (mainRun (mrW 0) mrP) = some 3 := by decide +kernel
theorem mr_run_off : ipObjOf (mainRun (mrW 7) mrP) = some 3 := by decide +kernel

theorem mr_value (off : ℚ) (x : Vec) : (mrW off).prob.value x = x 0 - off := by
  simp [mrW, Inst.value, prepInst]

theorem mr_sol {off : ℚ} {x : Vec} (h : (mrW off).prob.Sol x) : 3 ≤ x 0 := by
  obtain ⟨⟨hl, hh, hr⟩, hi⟩ := h
  obtain ⟨k, hk⟩ := hi 0 rfl
  have h1 := hr prepExRow (by simp [mrW, prepInst, prepP])
  have h2 : 5 ≤ 2 * x 0 := by
    have := h1.1 5 rfl
    simpa [prepExRow, sdot] using this
  rw [hk] at h2 ⊢
  have h3 : (5 : ℚ) ≤ ((2 * k : ℤ) : ℚ) := by push_cast; exact h2
  have h4 : (5 : ℤ) ≤ 2 * k := by exact_mod_cast h3
  exact_mod_cast (show (3 : ℤ) ≤ k by omega)

/-- Gurobi's solution is optimal. -/
theorem mr_optimal (off : ℚ) (c : GrbCall) (x : List ℚ) (h : (mrW off).gurobi c = .ok x) :
    (mrW off).prob.Optimum ((mrW off).prob.value (asVec x)) := by
  cases h
  refine ⟨⟨asVec [3], ⟨feas_one.mpr ⟨?_, ?_, ?_⟩, ?_⟩, rfl⟩, fun y hy => ?_⟩
  · norm_num [asVec]
  · norm_num [asVec]
  · intro r hr
    simp only [mrW, prepInst, prepP, List.mem_singleton] at hr
    subst hr
    constructor
    · intro l hl
      cases hl
      norm_num [prepExRow, sdot, asVec]
    · intro u hu
      cases hu
  · intro i _
    by_cases h0 : i = 0
    · subst h0
      exact ⟨3, by norm_num [asVec]⟩
    · refine ⟨0, ?_⟩
      unfold asVec
      rw [List.getD_eq_default]
      · simp
      · simp; omega
  · rw [mr_value, mr_value]
    have := mr_sol hy
    have e : asVec [3] 0 = 3 := rfl
    rw [e]
    linarith

theorem mr_lookup (off : ℚ) (v : ℚ) :
    getObjValueFromFile (mrW off).stod (mrP.text .OPTFILE) (mrP.text .FILENAME) (mrW off).optLines ≠ .value v := by
  have : getObjValueFromFile (mrW off).stod (mrP.text .OPTFILE) (mrP.text .FILENAME) (mrW off).optLines =
      .lowest := by
    show getObjValueFromFile (fun _ => none) (mrP.text .OPTFILE) (mrP.text .FILENAME) none = .lowest
    decide +kernel
  rw [this]
  simp

/-- All hypotheses of `solution_optimum_partial` are met: the optimum of the reports is the optimum 3. -/
example : ∃ out, mainRun (mrW 0) mrP = .ok out ∧ out.ipObj = 3 ∧ (mrW 0).prob.Optimum out.ipObj := by
  obtain ⟨o, ho, hv⟩ := ipObjOf_some mr_run
  refine ⟨o, ho, hv, solution_optimum_partial ho (by simp [mrW]) ?_ ?_ (mr_lookup 0) (mr_optimal 0) rfl⟩
  · rw [hv]; unfold Known; decide +kernel
  · rw [hv]; decide +kernel

/-- **C119 (negation).** The same problem with the objective `x - 7`: the optimal value is -4, the reports use 3. -/
theorem solution_offset_witness : ∃ out, mainRun (mrW 7) mrP = .ok out ∧ out.ipObj = 3 ∧
    (mrW 7).prob.Optimum (-4) ∧ ¬ (mrW 7).prob.Optimum out.ipObj := by
  obtain ⟨o, ho, hv⟩ := ipObjOf_some mr_run_off
  refine ⟨o, ho, hv, ?_, solution_offset_wrong ho (by simp [mrW]) ?_ ?_ (mr_lookup 7) (mr_optimal 7) ?_⟩
  · have := mr_optimal 7 ⟨0, [], 0, []⟩ [3] rfl
    rw [mr_value] at this
    have e : asVec [3] 0 - 7 = -4 := by norm_num [asVec]
    rwa [e] at this
  · rw [hv]; unfold Known; decide +kernel
  · rw [hv]; decide +kernel
  · show (7 : ℚ) ≠ 0
    norm_num

/-- The run with an objective known to the user. -/
def mrGiven : Params := (mrP.setD .IP_OBJ 3).getD mrP
example : ipObjOf (mainRun (mrW 7) mrGiven) = some 3 ∧ Known (mrGiven.dbls .IP_OBJ).val := by
  unfold Known
  decide +kernel

/-- A file of optima with the record of the instance. -/
def mrFile : Params := (Params.default.setS .OPTFILE "opt.csv").setS .FILENAME "d/a.mps"
def mrFileW : MainWorld := { mrW 0 with stod := fun _ => some 3, optLines := some ["b,1".toList, "a,3".toList] }
example : ipObjOf (mainRun mrFileW mrFile) = some 3 := by decide +kernel
/-- A file without the record. -/
example : ipObjOf (mainRun { mrFileW with optLines := some [] } mrFile) = some (-dblMax) := by decide +kernel

/-- Minimize `-x`, `0 ≤ x ≤ 1999/2000`, `x` integer: the LP solution is within 1/1000 of the integer 1. -/
def nearW : MainWorld where
  stod := fun _ => none
  optLines := none
  prob := ⟨⟨[some 0], [some (1999 / 2000)], []⟩, [-1], 0, 1, fun _ => true⟩
  lp := some (-1999 / 2000, [1999 / 2000])
  frac := []
  fexists := fun _ => false
  hasGurobi := true
  gurobi := fun _ => .ok []
  prep := prepW (prepInst 1 1)
  logOpen := false
  rounds := demoRounds

theorem near_run : ipObjOf (mainRun nearW mrP) = some (-1999 / 2000) := by decide +kernel

theorem near_lpTrue : nearW.LpTrue := by
  rintro v x h
  cases h
  refine ⟨feas_one.mpr ⟨?_, ?_, by simp⟩, by norm_num [nearW, Inst.value, asVec], fun y hy => ?_⟩
  · norm_num [asVec]
  · norm_num [asVec]
  · have := (feas_one.mp hy).2.1
    simp only [nearW, Inst.value, List.zipIdx_cons, List.zipIdx_nil, List.map_cons, List.map_nil,
      List.sum_cons, List.sum_nil]
    linarith

theorem near_fracTrue : nearW.FracTrue (mrP.dbls .AWAY).val := by
  have ha : (mrP.dbls .AWAY).val = 1 / 10 ^ 3 := by decide +kernel
  rw [ha]
  rintro v x h i - -
  cases h
  by_cases h0 : i = 0
  · subst h0
    exact ⟨1, by norm_num [asVec, abs_lt]⟩
  · refine ⟨0, ?_⟩
    unfold asVec
    rw [List.getD_eq_default]
    · norm_num
    · simp; omega

/-- **C120 (negation).** With a truthful LP solver and a correct test of integrality up to the parameter `AWAY`, the
run reports -0.9995 as the optimum and ends with "optimal solution found"; the optimum is 0. -/
theorem integral_optimum_wrong : ∃ out, mainRun nearW mrP = .ok out ∧ nearW.LpTrue ∧
    nearW.FracTrue (mrP.dbls .AWAY).val ∧ out.reason = .OPTIMAL_SOLUTION_FOUND ∧
    nearW.prob.Optimum 0 ∧ ¬ nearW.prob.Optimum out.ipObj := by
  obtain ⟨o, ho, hv⟩ := ipObjOf_some near_run
  have hopt : nearW.prob.Optimum 0 := by
    refine ⟨⟨fun _ => 0, ⟨feas_one.mpr ⟨by norm_num, by norm_num, by simp⟩, fun i _ => ⟨0, by simp⟩⟩,
      by simp [nearW, Inst.value]⟩, fun y hy => ?_⟩
    · have h1 := (feas_one.mp hy.1).2.1
      obtain ⟨k, hk⟩ := hy.2 0 rfl
      have h2 : k ≤ 0 := by
        rw [hk] at h1
        have : (k : ℚ) < 1 := by linarith
        have : k < 1 := by exact_mod_cast this
        omega
      have h3 : y 0 ≤ 0 := by rw [hk]; exact_mod_cast h2
      simp only [nearW, Inst.value, List.zipIdx_cons, List.zipIdx_nil, List.map_cons, List.map_nil,
        List.sum_cons, List.sum_nil]
      linarith
  refine ⟨o, ho, near_lpTrue, near_fracTrue, (run_integral ho rfl rfl).2.1, hopt, ?_⟩
  rw [hv]
  rintro ⟨⟨x, hx, hx2⟩, -⟩
  have := hopt.2 x hx
  rw [hx2] at this
  norm_num at this

/-- A run that cleans the instance. -/
def mrPrep : Params := ((mrP.setI .PREPROCESS 2).getD mrP).setI .BB_STRATEGY 8 |>.getD mrP
example : ipObjOf (mainRun (mrW 0) mrPrep) = some 3 ∧ (mrPrep.ints .PREPROCESS).val ≠ 0 := by decide +kernel

/-- A starting solution beside the instance. -/
example : (solutionCall (fun _ => true) mrP 0).solfile = "d/a_gurobi.mst.gz".toList ∧
    0 < (solutionCall (fun _ => true) mrP 0).strategy.toInt := by decide +kernel

end VPC
