import Verif.Props.RootStats
import Verif.Props.Options

/-!
# What a branch-and-bound run returns (C115)

The run that counts: the first one, or the second one, without presolve, if the first ended with "infeasible or
unbounded" while presolve was on.
-/
namespace VPC

/-- Presolve has been switched off by the strategy. -/
def presolveOff (s : BitVec 32) : Prop := 0 < s.toInt ∧ s.getLsbD 9 = true

/-- Which run counts. -/
theorem grbLast_spec (s : BitVec 32) (first again : GrbRun) :
    (first.status = .infOrUnbd → ¬ presolveOff s → grbLast s first again = again) ∧
    (first.status ≠ .infOrUnbd ∨ presolveOff s → grbLast s first again = first) := by
  unfold grbLast presolveOff
  have hb : useBB s .presolve_off = s.getLsbD 9 := useBB_eq s .presolve_off
  rw [hb]
  constructor
  · intro h1 h2; rw [if_pos ⟨h1, h2⟩]
  · rintro (h | h)
    · rw [if_neg (fun e => h e.1)]
    · rw [if_neg (fun e => e.2 h)]

/-- **C115, Gurobi.** A run returns exactly if it ended with an optimal solution or at a limit and the solution that
is asked for has the objective value reported, up to the tolerance. Then the record holds the objective, bound,
iterations, nodes and time of the run that counts (everything else is as before), and the solution returned is the
one of that run. -/
theorem gurobi_result (c : GrbCfg) (s : BitVec 32) (want : Bool) (info : BBInfo) (first again r : GrbRun)
    (hr : r = grbLast s first again) (i : BBInfo) (x : Option (List ℚ)) :
    grbBB c s want info first again = .ok (i, x) ↔
      r.status ∈ [GrbStatus.optimal, .cutoff, .iterLimit, .nodeLimit, .timeLimit, .userObjLimit] ∧
      (want = true → ∀ y, r.sol = some y → |relaxObj c y - r.objVal| < 1 / 10 ^ 7) ∧
      x = (if want then r.sol else none) ∧
      i = { info with obj := r.objVal, bound := r.objBound, iters := r.iters, nodes := r.nodes,
                      time := r.runtime } := by
  unfold grbBB
  rw [← hr]
  dsimp only
  have hst : r.status.ends = false ↔
      r.status ∈ [GrbStatus.optimal, .cutoff, .iterLimit, .nodeLimit, .timeLimit, .userObjLimit] := by
    cases r.status <;> simp [GrbStatus.ends]
  rw [← hst]
  cases he : r.status.ends
  · simp only [Bool.false_eq_true, if_false, true_and]
    unfold grbCheck
    cases want
    · simp [Res.bind]
      constructor
      · rintro ⟨h1, h2⟩; exact ⟨h2.symm, h1.symm⟩
      · rintro ⟨h1, h2⟩; exact ⟨h2.symm, h1.symm⟩
    · cases hsol : r.sol with
      | none =>
        simp [Res.bind]
        constructor
        · rintro ⟨h1, h2⟩; exact ⟨h2.symm, h1.symm⟩
        · rintro ⟨h1, h2⟩; exact ⟨h2.symm, h1.symm⟩
      | some y =>
        dsimp only
        rw [nodeObj_eq]
        unfold isVal defEps
        by_cases hv : |relaxObj c y - r.objVal| < 1 / 10 ^ 7
        · simp only [hv, decide_true, if_true, Res.bind, Res.ok.injEq, Prod.mk.injEq, Option.some.injEq, forall_eq',
            true_and, forall_const]
          constructor
          · rintro ⟨h1, h2⟩; exact ⟨h2.symm, h1.symm⟩
          · rintro ⟨h1, h2⟩; exact ⟨h2.symm, h1.symm⟩
        · simp only [hv, decide_false, Bool.false_eq_true, if_false, Res.bind, reduceCtorEq, Option.some.injEq,
            forall_eq', forall_const, false_and]
  · simp

/-- Otherwise the process ends; nothing is undefined. -/
theorem gurobi_result_exit (c : GrbCfg) (s : BitVec 32) (want : Bool) (info : BBInfo) (first again : GrbRun) :
    grbBB c s want info first again = .exit ∨ ∃ o, grbBB c s want info first again = .ok o := by
  unfold grbBB
  dsimp only
  split
  · exact Or.inl rfl
  · unfold grbCheck
    split
    · split
      · exact Or.inr ⟨_, rfl⟩
      · exact Or.inl rfl
    · exact Or.inr ⟨_, rfl⟩

/-- With user cuts: the same five values. -/
theorem gurobi_user_result (c : GrbCfg) (s : BitVec 32) (want : Bool) (info : BBInfo) (first again r : GrbRun)
    (hr : r = grbLast (withUserCuts s) first again) (o : BBInfo × Option (List ℚ) × List RowCut)
    (h : grbUser c s want info first again = .ok o) :
    o.1.obj = r.objVal ∧ o.1.bound = r.objBound ∧ o.1.iters = r.iters ∧ o.1.nodes = r.nodes ∧
    o.1.time = r.runtime ∧ o.2.1 = (if want then r.sol else none) := by
  unfold grbUser at h
  obtain ⟨⟨i, x⟩, h1, h2⟩ := Res.bind_ok h
  rw [gurobi_result c _ want info first again r hr] at h1
  obtain ⟨_, _, h3, h4⟩ := h1
  simp only [Res.ok.injEq] at h2
  subst h2
  subst h4
  refine ⟨?_, ?_, ?_, ?_, ?_, h3⟩ <;>
  · unfold grbReport
    split
    · rfl
    · split <;> rfl

example : grbBB ucCfg 24 true {} { ucRun with sol := some [2, 2, 1] } ucRun =
    .ok (⟨11, 11, 30, 2, 0, 0, 0, 0, 0, 0, 7⟩, some [2, 2, 1]) := by decide +kernel
example : grbBB ucCfg 24 true {} { ucRun with sol := some [2, 1, 1] } ucRun = .exit := by decide +kernel
/-- **C115, second run.** The time of the first run is not counted. -/
theorem gurobi_time_lost (c : GrbCfg) (s : BitVec 32) (info : BBInfo) (first again : GrbRun) (i : BBInfo)
    (x : Option (List ℚ)) (h1 : first.status = .infOrUnbd) (h2 : ¬ presolveOff s)
    (h : grbBB c s false info first again = .ok (i, x)) : i.time = again.runtime := by
  rw [gurobi_result c s false info first again again ((grbLast_spec s first again).1 h1 h2).symm] at h
  rw [h.2.2.2]

/-! ## CPLEX -/

/-- Which run counts. -/
theorem cpxLast_spec (s : BitVec 32) (first again : CpxRun) :
    (first.status = .infOrUnbd → ¬ presolveOff s → cpxLast s first again = again) ∧
    (first.status ≠ .infOrUnbd ∨ presolveOff s → cpxLast s first again = first) := by
  unfold cpxLast cpxAgain presolveOff
  have hb : useBB s .presolve_off = s.getLsbD 9 := useBB_eq s .presolve_off
  rw [hb]
  simp only [Bool.and_eq_true, decide_eq_true_eq, Bool.not_eq_true', Bool.and_eq_false_iff,
    decide_eq_false_iff_not]
  constructor
  · intro h1 h2
    rw [if_pos]
    refine ⟨h1, ?_⟩
    by_cases h : 0 < s.toInt
    · right; simpa [h] using h2
    · left; exact h
  · rintro (h | h)
    · rw [if_neg (fun e => h e.1)]
    · rw [if_neg]
      rintro ⟨_, e | e⟩
      · exact e h.1
      · rw [h.2] at e; exact absurd e (by simp)

/-- What the record of the caller is when the values of the run are read: the callbacks of the user-cut version write
into it during the run. -/
def cpxDuring (s : BitVec 32) (cb : Bool) (info : BBInfo) (first again : CpxRun) : BBInfo :=
  if cb then (cpxEventsOf s first again).foldl cpxStep info else info

/-- **C115, CPLEX.** A run returns exactly if it ended with an optimal solution or at a limit, and with a solution if
one is asked for. The record holds the bound, iterations and nodes of the run that counts; the objective is that of
the run if it has a solution. -/
theorem cplex_result (s : BitVec 32) (cb want : Bool) (info : BBInfo) (first again r : CpxRun)
    (hr : r = cpxLast s first again) (i : BBInfo) (x : Option (List ℚ)) :
    cpxBB s cb want info first again = .ok (i, x) ↔
      r.status ∈ [CpxStatus.optimal, .limitFeas, .limitInfeas] ∧
      (want = true → r.sol ≠ none) ∧
      x = (if want then r.sol else none) ∧
      i = { cpxDuring s cb info first again with
              obj := if r.status = .limitInfeas then (cpxDuring s cb info first again).obj else r.objVal,
              bound := r.bestBound, iters := r.iters, nodes := r.nodes, time := first.runtime } := by
  unfold cpxBB cpxValues
  rw [← hr]
  dsimp only
  rw [show (if cb = true then List.foldl cpxStep info (cpxEventsOf s first again) else info) =
    cpxDuring s cb info first again from rfl]
  have key : ∀ (j : BBInfo) (p : Prop), p → ((((cpxSol want r).bind fun x => Res.ok ({ j with iters := r.iters, nodes := r.nodes, time := first.runtime }, x)) = .ok (i, x)) ↔
      (p ∧ (want = true → r.sol ≠ none) ∧ x = (if want then r.sol else none) ∧
      i = { j with iters := r.iters, nodes := r.nodes, time := first.runtime })) := by
    intro j p hp
    unfold cpxSol
    cases want
    · simp [Res.bind, hp]
      constructor
      · rintro ⟨h1, h2⟩; exact ⟨h2.symm, h1.symm⟩
      · rintro ⟨h1, h2⟩; exact ⟨h2.symm, h1.symm⟩
    · cases r.sol with
      | none => simp [Res.bind]
      | some y =>
        simp [Res.bind, hp]
        constructor
        · rintro ⟨h1, h2⟩; exact ⟨h2.symm, h1.symm⟩
        · rintro ⟨h1, h2⟩; exact ⟨h2.symm, h1.symm⟩
  cases hs : r.status
  · simp [Res.bind]
  · simp [Res.bind]
  · simp [Res.bind]
  · exact key _ _ (by simp)
  · exact key _ _ (by simp)
  · exact key _ _ (by simp)
  · simp [Res.bind]

/-- Otherwise the process ends; nothing is undefined. -/
theorem cplex_result_exit (s : BitVec 32) (cb want : Bool) (info : BBInfo) (first again : CpxRun) :
    cpxBB s cb want info first again = .exit ∨ ∃ o, cpxBB s cb want info first again = .ok o := by
  unfold cpxBB cpxValues cpxSol
  dsimp only
  cases (cpxLast s first again).status <;> cases want <;> cases (cpxLast s first again).sol <;>
    simp [Res.bind]

example : cpxBB 20 true true { firstCutPass := -dblMax, lastCutPass := -dblMax } { ucCpx with sol := some [1, 2] } ucCpx =
    .ok (⟨11, 11, 30, 2, 2, 9, 10, 9, 4, 5, 7⟩, some [1, 2]) := by decide +kernel

/-- **Negation.** At a time limit without any solution the objective reported is 0, better than the bound of a problem
with positive objective; the bound is right. -/
theorem cplex_no_solution_zero : ∃ (r : CpxRun) (i : BBInfo),
    r.status = .limitInfeas ∧ r.sol = none ∧ cpxBB 4 false false {} r r = .ok (i, none) ∧ i.obj = 0 ∧
    i.bound = 10 ∧ i.obj < i.bound := by
  refine ⟨{ ucCpx with status := .limitInfeas, bestBound := 10, sol := none },
    ⟨0, 10, 30, 2, 0, 0, 0, 0, 0, 0, 7⟩, rfl, rfl, ?_, rfl, rfl, ?_⟩
  · decide +kernel
  · decide

/-- **Negation.** If a solution is asked for and the limit is reached before one is found, the process ends. -/
theorem cplex_no_solution_ends (s : BitVec 32) (cb : Bool) (info : BBInfo) (first again : CpxRun)
    (h : (cpxLast s first again).sol = none) : cpxBB s cb true info first again = .exit := by
  rcases cplex_result_exit s cb true info first again with h' | ⟨⟨i, x⟩, h'⟩
  · exact h'
  · rw [cplex_result s cb true info first again _ rfl] at h'
    exact absurd h (h'.2.1 rfl)

example : cpxBB 4 false true {} { ucCpx with status := .limitInfeas, sol := none } ucCpx = .exit :=
  cplex_no_solution_ends 4 false {} _ _ (by decide +kernel)

/-- **C115, second run.** The time reported is that of the first run, all other values are of the second: the time
limit of the second run is not seen. -/
theorem cplex_time_first (s : BitVec 32) (cb want : Bool) (info : BBInfo) (first again : CpxRun) (i : BBInfo)
    (x : Option (List ℚ)) (h1 : first.status = .infOrUnbd) (h2 : ¬ presolveOff s)
    (h : cpxBB s cb want info first again = .ok (i, x)) :
    i.time = first.runtime ∧ i.nodes = again.nodes ∧ i.iters = again.iters ∧ i.bound = again.bestBound := by
  rw [cplex_result s cb want info first again again ((cpxLast_spec s first again).1 h1 h2).symm] at h
  rw [h.2.2.2]
  exact ⟨rfl, rfl, rfl, rfl⟩

example : cpxBB 4 false false {} { ucCpx with status := .infOrUnbd, runtime := 1 } ucCpx =
    .ok (⟨11, 11, 30, 2, 0, 0, 0, 0, 0, 0, 1⟩, none) := by decide +kernel

/-! ## Cbc -/

/-- **C115, Cbc.** -/
theorem cbc_result (info : BBInfo) (r : CbcRun) (i : BBInfo) : cbcBB info r = .ok i ↔
    r.fails = false ∧
    i = { info with time := r.seconds, obj := r.objVal, bound := r.best, iters := r.iters, nodes := r.nodes } := by
  unfold cbcBB
  cases r.fails
  · simp only [Bool.false_eq_true, if_false, Res.ok.injEq, true_and]; exact eq_comm
  · simp

example : cbcBB {} ucCbc = .ok ⟨11, 11, 30, 5, 0, 0, 0, 0, 0, 0, 7⟩ := by decide +kernel

end VPC
