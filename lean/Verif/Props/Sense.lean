import Verif.Model.Sense
import Verif.Props.Solver
import Verif.Props.BBTests
import Verif.Props.BBSettings
import Verif.Props.RootStats
import Verif.Props.LogGap

/-!
# C134: maximization instances in the branch-and-bound tests

Full property: for every instance, minimization or maximization, the values exchanged with the solver of the
branch-and-bound tests have one meaning: the reported objective values are in the sense in which the main
program works, the best of several runs is the best solution, the known optimal value that is handed over makes
the solver stop only when it has proved that value, and a solution counts as improving if it is better.

All of it holds for minimization instances and, as far as it applies, for Cbc; each part fails for
maximization instances with Gurobi.
-/
namespace VPC

/-- Specification: the program's value of a point, to be minimized, for an instance read from a file. -/
def programValue (file : Objective) (x : List ℚ) : ℚ := file.sense * file.value x

/-- Specification: `b` is a valid dual bound for the instance over the feasible points `S`, in the sense of the
file. -/
def DualBound (file : Objective) (S : List ℚ → Prop) (b : ℚ) : Prop :=
  ∀ y, S y → file.sense * b ≤ file.sense * file.value y

/-- Example: maximize `x₀`. -/
def maxX : Objective := ⟨-1, [1], 0⟩

/-- Example: minimize `2 x₀ + 1`. -/
def minX : Objective := ⟨1, [2], -1⟩

theorem sense_small (file : Objective) (hs : file.sense = -1) : file.sense < 1 / 10 ^ 3 := by
  rw [hs]; norm_num

/-- The value of the solver object is the program's value. -/
theorem program_value_eq (file : Objective) (hs : file.sense = 1 ∨ file.sense = -1) (x : List ℚ) :
    (toMinimization file).value x = programValue file x := by
  unfold programValue
  rcases hs with h | h
  · rw [(toMinimization_equiv file (.inl h)).2.2.1 h, h, one_mul]
  · rw [(toMinimization_equiv file (.inr h)).2.1 h x, h, neg_one_mul]

/-- **C134 (values), minimization or Cbc.** The reported objective value of a run is the program's value of the
solution found. -/
theorem run_value_partial (s : BBSolver) (file : Objective) (hs : file.sense = 1 ∨ file.sense = -1)
    (h : file.sense = 1 ∨ s = .cbc) (x : List ℚ) :
    (senseRecord s file x).obj = programValue file x := by
  rcases h with h | rfl
  · have e : toMinimization file = file := (toMinimization_equiv file (.inl h)).2.2.1 h
    have : solvedObjective s file = file := by cases s <;> simp [solvedObjective, e]
    simp only [senseRecord, this, programValue, h, one_mul]
  · exact program_value_eq file hs x

example : (senseRecord .gurobi minX [3]).obj = 7 ∧ (senseRecord .cbc maxX [3]).obj = -3 := by
  constructor <;> decide +kernel

/-- **C134 fails (values).** With Gurobi or CPLEX the reported objective value for a maximization instance is
the negative of the program's value, for every solution. -/
theorem run_value_negated (s : BBSolver) (file : Objective) (hs : file.sense = -1) (h : s ≠ .cbc) (x : List ℚ) :
    (senseRecord s file x).obj = -programValue file x := by
  have : solvedObjective s file = file := by cases s <;> simp_all [solvedObjective]
  simp only [senseRecord, this, programValue, hs]; ring

/-- The values of the runs. -/
theorem valuesOf_records (s : BBSolver) (file : Objective) (xs : List (List ℚ)) (v : ℚ) :
    v ∈ valuesOf (·.obj) (xs.map (senseRecord s file)) ↔ ∃ x ∈ xs, (senseRecord s file x).obj = v := by
  simp only [valuesOf, List.mem_map, Set.mem_setOf_eq]
  constructor
  · rintro ⟨r, ⟨x, hx, rfl⟩, e⟩; exact ⟨x, hx, e.symm⟩
  · rintro ⟨x, hx, e⟩; exact ⟨_, ⟨x, hx, rfl⟩, e.symm⟩

/-- **C134 (best of runs), minimization or Cbc.** The objective value in the summary is the program's value of
a solution found that no other run beat. -/
theorem best_run_partial (s : BBSolver) (file : Objective) (hs : file.sense = 1 ∨ file.sense = -1)
    (h : file.sense = 1 ∨ s = .cbc) (xs : List (List ℚ)) (hx : xs ≠ []) :
    ∃ x ∈ xs, senseBest s file xs = programValue file x ∧ ∀ y ∈ xs, programValue file x ≤ programValue file y := by
  have hb := (best_of_runs {} (xs.map (senseRecord s file)) (by simpa using hx)).obj
  obtain ⟨⟨x, hx, e⟩, hlow⟩ := (⟨(valuesOf_records s file xs _).mp hb.1, hb.2⟩ :
    (∃ x ∈ xs, (senseRecord s file x).obj = senseBest s file xs) ∧ _)
  rw [run_value_partial s file hs h] at e
  refine ⟨x, hx, e.symm, fun y hy => ?_⟩
  have := hlow ((valuesOf_records s file xs _).mpr ⟨y, hy, rfl⟩)
  rw [run_value_partial s file hs h y] at this
  exact e ▸ this

example : senseBest .gurobi minX [[3], [1], [2]] = 3 ∧ senseBest .cbc maxX [[3], [1], [2]] = -3 := by
  constructor <;> decide +kernel

/-- **C134 fails (best of runs).** With Gurobi or CPLEX the summary of a maximization instance gives the value
of the worst solution that any run found. -/
theorem best_run_is_worst (s : BBSolver) (file : Objective) (hs : file.sense = -1) (h : s ≠ .cbc)
    (xs : List (List ℚ)) (hx : xs ≠ []) :
    ∃ x ∈ xs, senseBest s file xs = file.value x ∧ ∀ y ∈ xs, file.value x ≤ file.value y := by
  have hb := (best_of_runs {} (xs.map (senseRecord s file)) (by simpa using hx)).obj
  obtain ⟨⟨x, hx, e⟩, hlow⟩ := (⟨(valuesOf_records s file xs _).mp hb.1, hb.2⟩ :
    (∃ x ∈ xs, (senseRecord s file x).obj = senseBest s file xs) ∧ _)
  have v : ∀ x, (senseRecord s file x).obj = file.value x := fun x => by
    rw [run_value_negated s file hs h, programValue, hs]; ring
  rw [v] at e
  refine ⟨x, hx, e.symm, fun y hy => ?_⟩
  have := hlow ((valuesOf_records s file xs _).mpr ⟨y, hy, rfl⟩)
  rw [v y] at this
  exact e ▸ this

/-- The full statement for the best of several runs is false: three runs that maximize `x₀` and find 3, 1 and
2 are reported with 1. -/
theorem best_run_full_fails : ¬ ∀ (s : BBSolver) (file : Objective) (xs : List (List ℚ)),
    (file.sense = 1 ∨ file.sense = -1) → xs ≠ [] →
    ∃ x ∈ xs, |senseBest s file xs| = |programValue file x| ∧
      ∀ y ∈ xs, programValue file x ≤ programValue file y := by
  intro h
  obtain ⟨x, hx, e, hb⟩ := h .gurobi maxX [[3], [1], [2]] (.inr rfl) (by simp)
  have h1 : senseBest .gurobi maxX [[3], [1], [2]] = 1 := by decide +kernel
  rw [h1] at e
  have h3 := hb [3] (by simp)
  have e3 : programValue maxX [3] = -3 := by decide +kernel
  rw [e3] at h3
  rw [abs_of_nonpos (by linarith : programValue maxX x ≤ 0)] at e
  norm_num at e
  linarith

/-! ## The known optimal value -/

/-- When a run stops at a bound, in terms of the value handed over. -/
theorem stopsAtBound_iff (file : Objective) (c : StratCfg) (st : BitVec 32) (best b : ℚ) (h0 : 0 < st.toInt)
    (hu : st.getLsbD 13 = true) (hb : ¬ Infinite best) (l : List GrbSet) (hl : grbSettings c st best = .ok l) :
    stopsAtBound file l b = true ↔
      (if file.sense < 1 / 10 ^ 3 then b ≤ best - 1 / 10 ^ 7 else best - 1 / 10 ^ 7 ≤ b) := by
  obtain ⟨l', hl', -, -, -, -, hm, -⟩ := gurobi_options c st best h0
  rw [hl] at hl'
  cases hl'
  have hi : isInfinity |best| = false := by
    rw [Bool.eq_false_iff]; exact fun h => hb ((isInfinity_abs best).mp h)
  have hm' : ∀ v, GrbSet.bestBdStop v ∈ l ↔ v = best - 1 / 10 ^ 7 := fun v => by
    rw [hm v]; simp [hu, hi]
  by_cases hc' : file.sense < 1 / 10 ^ 3
  · simp only [stopsAtBound, List.any_eq_true, if_pos hc']
    constructor
    · rintro ⟨s, hs, hc⟩
      cases s with
      | bestBdStop v => rw [(hm' v).mp hs] at hc; exact of_decide_eq_true hc
      | _ => exact absurd hc (by simp)
    · intro h; exact ⟨_, (hm' _).mpr rfl, decide_eq_true h⟩
  · simp only [stopsAtBound, List.any_eq_true, if_neg hc']
    constructor
    · rintro ⟨s, hs, hc⟩
      cases s with
      | bestBdStop v => rw [(hm' v).mp hs] at hc; exact of_decide_eq_true hc
      | _ => exact absurd hc (by simp)
    · intro h; exact ⟨_, (hm' _).mpr rfl, decide_eq_true h⟩

/-- **C134 (known optimal value), minimization.** If the optimal value of a minimization instance is known and
handed over, Gurobi stops at a valid bound exactly when the bound proves that value up to `10⁻⁷`. -/
theorem stop_proves_partial (file : Objective) (hs : file.sense = 1) (S : List ℚ → Prop) (x : List ℚ)
    (hx : IsOptimal file S x) (c : StratCfg) (st : BitVec 32) (h0 : 0 < st.toInt) (hu : st.getLsbD 13 = true)
    (hb : ¬ Infinite (file.value x)) (l : List GrbSet) (hl : grbSettings c st (file.value x) = .ok l) (b : ℚ)
    (hv : DualBound file S b) :
    stopsAtBound file l b = true ↔ |file.value x - b| ≤ 1 / 10 ^ 7 := by
  rw [stopsAtBound_iff file c st _ b h0 hu hb l hl, if_neg (by rw [hs]; norm_num)]
  have := hv x hx.1
  rw [hs] at this
  rw [abs_of_nonneg (by linarith)]
  constructor <;> intro h <;> linarith

/-- **C134 fails (known optimal value).** For a maximization instance with optimal value `z < 0` and the
program's optimal value `-z` handed over: Gurobi stops at every bound up to `-z - 10⁻⁷`, also at bounds that
are far from `z`. -/
theorem stop_too_early (file : Objective) (hs : file.sense = -1) (x : List ℚ) (c : StratCfg) (st : BitVec 32)
    (h0 : 0 < st.toInt) (hu : st.getLsbD 13 = true) (hb : ¬ Infinite (programValue file x)) (l : List GrbSet)
    (hl : grbSettings c st (programValue file x) = .ok l) (b : ℚ) :
    stopsAtBound file l b = true ↔ b ≤ -file.value x - 1 / 10 ^ 7 := by
  rw [stopsAtBound_iff file c st _ b h0 hu hb l hl, if_pos (sense_small file hs)]
  simp only [programValue, hs, neg_one_mul]

/-- **C134 fails (known optimal value).** For a maximization instance with a nonnegative optimal value the
value handed over never makes Gurobi stop, whichever sense it is given in. -/
theorem stop_never (file : Objective) (hs : file.sense = -1) (S : List ℚ → Prop) (x : List ℚ)
    (hx : IsOptimal file S x) (hz : 0 ≤ file.value x) (c : StratCfg) (st : BitVec 32) (h0 : 0 < st.toInt)
    (hu : st.getLsbD 13 = true) (best : ℚ) (hbest : best = file.value x ∨ best = programValue file x)
    (hb : ¬ Infinite best) (l : List GrbSet) (hl : grbSettings c st best = .ok l) (b : ℚ)
    (hv : DualBound file S b) : stopsAtBound file l b = false := by
  rw [Bool.eq_false_iff]
  intro h
  have h := (stopsAtBound_iff file c st best b h0 hu hb l hl).mp h
  rw [if_pos (sense_small file hs)] at h
  have := hv x hx.1
  rw [hs] at this
  have h2 : best ≤ file.value x := by
    rcases hbest with e | e
    · exact e.le
    · rw [e, programValue, hs]; linarith
  linarith

/-- Strategy 8192: only the option to hand over the known optimal value. -/
def senseStrategy : BitVec 32 := 8192

/-- Time limit 60 seconds and no start file. -/
def senseCfg : StratCfg := { timeLimit := 60, seed := -1, verbosity := 0, solfile := [] }

theorem sense_settings (best : ℚ) : ∃ l, grbSettings senseCfg senseStrategy best = .ok l := by
  obtain ⟨l, hl, -⟩ := gurobi_options senseCfg senseStrategy best (by decide)
  exact ⟨l, hl⟩

/-- Minimization of `2 x₀ + 1` over `x₀ ≥ 1`: optimal value 3, valid bounds up to 3. -/
example : ∃ l, grbSettings senseCfg senseStrategy (minX.value [1]) = .ok l ∧
    IsOptimal minX (fun x => ∃ a, 1 ≤ a ∧ x = [a]) [1] ∧ stopsAtBound minX l 3 = true ∧
    stopsAtBound minX l 2 = false := by
  obtain ⟨l, hl⟩ := sense_settings (minX.value [1])
  have e : minX.value [1] = 3 := by decide +kernel
  have hopt : IsOptimal minX (fun x => ∃ a, 1 ≤ a ∧ x = [a]) [1] := by
    refine ⟨⟨1, le_refl _, rfl⟩, ?_⟩
    rintro y ⟨a, ha, rfl⟩
    simp only [minX, Objective.value, List.zipWith_cons_cons, List.zipWith_nil_left, List.sum_cons, List.sum_nil]
    linarith
  have hb : ¬ Infinite (minX.value [1]) := by rw [e]; exact small_finite (by norm_num)
  have key := stop_proves_partial minX rfl _ [1] hopt senseCfg senseStrategy (by decide) (by decide) hb l hl
  have dual : ∀ b, b ≤ 3 → DualBound minX (fun x => ∃ a, 1 ≤ a ∧ x = [a]) b := by
    rintro b h y ⟨a, ha, rfl⟩
    simp only [minX, Objective.value, List.zipWith_cons_cons, List.zipWith_nil_left, List.sum_cons, List.sum_nil]
    linarith
  refine ⟨l, hl, hopt, (key 3 (dual 3 le_rfl)).mpr (by rw [e]; norm_num), ?_⟩
  rw [Bool.eq_false_iff]
  intro h
  have := (key 2 (dual 2 (by norm_num))).mp h
  rw [e] at this; norm_num at this

/-- **C134 fails (known optimal value), concrete.** Maximize `x₀` over `x₀ ≤ -5`: the program knows the optimal
value 5 of the negated problem; handed over, Gurobi stops at the bound 4, although the optimal value is -5. -/
theorem stop_too_early_ex : ∃ l, grbSettings senseCfg senseStrategy (programValue maxX [-5]) = .ok l ∧
    IsOptimal maxX (fun x => ∃ a, a ≤ -5 ∧ x = [a]) [-5] ∧
    DualBound maxX (fun x => ∃ a, a ≤ -5 ∧ x = [a]) 4 ∧ stopsAtBound maxX l 4 = true ∧
    |maxX.value [-5] - 4| = 9 := by
  obtain ⟨l, hl⟩ := sense_settings (programValue maxX [-5])
  have e : programValue maxX [-5] = 5 := by decide +kernel
  have e' : maxX.value [-5] = -5 := by decide +kernel
  refine ⟨l, hl, ⟨⟨-5, le_refl _, rfl⟩, ?_⟩, ?_, ?_, ?_⟩
  · rintro y ⟨a, ha, rfl⟩
    simp only [maxX, Objective.value, List.zipWith_cons_cons, List.zipWith_nil_left, List.sum_cons, List.sum_nil]
    linarith
  · rintro y ⟨a, ha, rfl⟩
    simp only [maxX, Objective.value, List.zipWith_cons_cons, List.zipWith_nil_left, List.sum_cons, List.sum_nil]
    linarith
  · rw [stop_too_early maxX rfl [-5] senseCfg senseStrategy (by decide) (by decide)
      (by rw [e]; exact small_finite (by norm_num)) l hl, e']
    norm_num
  · rw [e']; norm_num [abs_of_nonpos]

/-! ## Improving solutions seen by the callback -/

/-- A list of solutions (value, time) as events. -/
def solEvents (l : List (ℚ × ℚ)) : List GrbEvent := l.map fun p => .mipsol p.1 p.2

/-- One solution. -/
theorem grbSol_step (c : GrbCfg) (g : GrbCb) (p : ℚ × ℚ) :
    grbStep c g (.mipsol p.1 p.2) = if p.1 < g.obj then { g with lastSolTime := p.2, obj := p.1 } else g := rfl

/-- **C134 (improving solutions), minimization.** If every solution that Gurobi announces is better than the
ones before, the time of the last solution is that of the last event. -/
theorem last_solution_partial (c : GrbCfg) (p : ℚ × ℚ) (l : List (ℚ × ℚ)) :
    ∀ (g : GrbCb), (∀ q ∈ l ++ [p], q.1 < g.obj) → (l ++ [p]).Pairwise (fun a b => b.1 < a.1) →
    (grbEvents c g (solEvents (l ++ [p]))).lastSolTime = p.2 ∧
    (grbEvents c g (solEvents (l ++ [p]))).obj = p.1 := by
  induction l with
  | nil =>
    intro g h _
    have := h p (by simp)
    simp only [solEvents, List.nil_append, List.map_cons, List.map_nil, grbEvents, List.foldl_cons,
      List.foldl_nil, grbSol_step, if_pos this, and_self]
  | cons q l ih =>
    intro g h hp
    have hq := h q (by simp)
    have e : grbEvents c g (solEvents (q :: l ++ [p])) =
        grbEvents c { g with lastSolTime := q.2, obj := q.1 } (solEvents (l ++ [p])) := by
      simp only [solEvents, List.cons_append, List.map_cons, grbEvents, List.foldl_cons, grbSol_step, if_pos hq]
    rw [e]
    rw [List.cons_append, List.pairwise_cons] at hp
    exact ih _ (fun r hr => hp.1 r hr) hp.2

example : (grbEvents ⟨0, [], none, false⟩ { obj := 100 } (solEvents [(9, 1), (7, 2), (3, 5)])).lastSolTime = 5 := by
  decide +kernel

/-- **C134 fails (improving solutions).** In a maximization instance every announced solution has a larger
value than the ones before; only the first one counts, and its time is reported as that of the last. -/
theorem last_solution_first (c : GrbCfg) (p : ℚ × ℚ) (l : List (ℚ × ℚ)) (g : GrbCb) (h : p.1 < g.obj)
    (hp : ∀ q ∈ l, p.1 < q.1) :
    (grbEvents c g (solEvents (p :: l))).lastSolTime = p.2 ∧ (grbEvents c g (solEvents (p :: l))).obj = p.1 := by
  have keep : ∀ (l : List (ℚ × ℚ)) (g : GrbCb), (∀ q ∈ l, g.obj < q.1) → grbEvents c g (solEvents l) = g := by
    intro l
    induction l with
    | nil => intro g _; rfl
    | cons q l ih =>
      intro g h
      have hq := h q (by simp)
      have e : grbEvents c g (solEvents (q :: l)) = grbEvents c g (solEvents l) := by
        simp only [solEvents, List.map_cons, grbEvents, List.foldl_cons, grbSol_step, if_neg hq.le.not_gt]
      rw [e]
      exact ih g fun r hr => h r (by simp [hr])
  have e : grbEvents c g (solEvents (p :: l)) =
      grbEvents c { g with lastSolTime := p.2, obj := p.1 } (solEvents l) := by
    simp only [solEvents, List.map_cons, grbEvents, List.foldl_cons, grbSol_step, if_pos h]
  rw [e, keep l _ (fun q hq => hp q hq)]
  exact ⟨rfl, rfl⟩

example : (grbEvents ⟨0, [], none, false⟩ { obj := 100 } (solEvents [(3, 1), (7, 2), (9, 5)])).lastSolTime = 1 := by
  decide +kernel

/-! ## The gap with an optimal value in the sense of the file -/

/-- **C134 (gap).** With the optimal value in the program's sense, a bound between the LP value and the optimal
value closes between 0 and 100 percent of the gap. -/
theorem gap_program_sense (file : Objective) (b : BoundInfo) (x : List ℚ) (v : ℚ) (hip : b.ip = programValue file x)
    (hf : ¬ Infinite b.ip) (hv : ¬ Infinite v) (hlt : b.lp < programValue file x) (h1 : b.lp ≤ v)
    (h2 : v ≤ programValue file x) :
    ∃ q, gapClosed b v = .val (.num q) ∧ 0 ≤ q ∧ q ≤ 100 := by
  obtain ⟨e, l0, l1, -⟩ := gap_between b v hf h1 (hip ▸ h2) hv (hip ▸ hlt)
  exact ⟨_, e, l0, l1⟩

/-- **C134 fails (gap).** For a maximization instance whose optimal value, given by the user or read from the
file of optima as it stands, is below the (negated) LP value, every bound that improves on the LP value is
reported with a negative percentage. -/
theorem gap_file_sense (file : Objective) (x : List ℚ) (lp v : ℚ) (hlt : file.value x < lp) (hv : lp < v) :
    share lp (file.value x) v < 0 := by
  unfold share
  have : (v - lp) / (file.value x - lp) < 0 := div_neg_of_pos_of_neg (by linarith) (by linarith)
  linarith

/-- Maximize `x₀` with optimal value -5 and LP value -4 (program: 5 and 4); a bound of 9/2 closes half of the
gap, and is reported as about -5.6 percent if -5 is given as the optimal value. -/
example : share 4 (programValue maxX [-5]) (9 / 2) = 50 ∧ share 4 (maxX.value [-5]) (9 / 2) = -50 / 9 := by
  constructor <;> decide +kernel

end VPC
