import Verif.Model.MainRun
import Verif.Props.Prep
import Verif.Props.VecOps
import Verif.Props.DisjOpts
import Verif.Props.Params
import Verif.Props.UserCuts
import Verif.Props.BBSettings
import Verif.Model.BBSol
import Verif.Props.Rounds

/-!
# C119, C120: the known optimal value, and the phases of a run
-/
namespace VPC

/-! ## Specification -/

/-- `v` is the optimal value of the (minimization) instance: attained by a solution, and no solution is
better. -/
def Inst.Optimum (I : Inst) (v : ℚ) : Prop :=
  (∃ x, I.Sol x ∧ I.value x = v) ∧ ∀ y, I.Sol y → v ≤ I.value y

/-- The LP solver told the truth: the solution is a point of the LP of the reported value, and no point of
the LP has a smaller value. -/
def MainWorld.LpTrue (w : MainWorld) : Prop :=
  ∀ v x, w.lp = some (v, x) →
    w.prob.relax.Feas (asVec x) ∧ w.prob.value (asVec x) = v ∧ ∀ y, w.prob.relax.Feas y → v ≤ w.prob.value y

/-- What `getFractionalIndices(tol)` promises: a column is left out only if it is continuous or within
`tol` of an integer. -/
def MainWorld.FracTrue (w : MainWorld) (tol : ℚ) : Prop :=
  ∀ v x, w.lp = some (v, x) → ∀ i, w.prob.isInt i = true → i ∉ w.frac → ∃ k : ℤ, |asVec x i - k| < tol

/-- A value that reports treat as known (they all test `isInfinity(|v|)`). -/
def Known (v : ℚ) : Prop := isInfinity |v| = false

theorem known_zero : Known 0 := by unfold Known; decide +kernel

theorem known_iff (v : ℚ) : Known v ↔ |v| ≤ dblMax - defEps := by
  unfold Known isInfinity
  simp only [Bool.or_eq_false_iff, decide_eq_false_iff_not, Bool.not_eq_false', lessThanVal_iff, not_le]
  constructor
  · exact fun h => h.2
  · intro h
    refine ⟨?_, h⟩
    have : (0 : ℚ) < defEps := by norm_num [defEps]
    linarith

theorem dblMax_pos : 0 < dblMax := by decide +kernel

theorem not_known_max : ¬ Known dblMax := by unfold Known; decide +kernel
theorem not_known_min : ¬ Known (-dblMax) := by unfold Known; decide +kernel

theorem infinity_of_known {v : ℚ} (h : Known v) : isInfinity v = false := by
  rw [known_iff] at h
  unfold isInfinity
  have h1 := le_abs_self v
  have : (0 : ℚ) < defEps := by norm_num [defEps]
  simp only [Bool.or_eq_false_iff, decide_eq_false_iff_not, Bool.not_eq_false', lessThanVal_iff, not_le]
  exact ⟨by linarith, by linarith⟩

/-! ## Steps -/

theorem setIpObj_ok {p q : Params} {v : ℚ} (h : setIpObj p v = .ok q) :
    (q.dbls .IP_OBJ).val = v ∧ q.ints = p.ints ∧ q.strs = p.strs := by
  unfold setIpObj at h
  split at h
  · exact absurd h (by simp)
  · rename_i r hr
    cases h
    unfold Params.setD at hr
    rw [Option.map_eq_some_iff] at hr
    obtain ⟨d, hd, rfl⟩ := hr
    unfold DblP.set at hd
    dsimp only at hd
    split at hd
    · cases hd
      simp
    · exact absurd hd (by simp)

theorem takeLookup_ok {p : Params} {l : ObjLookup} {r : ℚ × Params} (h : takeLookup p l = .ok r) :
    (l = .value r.1 ∨ (l = .lowest ∧ r.1 = -dblMax)) ∧ (r.2.dbls .IP_OBJ).val = r.1 ∧
      r.2.ints = p.ints ∧ r.2.strs = p.strs := by
  unfold takeLookup at h
  split at h
  · obtain ⟨q, hq, h⟩ := Res.bind_ok h
    cases h
    exact ⟨.inl rfl, setIpObj_ok hq⟩
  · obtain ⟨q, hq, h⟩ := Res.bind_ok h
    cases h
    exact ⟨.inr ⟨rfl, rfl⟩, setIpObj_ok hq⟩
  · exact absurd h (by simp)
  · exact absurd h (by simp)

/-- Parameters other than `IP_OBJ` are not touched when the known optimum is read. -/
theorem knownAtStart_params {stod : List Char → Option ℚ} {ls : Option (List (List Char))} {p : Params}
    {r : ℚ × Params} (h : knownAtStart stod ls p = .ok r) : r.2.ints = p.ints ∧ r.2.strs = p.strs := by
  unfold knownAtStart at h
  split at h
  · exact (takeLookup_ok h).2.2
  · cases h
    exact ⟨rfl, rfl⟩

theorem readsOptFile_iff {b : ℚ} {f : List Char} :
    readsOptFile b f = true ↔ isInfinity b = true ∧ f ≠ [] ∧ hasExt f ".csv".toList = true := by
  unfold readsOptFile
  simp [and_assoc]

/-- **C119 (a value given as parameter).** A known value of the parameter `IP_OBJ` is used as it is; the
file of optima is not looked at. -/
theorem known_from_parameter (stod : List Char → Option ℚ) (ls : Option (List (List Char))) (p : Params)
    (h : Known (p.dbls .IP_OBJ).val) : knownAtStart stod ls p = .ok ((p.dbls .IP_OBJ).val, p) := by
  have h1 := infinity_of_known h
  have h2 : givenOptimum (p.dbls .IP_OBJ).val = (p.dbls .IP_OBJ).val := by
    unfold givenOptimum
    rw [h1]
    rfl
  unfold knownAtStart
  rw [h2]
  have : readsOptFile (p.dbls .IP_OBJ).val (p.text .OPTFILE) = false := by
    rw [Bool.eq_false_iff, Ne, readsOptFile_iff, h1]
    simp
  rw [this]
  rfl

example : Known (17 / 2) := by unfold Known; decide +kernel

/-- Without a value of the parameter the optimum at the start is a known one only if the file is given, has a
name ending in `.csv`, and holds it. -/
theorem known_from_file {stod : List Char → Option ℚ} {ls : Option (List (List Char))} {p : Params}
    {r : ℚ × Params} (h : knownAtStart stod ls p = .ok r) (hp : ¬ Known (p.dbls .IP_OBJ).val)
    (hk : Known r.1) : hasExt (p.text .OPTFILE) ".csv".toList = true ∧
      getObjValueFromFile stod (p.text .OPTFILE) (p.text .FILENAME) ls = .value r.1 := by
  unfold knownAtStart at h
  split at h
  · rename_i hr
    rw [readsOptFile_iff] at hr
    obtain ⟨h1 | h1, h2⟩ := takeLookup_ok h
    · exact ⟨hr.2.2, h1⟩
    · rw [h1.2] at hk
      exact absurd hk not_known_min
  · cases h
    dsimp only at hk
    unfold givenOptimum at hk
    split at hk
    · exact absurd hk hp
    · exact absurd hk not_known_max

/-- **C119 (a value in the file).** If the parameter is not set and the file holds the record of this
instance, its value is used. -/
theorem known_in_file {stod : List Char → Option ℚ} {ls : Option (List (List Char))} {p : Params} {v : ℚ}
    {r : ℚ × Params} (h : knownAtStart stod ls p = .ok r) (hp : isInfinity (p.dbls .IP_OBJ).val = true)
    (hf : hasExt (p.text .OPTFILE) ".csv".toList = true)
    (hv : getObjValueFromFile stod (p.text .OPTFILE) (p.text .FILENAME) ls = .value v) : r.1 = v := by
  unfold knownAtStart at h
  have h2 : givenOptimum (p.dbls .IP_OBJ).val = dblMax := by
    unfold givenOptimum
    rw [hp]
    rfl
  have h3 : readsOptFile dblMax (p.text .OPTFILE) = true := by
    rw [readsOptFile_iff]
    refine ⟨by decide +kernel, ?_, hf⟩
    intro e
    rw [e] at hf
    revert hf
    decide
  rw [h2, h3, if_pos rfl, hv] at h
  obtain ⟨h1 | h1, -⟩ := takeLookup_ok h
  · simpa using h1.symm
  · exact absurd h1.1 (by simp)

/-- Is the warning printed that no value was found in the file (src/main.cpp:1031-1033)? -/
def missingWarning : ObjLookup → Bool
  | .value v => isInfinity v
  | .lowest => isInfinity (-dblMax)
  | .exit1 => false
  | .terminate => false

/-- **C119 (no record).** A file without a record leaves the optimum unknown to every report, but the warning
for this case is never printed. -/
theorem missing_record {stod : List Char → Option ℚ} {ls : Option (List (List Char))} {p : Params}
    {r : ℚ × Params} (h : knownAtStart stod ls p = .ok r) (hp : isInfinity (p.dbls .IP_OBJ).val = true)
    (hv : getObjValueFromFile stod (p.text .OPTFILE) (p.text .FILENAME) ls = .lowest) :
    ¬ Known r.1 ∧ missingWarning (getObjValueFromFile stod (p.text .OPTFILE) (p.text .FILENAME) ls) = false := by
  rw [hv]
  constructor
  · intro hk
    have := (known_from_file h (fun hp' => ?_) hk).2
    · rw [hv] at this
      exact absurd this (by simp)
    · rw [infinity_of_known hp'] at hp
      exact absurd hp (by simp)
  · decide +kernel

/-! ## The search for a solution -/

/-- **C119 (when a solution is looked for).** Only if the parameter `TEMP` is exactly the documented value
8: any other value, also one that contains this option together with another one, does not start the
search. -/
theorem search_only_alone (w : MainWorld) (p : Params) (best : ℚ) (h : (p.ints .TEMP).val ≠ 8) :
    findSolution w p best = .ok [] ∧ keepSolfile w p = p := by
  unfold findSolution keepSolfile wantsSolution
  simp [h]

/-- 24 asks for two options, the check against the optimal solution and the table of the rounds; the search is
not made. -/
theorem combined_option_ignored : useTemp (BitVec.ofInt 32 24) .CHECK_CUTS_AGAINST_BB_OPT = true ∧
    wantsSolution 24 = false := by decide

/-- **C119 (the call).** Gurobi gets the file of the original instance and the optimum known so far; if there is a
file with a starting solution, the option that lets Gurobi use it is on; every other option is as the
user gave it. -/
theorem solution_call (fexists : List Char → Bool) (p : Params) (best : ℚ) :
    (solutionCall fexists p best).file = p.text .FILENAME ∧ (solutionCall fexists p best).best = best ∧
    ((solutionCall fexists p best).solfile ≠ [] →
      useBB (solutionCall fexists p best).strategy .use_best_bound = true) ∧
    (∀ o, o ≠ .use_best_bound → useBB (solutionCall fexists p best).strategy o =
      useBB (BitVec.ofInt 32 (p.ints .BB_STRATEGY).val) o) ∧
    ((solutionCall fexists p best).solfile = [] → (solutionCall fexists p best).strategy =
      BitVec.ofInt 32 (p.ints .BB_STRATEGY).val) := by
  refine ⟨rfl, rfl, ?_, ?_, ?_⟩
  · intro h
    show useBB (solutionStrategy _ _) _ = true
    unfold solutionStrategy
    split
    · rw [enableBB_spec, if_pos rfl]
    · rename_i h2
      by_contra h3
      exact h2 ⟨h, by simpa using h3⟩
  · intro o ho
    show useBB (solutionStrategy _ _) _ = _
    unfold solutionStrategy
    split
    · rw [enableBB_spec, if_neg ho]
    · rfl
  · intro h
    show solutionStrategy _ _ = _
    unfold solutionStrategy
    rw [if_neg]
    rintro ⟨h1, -⟩
    exact h1 h

/-- **C119 (a starting solution lying beside the instance is used).** If the user names no solution file and the
file `<instance>_gurobi.mst.gz` exists in the directory of the instance, it is given to Gurobi, provided
the strategy is not negative. -/
theorem start_file_used (fexists : List Char → Bool) (p : Params) (best : ℚ) (c : StratCfg)
    (h : p.text .SOLFILE = []) (he : fexists (startFile (p.text .FILENAME)) = true)
    (hs : 0 < (solutionCall fexists p best).strategy.toInt)
    (hc : c.solfile = (solutionCall fexists p best).solfile) (l : List GrbSet)
    (hl : grbSettings c (solutionCall fexists p best).strategy best = .ok l) :
    GrbSet.read (startFile (p.text .FILENAME)) ∈ l := by
  have e : (solutionCall fexists p best).solfile = startFile (p.text .FILENAME) := by
    show findSolfile fexists p = _
    unfold findSolfile
    rw [if_pos ⟨h, he⟩]
  have hne : startFile (p.text .FILENAME) ≠ [] := by
    unfold startFile
    simp
  have hb := (solution_call fexists p best).2.2.1 (by rw [e]; exact hne)
  unfold grbSettings at hl
  obtain ⟨b, -, hl⟩ := Res.bind_ok hl
  cases hl
  have h1 : grbStart c.solfile = true := by
    rw [hc, e]
    unfold grbStart
    have : hasExt (startFile (p.text .FILENAME)) "_gurobi.mst.gz".toList = true := by
      unfold hasExt startFile
      simp only [List.length_append, Bool.and_eq_true, decide_eq_true_eq, beq_iff_eq]
      constructor
      · have : "/".toList.length = 1 := rfl
        omega
      · rw [← List.length_append, ← List.length_append, Nat.add_sub_cancel, List.drop_left]
    rw [this]
    simp only [Bool.or_true, Bool.true_or]
  rw [if_neg (by omega)]
  simp only [List.mem_append]
  refine .inl (.inr ?_)
  unfold grbOptions
  rw [if_pos hb]
  simp only [List.mem_append]
  refine .inr ?_
  unfold grbBest
  rw [if_pos h1, hc, e]
  simp

theorem zipIdx_dot (c : List ℚ) (f : ℕ → ℚ) :
    (c.zipIdx.map fun e => e.1 * f e.2).sum = ∑ i ∈ Finset.range c.length, f i * c.getD i 0 := by
  induction c using List.reverseRecOn with
  | nil => simp
  | append_singleton l a ih =>
    rw [List.zipIdx_append, List.map_append, List.sum_append, ih, List.length_append, List.length_singleton,
      Finset.sum_range_succ]
    congr 1
    · apply Finset.sum_congr rfl
      intro i hi
      rw [Finset.mem_range] at hi
      rw [List.getD_append _ _ _ _ hi]
    · simp [mul_comm]

/-- In exact arithmetic the value computed for a solution is `c·x`: the constant of the objective is left
out. -/
theorem solutionValue_eq {I : Inst} {x : List ℚ} {v : ℚ} (h : solutionValue I x = .ok v) :
    v = I.value (asVec x) + I.offset := by
  unfold solutionValue at h
  split at h
  · exact absurd h (by simp)
  · rename_i u hu
    cases h
    have hl : I.cost.length ≤ x.length := by
      by_contra hc
      have := (dotDense_undefined_iff id true x I.cost I.cost.length).mpr (.inl (by exact_mod_cast not_le.mp hc))
      rw [this] at hu
      exact absurd hu (by simp)
    rw [dotDense_exact true x I.cost I.cost.length hl le_rfl] at hu
    cases hu
    unfold Inst.value
    rw [sub_add_cancel, zipIdx_dot]
    rfl

/-! ## Whole runs -/

/-- Steps of a run whose LP relaxation is not integral. -/
theorem run_steps {w : MainWorld} {p : Params} {out : MainOut} (h : mainRun w p = .ok out)
    (hf : w.frac ≠ []) : ∃ b p1 x b2 p2, knownAtStart w.stod w.optLines p = .ok (b, p1) ∧
      findSolution w p1 b = .ok x ∧ afterSolution w.prob b (keepSolfile w p1) x = .ok (b2, p2) ∧
      workPhase w b2 p2 = .ok out := by
  unfold mainRun at h
  obtain ⟨⟨b, p1⟩, h1, h⟩ := Res.bind_ok h
  split at h
  · exact absurd h (by simp)
  · unfold afterLp at h
    rw [if_neg hf] at h
    obtain ⟨x, h2, h⟩ := Res.bind_ok h
    obtain ⟨⟨b2, p2⟩, h3, h⟩ := Res.bind_ok h
    exact ⟨b, p1, x, b2, p2, h1, h2, h3, h⟩

/-- The work does not change the known optimum. -/
theorem workPhase_ipObj {w : MainWorld} {b : ℚ} {p : Params} {out : MainOut} (h : workPhase w b p = .ok out) :
    out.ipObj = b := by
  unfold workPhase at h
  split at h
  · unfold prepPhase at h
    split at h
    · exact absurd h (by simp)
    · obtain ⟨o, -, h⟩ := Res.bind_ok h
      cases h
      rfl
  · unfold cutPhase at h
    obtain ⟨a, -, h⟩ := Res.bind_ok h
    split at h
    · cases h
      rfl
    · obtain ⟨r, -, h⟩ := Res.bind_ok h
      cases h
      rfl

theorem afterSolution_known {I : Inst} {b : ℚ} {p : Params} {x : List ℚ} {r : ℚ × Params} (hk : Known b)
    (h : afterSolution I b p x = .ok r) : r = (b, p) := by
  unfold afterSolution at h
  rw [if_neg (by rw [show isInfinity |b| = false from hk]; simp)] at h
  cases h
  rfl

/-- **C119 (a value given by the user wins).** Unless the LP relaxation is already integral, a known value of the
parameter `IP_OBJ` is the optimum of all reports. -/
theorem given_optimum_used {w : MainWorld} {p : Params} {out : MainOut} (h : mainRun w p = .ok out)
    (hf : w.frac ≠ []) (hk : Known (p.dbls .IP_OBJ).val) : out.ipObj = (p.dbls .IP_OBJ).val := by
  obtain ⟨b, p1, x, b2, p2, h1, h2, h3, h4⟩ := run_steps h hf
  rw [known_from_parameter _ _ _ hk] at h1
  cases h1
  cases afterSolution_known hk h3
  exact workPhase_ipObj h4

/-- **C119 (every known value has a source).** If the LP relaxation is not integral and a run reports against a
known optimum, this is the value given by the user, the value in the file of optima, or `c·x` for the
solution that Gurobi found. -/
theorem optimum_source {w : MainWorld} {p : Params} {out : MainOut} (h : mainRun w p = .ok out)
    (hf : w.frac ≠ []) (hk : Known out.ipObj) :
    out.ipObj = (p.dbls .IP_OBJ).val ∨
    getObjValueFromFile w.stod (p.text .OPTFILE) (p.text .FILENAME) w.optLines = .value out.ipObj ∨
    ((p.ints .TEMP).val = 8 ∧ w.hasGurobi = true ∧ ∃ c x, w.gurobi c = .ok x ∧ c.file = p.text .FILENAME ∧
      out.ipObj = w.prob.value (asVec x) + w.prob.offset) := by
  obtain ⟨b, p1, x, b2, p2, h1, h2, h3, h4⟩ := run_steps h hf
  rw [workPhase_ipObj h4] at hk ⊢
  by_cases hb : Known b
  · cases afterSolution_known hb h3
    by_cases hp : Known (p.dbls .IP_OBJ).val
    · rw [known_from_parameter _ _ _ hp] at h1
      cases h1
      exact .inl rfl
    · exact .inr (.inl (known_from_file h1 hp hb).2)
  · unfold afterSolution at h3
    split at h3
    · rename_i hx
      obtain ⟨v, hv, h3⟩ := Res.bind_ok h3
      obtain ⟨q, hq, h3⟩ := Res.bind_ok h3
      cases h3
      have he := knownAtStart_params h1
      dsimp only at he
      unfold findSolution at h2
      split at h2
      · rename_i hw
        simp only [Bool.and_eq_true, wantsSolution, decide_eq_true_eq, he.1] at hw
        refine .inr (.inr ⟨hw.1, hw.2, _, x, h2, ?_, solutionValue_eq hv⟩)
        show p1.text .FILENAME = _
        unfold Params.text
        rw [he.2]
      · cases h2
        exact absurd hx.1 (by simp)
    · cases h3
      exact absurd hk hb

/-- **C119 (value of the solution found), partial.** Missing: a constant in the objective. If the objective has no
constant and Gurobi's solution is optimal, the optimum used in the reports is the optimal value. -/
theorem solution_optimum_partial {w : MainWorld} {p : Params} {out : MainOut}
    (h : mainRun w p = .ok out) (hf : w.frac ≠ []) (hk : Known out.ipObj)
    (hp : out.ipObj ≠ (p.dbls .IP_OBJ).val)
    (ho : ∀ v, getObjValueFromFile w.stod (p.text .OPTFILE) (p.text .FILENAME) w.optLines ≠ .value v)
    (hg : ∀ c x, w.gurobi c = .ok x → w.prob.Optimum (w.prob.value (asVec x)))
    (hz : w.prob.offset = 0) : w.prob.Optimum out.ipObj := by
  rcases optimum_source h hf hk with h1 | h1 | ⟨-, -, c, y, hy, -, h1⟩
  · exact absurd h1 hp
  · exact absurd h1 (ho _)
  · rw [h1, hz, add_zero]
    exact hg c y hy

/-- **C119 fails for objectives with a constant.** In every run whose known optimum comes from the solution found
by Gurobi, an optimal one, the value used in the reports is not the optimal value if the objective has a
nonzero constant. -/
theorem solution_offset_wrong {w : MainWorld} {p : Params} {out : MainOut}
    (h : mainRun w p = .ok out) (hf : w.frac ≠ []) (hk : Known out.ipObj)
    (hp : out.ipObj ≠ (p.dbls .IP_OBJ).val)
    (ho : ∀ v, getObjValueFromFile w.stod (p.text .OPTFILE) (p.text .FILENAME) w.optLines ≠ .value v)
    (hg : ∀ c x, w.gurobi c = .ok x → w.prob.Optimum (w.prob.value (asVec x)))
    (hz : w.prob.offset ≠ 0) : ¬ w.prob.Optimum out.ipObj := by
  rcases optimum_source h hf hk with h1 | h1 | ⟨-, -, c, y, hy, -, h1⟩
  · exact absurd h1 hp
  · exact absurd h1 (ho _)
  · intro hopt
    have h2 := hg c y hy
    rw [h1] at hopt
    obtain ⟨⟨u, hu, hu2⟩, hmin⟩ := hopt
    obtain ⟨⟨v, hv, hv2⟩, hmin2⟩ := h2
    have a := hmin v hv
    have b := hmin2 u hu
    rw [hv2] at a
    rw [hu2] at b
    exact hz (by linarith)

/-- **C119 (the parameter follows).** At the end of a run the parameter `IP_OBJ` is the optimum used in the
reports, if that is known. -/
theorem parameter_agrees {w : MainWorld} {p : Params} {out : MainOut} (h : mainRun w p = .ok out)
    (hk : Known out.ipObj) : (out.params.dbls .IP_OBJ).val = out.ipObj := by
  have hstart : ∀ r, knownAtStart w.stod w.optLines p = .ok r → Known r.1 → (r.2.dbls .IP_OBJ).val = r.1 := by
    intro r hr hkr
    unfold knownAtStart at hr
    split at hr
    · exact (takeLookup_ok hr).2.1
    · cases hr
      dsimp only at hkr ⊢
      unfold givenOptimum at hkr ⊢
      split
      · rfl
      · rename_i hi
        rw [if_neg hi] at hkr
        exact absurd hkr not_known_max
  have hwork : ∀ (b : ℚ) (q : Params), workPhase w b q = .ok out → out.params.dbls = q.dbls := by
    intro b q hq
    unfold workPhase at hq
    split at hq
    · unfold prepPhase at hq
      split at hq
      · exact absurd hq (by simp)
      · rename_i r hr
        obtain ⟨o, -, hq⟩ := Res.bind_ok hq
        cases hq
        unfold Params.setI at hr
        rw [Option.map_eq_some_iff] at hr
        obtain ⟨d, -, rfl⟩ := hr
        rfl
    · unfold cutPhase at hq
      obtain ⟨a, -, hq⟩ := Res.bind_ok hq
      split at hq
      · cases hq
        rfl
      · obtain ⟨r, -, hq⟩ := Res.bind_ok hq
        cases hq
        rfl
  by_cases hf : w.frac = []
  · unfold mainRun at h
    obtain ⟨⟨b, p1⟩, h1, h⟩ := Res.bind_ok h
    split at h
    · exact absurd h (by simp)
    · unfold afterLp at h
      rw [if_pos hf] at h
      obtain ⟨q, hq, h⟩ := Res.bind_ok h
      cases h
      exact (setIpObj_ok hq).1
  · obtain ⟨b, p1, x, b2, p2, h1, h2, h3, h4⟩ := run_steps h hf
    rw [hwork _ _ h4]
    rw [workPhase_ipObj h4] at hk ⊢
    by_cases hb : Known b
    · have := hstart _ h1 hb
      cases afterSolution_known hb h3
      unfold keepSolfile
      split
      · exact this
      · exact this
    · unfold afterSolution at h3
      split at h3
      · obtain ⟨v, hv, h3⟩ := Res.bind_ok h3
        obtain ⟨q, hq, h3⟩ := Res.bind_ok h3
        cases h3
        exact (setIpObj_ok hq).1
      · cases h3
        exact absurd hk hb

/-! ## Integral LP relaxations -/

/-- **C120 (integral LP relaxation).** If no integer variable is fractional in the solution of the LP relaxation, the
run ends at once with return code 0 and the reason "optimal solution found"; the LP value is
reported as the optimum, whatever the user gave; there is no cleaning and there are no cuts. -/
theorem run_integral {w : MainWorld} {p : Params} {out : MainOut} {v : ℚ} {x : List ℚ}
    (h : mainRun w p = .ok out) (hl : w.lp = some (v, x)) (hf : w.frac = []) :
    out.code = 0 ∧ out.reason = .OPTIMAL_SOLUTION_FOUND ∧ out.ipObj = v ∧ out.phase = .integral := by
  unfold mainRun at h
  obtain ⟨⟨b, p1⟩, h1, h⟩ := Res.bind_ok h
  rw [hl] at h
  dsimp only at h
  unfold afterLp at h
  rw [if_pos hf] at h
  obtain ⟨q, hq, h⟩ := Res.bind_ok h
  cases h
  exact ⟨rfl, rfl, rfl, rfl⟩

/-- **C120 (the optimum of an integral LP relaxation), partial.** Missing: solutions that are integral only within the
tolerance. If every integer variable has an integer value, the reported optimum is the optimum. -/
theorem integral_optimum_partial {w : MainWorld} {p : Params} {out : MainOut} {v : ℚ} {x : List ℚ}
    (h : mainRun w p = .ok out) (hl : w.lp = some (v, x)) (hf : w.frac = []) (ht : w.LpTrue)
    (hi : ∀ i, w.prob.isInt i = true → ∃ k : ℤ, asVec x i = k) : w.prob.Optimum out.ipObj := by
  rw [(run_integral h hl hf).2.2.1]
  obtain ⟨h1, h2, h3⟩ := ht v x hl
  exact ⟨⟨asVec x, ⟨h1, hi⟩, h2⟩, fun y hy => h3 y hy.1⟩

/-- In any case the reported optimum of an integral LP relaxation is a lower bound. -/
theorem integral_bound {w : MainWorld} {p : Params} {out : MainOut} {v : ℚ} {x : List ℚ}
    (h : mainRun w p = .ok out) (hl : w.lp = some (v, x)) (hf : w.frac = []) (ht : w.LpTrue) (y : Vec)
    (hy : w.prob.Sol y) : out.ipObj ≤ w.prob.value y := by
  rw [(run_integral h hl hf).2.2.1]
  exact (ht v x hl).2.2 y hy.1

/-! ## Phases and return code -/

/-- **C120 (return code).** Every run that comes to its regular end returns 0; a failure is visible in the return code
only if the process is ended by `exit(1)` or a signal. -/
theorem run_code {w : MainWorld} {p : Params} {out : MainOut} (h : mainRun w p = .ok out) : out.code = 0 := by
  by_cases hf : w.frac = []
  · unfold mainRun at h
    obtain ⟨⟨b, p1⟩, h1, h⟩ := Res.bind_ok h
    split at h
    · exact absurd h (by simp)
    · unfold afterLp at h
      rw [if_pos hf] at h
      obtain ⟨q, hq, h⟩ := Res.bind_ok h
      cases h
      rfl
  · obtain ⟨b, p1, x, b2, p2, -, -, -, h⟩ := run_steps h hf
    unfold workPhase at h
    split at h
    · unfold prepPhase at h
      split at h
      · exact absurd h (by simp)
      · obtain ⟨o, -, h⟩ := Res.bind_ok h
        cases h
        rfl
    · unfold cutPhase at h
      obtain ⟨a, ha, h⟩ := Res.bind_ok h
      split at h
      · rename_i code
        exact absurd ha ((error_never_reported _ _ _ _).2 code)
      · obtain ⟨r, -, h⟩ := Res.bind_ok h
        cases h
        rfl

/-- The parameters other than `IP_OBJ` and `SOLFILE` reach the work unchanged. -/
theorem work_params {w : MainWorld} {p p1 p2 : Params} {b b2 : ℚ} {x : List ℚ}
    (h1 : knownAtStart w.stod w.optLines p = .ok (b, p1))
    (h3 : afterSolution w.prob b (keepSolfile w p1) x = .ok (b2, p2)) :
    p2.ints = p.ints ∧ ∀ i, i ≠ .SOLFILE → p2.strs i = p.strs i := by
  have he := knownAtStart_params h1
  dsimp only at he
  have hk : (keepSolfile w p1).ints = p.ints ∧ ∀ i, i ≠ .SOLFILE → (keepSolfile w p1).strs i = p.strs i := by
    unfold keepSolfile
    split
    · refine ⟨he.1, fun i hi => ?_⟩
      show (if i = .SOLFILE then _ else p1.strs i) = _
      rw [if_neg hi, he.2]
    · exact ⟨he.1, fun i _ => by rw [he.2]⟩
  unfold afterSolution at h3
  split at h3
  · obtain ⟨v, hv, h3⟩ := Res.bind_ok h3
    obtain ⟨q, hq, h3⟩ := Res.bind_ok h3
    cases h3
    obtain ⟨-, e1, e2⟩ := setIpObj_ok hq
    exact ⟨e1.trans hk.1, fun i hi => by rw [e2]; exact hk.2 i hi⟩
  · cases h3
    exact hk

/-- **C120 (preprocessing).** With the parameter `PREPROCESS` a run whose LP relaxation is not integral cleans the
instance once, with the known optimum and only the test without cuts, and makes no cuts; the exit
reason is "unknown". -/
theorem run_preprocess {w : MainWorld} {p : Params} {out : MainOut} (h : mainRun w p = .ok out)
    (hf : w.frac ≠ []) (hp : (p.ints .PREPROCESS).val ≠ 0) : ∃ o, out.phase = .cleaned o ∧
      out.reason = .UNKNOWN ∧ (out.params.ints .BB_MODE).val = 1 ∧
      performCleaning (BitVec.ofInt 32 (p.ints .BB_STRATEGY).val) (p.ints .PREPROCESS).val out.ipObj w.prep
        w.prob = .ok o := by
  obtain ⟨b, p1, x, b2, p2, h1, h2, h3, h4⟩ := run_steps h hf
  obtain ⟨hi, -⟩ := work_params h1 h3
  have hb := workPhase_ipObj h4
  unfold workPhase at h4
  rw [if_pos (by rw [hi]; exact hp)] at h4
  unfold prepPhase at h4
  split at h4
  · exact absurd h4 (by simp)
  · rename_i q hq
    obtain ⟨o, ho, h4⟩ := Res.bind_ok h4
    unfold Params.setI at hq
    rw [Option.map_eq_some_iff] at hq
    obtain ⟨d, hd, rfl⟩ := hq
    unfold IntP.set at hd
    dsimp only at hd
    split at hd
    · cases hd
      cases h4
      refine ⟨o, rfl, rfl, by simp, ?_⟩
      simpa [hi] using ho
    · exact absurd hd (by simp)

/-- **C120 (cuts).** Without the parameter `PREPROCESS` a run whose LP relaxation is not integral makes the rounds
of cuts, with the options read from the parameters, and reports their exit reason. -/
theorem run_cuts {w : MainWorld} {p : Params} {out : MainOut} (h : mainRun w p = .ok out)
    (hf : w.frac ≠ []) (hp : (p.ints .PREPROCESS).val = 0) : ∃ q opts s n, out.phase = .cuts s n ∧
      out.reason = s.reason ∧ q.ints = p.ints ∧
      mainOptions w.logOpen (p.text .DISJ_OPTIONS) (modeOf (p.ints .MODE).val) (p.ints .ROUNDS).val =
        .ok (.goesOn opts) ∧
      mainRounds (mainCfg q opts) w.rounds (p.ints .ROUNDS).val.toNat (p.ints .DISJ_TERMS).val = .ok (s, n) ∧
      (mainCfg q opts).gomory = (p.ints .GOMORY).val ∧ (mainCfg q opts).cutLimit = (p.ints .CUTLIMIT).val ∧
      (mainCfg q opts).mode = modeOf (p.ints .MODE).val ∧ (mainCfg q opts).disjOptions = opts ∧
      ((mainCfg q opts).flipBeta = true ↔ 0 < (p.ints .PRLP_FLIP_BETA).val) := by
  obtain ⟨b, p1, x, b2, p2, h1, h2, h3, h4⟩ := run_steps h hf
  obtain ⟨hi, hs⟩ := work_params h1 h3
  have htext : p2.text .DISJ_OPTIONS = p.text .DISJ_OPTIONS := by
    unfold Params.text
    rw [hs _ (by decide)]
  unfold workPhase at h4
  rw [if_neg (by rw [hi]; simpa using hp)] at h4
  unfold cutPhase at h4
  rw [htext, hi] at h4
  obtain ⟨a, ha, h4⟩ := Res.bind_ok h4
  split at h4
  · rename_i code
    exact absurd ha ((error_never_reported _ _ _ _).2 code)
  · rename_i opts
    obtain ⟨⟨s, n⟩, hr, h4⟩ := Res.bind_ok h4
    cases h4
    refine ⟨p2, opts, s, n, rfl, rfl, hi, ha, hr, ?_, ?_, ?_, rfl, ?_⟩
    · show (p2.ints .GOMORY).val = _
      rw [hi]
    · show (p2.ints .CUTLIMIT).val = _
      rw [hi]
    · show modeOf (p2.ints .MODE).val = _
      rw [hi]
    · show decide ((p2.ints .PRLP_FLIP_BETA).val > 0) = true ↔ _
      rw [hi, decide_eq_true_iff]

/-- The numbers of the modes are those of the documentation. -/
theorem mode_numbers : modeOf 0 = .PARTIAL_BB ∧ modeOf 1 = .SPLITS ∧ modeOf 2 = .CROSSES ∧ modeOf 3 = .CUSTOM ∧
    modeOf 4 = .DISJ_SET_PBB := by decide

end VPC
