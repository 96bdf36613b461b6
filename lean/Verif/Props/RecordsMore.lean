import Verif.Props.CutInfo
import Verif.Props.BBTests
import Verif.Props.LogTable

/-!
# C77-C79, C85, C93: what every update of a record does, which solver is run, how numbers are printed

Statements about one update of a record that already holds something (the theorems of `Props.CutInfo`
start from a new record), and about the helpers of the log table.
-/
namespace VPC

/-- **C77.** An update with the Gomory cuts adds their number to what was there and one entry `GMIC` per
cut at the end of the list of types; the counters of objectives and failures are unchanged. -/
theorem gmic_update (ci c : CutInfo) (cs : List RowCut) (eps : ℚ)
    (h : updateGMICInfo ci (some cs) eps = .ok c) :
    c.numCuts = ci.numCuts + cs.length ∧
      (∃ l, c.cutType = ci.cutType ++ l ∧ l.length = cs.length ∧ ∀ t ∈ l, t = CutType.GMIC) ∧
      c.objTried = ci.objTried ∧ c.failures = ci.failures ∧ c.objType = ci.objType := by
  cases h
  exact ⟨rfl, ⟨_, rfl, by simp, fun t ht => List.eq_of_mem_replicate ht⟩, rfl, rfl, rfl⟩

/-- The update always returns for an existing collection, and a null pointer is dereferenced. -/
theorem gmic_update_returns (ci : CutInfo) (eps : ℚ) :
    (∀ cs, ∃ c, updateGMICInfo ci (some cs) eps = .ok c) ∧ updateGMICInfo ci none eps = .undef :=
  ⟨fun _ => ⟨_, rfl⟩, rfl⟩

example : (updateGMICInfo { numCuts := 2, cutType := [.VPC, .VPC] } (some [⟨[(0, 1)], 1⟩]) (1 / 10)).bind
    (fun c => Res.ok (c.numCuts, c.cutType)) = .ok (3, [.VPC, .VPC, .GMIC]) := by decide +kernel

/-- **C77.** Updating any record with any generator: every number is the old one plus that of the
generator; the lists of types and objectives are continued, or replaced if the generator was used
before (then its own lists already hold the earlier ones). -/
theorem update_accumulates (ci c : CutInfo) (g : Gen) (cuts : Option (List RowCut)) (eps : ℚ)
    (h : updateCutInfo ci g cuts eps = .ok c) :
    c.numCuts = ci.numCuts + g.numCuts ∧ c.objTried = ci.objTried + g.numObj ∧
      c.failures = ci.failures + g.numFailures ∧
      (∀ t, entry c.ofType t = entry ci.ofType t + g.numCutsOfType t) ∧
      (∀ t, entry c.fails t = entry ci.fails t + g.numFails t) ∧
      (∀ u, entry c.cutsHeur u = entry ci.cutsHeur u + g.numCutsFromHeur u) ∧
      (ci.cutsHeur ≠ none → ∀ u, entry c.objHeur u = entry ci.objHeur u + g.numObjFromHeur u) ∧
      (ci.cutsHeur ≠ none → ∀ u, entry c.failsHeur u = entry ci.failsHeur u + g.numFailsFromHeur u) ∧
      (g.repeatedUse = false → c.cutType = ci.cutType ++ g.cutType ∧ c.objType = ci.objType ++ g.objType) ∧
      (g.repeatedUse = true → c.cutType = g.cutType ∧ c.objType = g.objType) := by
  unfold updateCutInfo at h
  dsimp only at h
  obtain ⟨c3, h1, h2⟩ := Res.bind_ok h
  have h4 : c.numCuts = c3.numCuts ∧ c.objTried = c3.objTried ∧ c.failures = c3.failures ∧
      c.ofType = c3.ofType ∧ c.fails = some (mergeCounts c3.fails g.numFails) ∧
      c.cutsHeur = c3.cutsHeur ∧ c.objHeur = c3.objHeur ∧ c.failsHeur = c3.failsHeur ∧
      c.cutType = c3.cutType ∧ c.objType = c3.objType := by
    unfold mergeSupport at h2
    split at h2
    · cases h2; simp
    · split at h2
      · cases h2
      · split at h2
        · cases h2
        · cases h2; simp
  have hm : ∀ {κ : Type} (a : Option (κ → ℤ)) (b : κ → ℤ) (k : κ),
      entry (some (mergeCounts a b)) k = entry a k + b k := by
    intro κ a b k
    cases a <;> simp [mergeCounts, entry]
  have h3 : c3.numCuts = ci.numCuts + g.numCuts ∧ c3.objTried = ci.objTried + g.numObj ∧
      c3.failures = ci.failures + g.numFailures ∧
      c3.ofType = some (mergeCounts ci.ofType g.numCutsOfType) ∧ c3.fails = ci.fails ∧
      (∀ u, entry c3.cutsHeur u = entry ci.cutsHeur u + g.numCutsFromHeur u) ∧
      (ci.cutsHeur ≠ none → ∀ u, entry c3.objHeur u = entry ci.objHeur u + g.numObjFromHeur u) ∧
      (ci.cutsHeur ≠ none → ∀ u, entry c3.failsHeur u = entry ci.failsHeur u + g.numFailsFromHeur u) ∧
      (g.repeatedUse = false → c3.cutType = ci.cutType ++ g.cutType ∧ c3.objType = ci.objType ++ g.objType) ∧
      (g.repeatedUse = true → c3.cutType = g.cutType ∧ c3.objType = g.objType) := by
    unfold mergeHeur mergeTypes at h1
    cases hr : g.repeatedUse <;> simp only [hr, if_true, if_false, Bool.false_eq_true] at h1 <;>
    · split at h1
      · rename_i e1
        cases h1; simp [e1, entry]
      · rename_i e1 e2 e3
        cases h1; simp [e1, e2, e3, entry]
      · cases h1
  obtain ⟨b1, b2, b3, b4, b5, b6, b7, b8, b9, b10⟩ := h4
  obtain ⟨d1, d2, d3, d4, d5, d6, d7, d8, d9, d10⟩ := h3
  rw [b1, b2, b3, b4, b5, b6, b7, b8, b9, b10, d4, d5]
  exact ⟨d1, d2, d3, hm _ _, hm _ _, d6, d7, d8, d9, d10⟩

/-- A second generator on a record that already holds one. -/
example : ((updateCutInfo {}
        { Gen.fresh 10 with
          numObj := 3, numFailures := 2
          numObjFromHeur := fun _ => 2, numCutsFromHeur := fun _ => 5, numFails := fun _ => 1 }
        none (1 / 10)).bind fun c =>
      updateCutInfo c
        { Gen.fresh 10 with
          numObj := 4, numFailures := 1
          numObjFromHeur := fun _ => 3, numCutsFromHeur := fun _ => 7, numFails := fun _ => 6 }
        none (1 / 10)).bind
    (fun c => Res.ok (c.objTried, c.failures, entry c.objHeur .USER, entry c.fails .CUT_LIMIT))
    = .ok (7, 3, 5, 7) := by decide +kernel

/-- **C77.** A merge without records gives a record in which every number is zero and every list
empty, whatever was there before. -/
theorem merge_of_nothing (ci : CutInfo) :
    ∃ c, setCutInfo ci none = .ok c ∧ c.numCuts = 0 ∧ c.objTried = 0 ∧ c.failures = 0 ∧ c.rounds = 0 ∧
      c.activeGmic = 0 ∧ c.activeVpc = 0 ∧ c.activeAll = 0 ∧ c.cutType = [] ∧ c.objType = [] ∧
      (∀ t, entry c.ofType t = 0) ∧ (∀ t, entry c.fails t = 0) ∧
      (∀ u, entry c.cutsHeur u = 0 ∧ entry c.objHeur u = 0 ∧ entry c.failsHeur u = 0 ∧
        entry c.activeHeur u = 0) :=
  ⟨_, rfl, rfl, rfl, rfl, rfl, rfl, rfl, rfl, rfl, rfl, fun _ => rfl, fun _ => rfl,
    fun _ => ⟨rfl, rfl, rfl, rfl⟩⟩

/-- A record that is not zero before. -/
example : (setCutInfo { numCuts := 4, cutType := [.VPC] } none).bind
    (fun c => Res.ok (c.numCuts, c.cutType)) = .ok (0, []) := by decide +kernel

/-- **C79.** The counters of active cuts per objective are added to those already in the record: the
other counters restart from zero, these do not. -/
theorem active_by_objective_added (sg sv sa : LpPoint) (c c' : CutInfo) (vpcs : List RowCut) (eps : ℚ)
    (h : analyzeVpcs sg sv sa c vpcs eps = .ok c') (u : ObjType) :
    entry c'.activeHeur u = entry c.activeHeur u +
      ((vpcs.zipIdx.filter fun p => decide (Active sv p.1 ∧ c.objType[p.2]? = some u)).length : ℤ) := by
  unfold analyzeVpcs at h
  obtain ⟨c2, h1, h2⟩ := Res.bind_ok h
  cases h2
  obtain ⟨f, hf, hf2⟩ : ∃ f, resizeActive c.activeHeur = some f ∧ ∀ u, f u = entry c.activeHeur u := by
    unfold resizeActive
    cases e : c.activeHeur with
    | none => exact ⟨_, rfl, fun _ => rfl⟩
    | some f => exact ⟨f, rfl, fun _ => rfl⟩
  obtain ⟨-, -, -, -, f', g1, g2⟩ := activityLoop_spec (f := f) hf h1
  dsimp only at g1 g2 ⊢
  rw [g1, entry_some, g2, hf2, ← List.countP_eq_length_filter]

/-- Two analyses of the same cut count it twice. -/
example : ((analyzeVpcs none (some fun _ => 1) none { objType := [.USER] } [⟨[(0, 1)], 1⟩] (1 / 10)).bind
      fun c => analyzeVpcs none (some fun _ => 1) none c [⟨[(0, 1)], 1⟩] (1 / 10)).bind
    (fun c => Res.ok (c.activeVpc, entry c.activeHeur .USER)) = .ok (1, 2) := by decide +kernel

/-! ## The solver of the tests -/

/-- **C85.** Gurobi is run exactly if it is asked for and there; Cplex exactly if it is asked for, Gurobi
is not, and it is there; Cbc exactly if only Cbc is asked for and it is there. In particular a solver
that is missing is never replaced by another one. -/
theorem solver_run (c : BBCfg) :
    (pickSolver c = some .gurobi ↔ useBB c.strategy .gurobi = true ∧ c.hasGurobi = true) ∧
      (pickSolver c = some .cplex ↔
        useBB c.strategy .gurobi = false ∧ useBB c.strategy .cplex = true ∧ c.hasCplex = true) ∧
      (pickSolver c = some .cbc ↔ useBB c.strategy .gurobi = false ∧ useBB c.strategy .cplex = false ∧
        useBB c.strategy .cbc = true ∧ c.hasCbc = true) := by
  unfold pickSolver
  cases useBB c.strategy .gurobi <;> cases useBB c.strategy .cplex <;> cases useBB c.strategy .cbc <;>
    cases c.hasGurobi <;> cases c.hasCplex <;> cases c.hasCbc <;> simp

/-- **C85.** The check against a known solution ends the program only if there are cuts to check. -/
theorem no_cuts_no_exit (c : BBCfg) (haveSol : Bool) : gurobiCheckExits c 0 haveSol = false := by
  simp [gurobiCheckExits]

/-- Nor if a solution is known, or the option is off. -/
theorem known_solution_no_exit (c : BBCfg) (n : ℕ) : gurobiCheckExits c n true = false := by
  simp [gurobiCheckExits]

/-! ## How numbers are printed -/

/-- **C93.** A double is printed as `inf` from the largest double (up to `1e-7`) on, as `-inf` below its
negative, and as itself in between. -/
theorem sv_spec (v : ℚ) :
    (sv v = .inf ↔ dblMax - 1 / 10 ^ 7 < v) ∧ (sv v = .ninf ↔ v < -dblMax + 1 / 10 ^ 7) ∧
      (sv v = .num v ↔ -dblMax + 1 / 10 ^ 7 ≤ v ∧ v ≤ dblMax - 1 / 10 ^ 7) := by
  have hpos : (1 : ℚ) < dblMax := by
    unfold dblMax
    have : (1 : ℚ) ≤ 2 ^ 971 := one_le_pow₀ (by norm_num)
    generalize (2 : ℚ) ^ 971 = z at this
    norm_num
    linarith
  have e7 : (defEps : ℚ) = 1 / 10 ^ 7 := rfl
  have i1 : isInfinity v = decide (dblMax - 1 / 10 ^ 7 < v) := by
    rw [Bool.eq_iff_iff]
    simp only [isInfinity, lessThanVal, e7, Bool.or_eq_true, decide_eq_true_eq, Bool.not_eq_true',
      decide_eq_false_iff_not, not_le]
    constructor
    · rintro (h | h)
      · norm_num at h ⊢; linarith
      · exact h
    · exact Or.inr
  have i2 : isNegInfinity v (-dblMax) = decide (v < -dblMax + 1 / 10 ^ 7) := by
    rw [Bool.eq_iff_iff]
    simp only [isNegInfinity, greaterThanVal, e7, Bool.or_eq_true, decide_eq_true_eq, Bool.not_eq_true',
      decide_eq_false_iff_not, not_le, ge_iff_le]
    constructor
    · rintro (h | h)
      · norm_num at h ⊢; linarith
      · exact h
    · exact Or.inr
  have lt : -dblMax + 1 / 10 ^ 7 < dblMax - 1 / 10 ^ 7 := by
    norm_num; linarith
  unfold sv
  rw [i1, i2]
  generalize dblMax - 1 / 10 ^ 7 = a at *
  generalize -dblMax + 1 / 10 ^ 7 = b at *
  by_cases h1 : a < v
  · simp [h1, not_lt.2 (le_of_lt (lt.trans h1))]
  · by_cases h2 : v < b
    · simp [h1, h2]
    · simp [h1, h2, not_lt.1 h1, not_lt.1 h2]

/-- **C93.** An integer strictly between the extreme values is printed as itself, the others as
infinities. -/
theorem svI_spec (v : ℤ) :
    (svI v = .inf ↔ 2147483647 ≤ v) ∧ (svI v = .ninf ↔ v ≤ -2147483647) ∧
      (svI v = .int v ↔ -2147483647 < v ∧ v < 2147483647) := by
  have e : intMax = 2147483647 := rfl
  unfold svI
  rw [e]
  split
  · simp; omega
  · split <;> simp <;> omega

/-- **C93 (negation).** A value that is not a number is printed as `inf`. -/
theorem nan_printed_as_inf : svN none = .inf := rfl

example : sv (3 / 2) = .num (3 / 2) ∧ sv dblMax = .inf ∧ sv (-dblMax) = .ninf ∧ svI 7 = .int 7 := by
  decide +kernel

end VPC
