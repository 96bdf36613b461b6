import Verif.Props.Options

/-!
# C74: the parameter values the documentation lists are the ones that are accepted

The documentation is the comments of the enumerations (include/VPCParameters.hpp:51-115) and the help
text (src/main.cpp:1958-2010).
-/
namespace VPC

/-! ## Specification: what the comments say -/

/-- Values of the integer parameters named in the comments of include/VPCParameters.hpp:51-100 and the
help text of src/main.cpp. `MODE = 2` is documented as not implemented and therefore not listed. -/
def DocInt : IntId → Int → Prop
  | .GOMORY, v => v = -1 ∨ v = 0 ∨ v = 1
  | .MODE, v => v = 0 ∨ v = 1 ∨ v = 3 ∨ v = 4
  | .PARTIAL_BB_NUM_STRONG, v => v = -1 ∨ v = -2 ∨ 0 ≤ v
  | .PARTIAL_BB_KEEP_PRUNED_NODES, v => v = 0 ∨ v = 1
  | .PREPROCESS, v => v = 0 ∨ v = 1 ∨ v = 2
  | .PRLP_FLIP_BETA, v => v = -1 ∨ v = 0 ∨ v = 1
  | .ROUNDS, v => 0 ≤ v
  | .STRENGTHEN, v => v = 0 ∨ v = 1 ∨ v = 3
  | .USE_ALL_ONES, v => v = 0 ∨ v = 1
  | .USE_DISJ_LB, v => v = 0 ∨ v = 1
  | .USE_ITER_BILINEAR, v => 0 ≤ v
  | .USE_TIGHT_POINTS, v => 0 ≤ v
  | .USE_TIGHT_RAYS, v => -1 ≤ v
  | .VERBOSITY, v => v = 0 ∨ v = 1
  | .RANDOM_SEED, v => 0 ≤ v
  | .MAX_NUM_HOT_START_VIOL, v => 0 ≤ v
  | .BB_MODE, v => ∃ a b c : Int, (a = 0 ∨ a = 1) ∧ (b = 0 ∨ b = 1) ∧ (c = 0 ∨ c = 1) ∧
      v = 100 * a + 10 * b + c
  | .CUTLIMIT, _ => True
  | .DISJ_TERMS, _ => True
  | .PARTIAL_BB_STRATEGY, _ => True
  | .TEMP, _ => True
  | .USE_UNIT_VECTORS, _ => True
  | .BB_RUNS, _ => True
  | .BB_STRATEGY, _ => True

/-- The parameters whose documented values form a closed list or a range that is enforced. -/
def Enforced (i : IntId) : Prop :=
  i ∈ [IntId.GOMORY, .MODE, .PARTIAL_BB_KEEP_PRUNED_NODES, .PREPROCESS, .PRLP_FLIP_BETA, .ROUNDS,
    .USE_ALL_ONES, .USE_DISJ_LB, .USE_ITER_BILINEAR]

/-! ## Theorems -/

/-- **C74 (partial: `STRENGTHEN = 3` excepted, see `strengthen_three_exits`).** In every reachable
parameter set, every documented value of every integer parameter is accepted, becomes the value of that
parameter and leaves the others alone. -/
theorem documented_accepted_partial (p : Params) (hp : PInv p) (i : IntId) (v : Int) (hv : IsInt v)
    (hd : DocInt i v) (hs : ¬ (i = .STRENGTHEN ∧ v = 3)) :
    ∃ q, p.setI i v = some q ∧ q.getI i = v ∧ (∀ j, j ≠ i → q.ints j = p.ints j) ∧
      q.dbls = p.dbls ∧ q.strs = p.strs := by
  obtain ⟨w, hw, -⟩ := hp.ints i
  have hdoc : (intDefaults i).Documented v := by
    obtain ⟨h1, h2⟩ := hv
    cases i <;> simp only [DocInt, intDefaults, IntP.Documented, true_and, reduceCtorEq, false_and,
      not_false_eq_true, List.mem_cons, List.not_mem_nil, or_false, intMin, intMax, ne_eq,
      not_true_eq_false, not_false_eq_true, reduceIte, List.cons_ne_self] at * <;> try omega
    all_goals first
      | omega
      | (obtain ⟨a, b, c, ha, hb, hc, rfl⟩ := hd; omega)
      | (simp; omega)
  have hset : (p.ints i).set v = some { p.ints i with val := v } := by
    apply int_set_accepts; rw [hw]; exact hdoc
  refine ⟨{ p with ints := fun j => if j = i then { p.ints i with val := v } else p.ints j },
    ?_, ?_, ?_, rfl, rfl⟩
  · simp only [Params.setI, hset, Option.map_some]
  · simp [Params.getI]
  · intro j hj; simp [hj]

/-- **C74 (partial: only the parameters listed in `Enforced`; for the others see `undocumented_accepted`).**
Every other `int` ends the process. -/
theorem undocumented_rejected_partial (p : Params) (hp : PInv p) (i : IntId) (v : Int) (hv : IsInt v)
    (hi : Enforced i) (hd : ¬ DocInt i v) : p.setI i v = none := by
  obtain ⟨w, hw, -⟩ := hp.ints i
  unfold Params.setI
  cases hs : (p.ints i).set v with
  | none => rfl
  | some q =>
    exfalso
    have hb := int_table_bounds i
    have hdoc := (int_set_documented (p.ints i) q v (by rw [hw]; exact hb.1) (by rw [hw]; exact hb.2.1)
        (by rw [hw]; exact hb.2.2) hv hs).2
    rw [hw] at hdoc
    replace hdoc : (intDefaults i).Documented v := hdoc
    clear hs hw hb hp
    simp only [Enforced, List.mem_cons, List.not_mem_nil, or_false] at hi
    rcases hi with rfl | rfl | rfl | rfl | rfl | rfl | rfl | rfl | rfl <;>
      simp [DocInt, intDefaults, IntP.Documented] at hd hdoc <;> omega

/-- **C74 fails**: the documented value 3 of `STRENGTHEN` ends the process; the documented value -2 of
`PRLP_TIMELIMIT` ("unlimited time always") does too. -/
theorem strengthen_three_exits : DocInt .STRENGTHEN 3 ∧ Params.default.setI .STRENGTHEN 3 = none ∧
    Params.default.setD .PRLP_TIMELIMIT (-2) = none := by
  refine ⟨by simp [DocInt], ?_, ?_⟩
  · simp [Params.default, Params.setI, intDefaults, IntP.set, IntP.ok, rangeAllowed, isInfinity,
      isNegInfinity, lessThanVal, greaterThanVal, isVal, intMax, intMin, defEps]
    norm_num
  · unfold Params.setD
    cases hs : (Params.default.dbls .PRLP_TIMELIMIT).set (-2) with
    | none => rfl
    | some q =>
      exfalso
      have hb := dbl_table_bounds .PRLP_TIMELIMIT (by simp)
      have h1 := dblMax_big
      have h := (dbl_set_documented_partial _ q (-2) hb.1 hb.2.1 hb.2.2
        (by rw [abs_neg, abs_of_pos (by norm_num)]; linarith) hs).2
      have h2 := defEps_lt_one
      have h3 := h.1
      simp only [Params.default, dblDefaults] at h3
      linarith

/-- **C74 fails**: `STRENGTHEN = 2`, `BB_MODE = 57` and `PARTIAL_BB_NUM_STRONG = -5`, which mean nothing
according to the documentation, are accepted. -/
theorem undocumented_accepted :
    (¬ DocInt .STRENGTHEN 2 ∧ (Params.default.setI .STRENGTHEN 2).isSome) ∧
    (¬ DocInt .BB_MODE 57 ∧ (Params.default.setI .BB_MODE 57).isSome) ∧
    (¬ DocInt .PARTIAL_BB_NUM_STRONG (-5) ∧ (Params.default.setI .PARTIAL_BB_NUM_STRONG (-5)).isSome) := by
  have acc : ∀ i v, (intDefaults i).Documented v → (Params.default.setI i v).isSome := by
    intro i v h
    have : (Params.default.ints i).set v = some { Params.default.ints i with val := v } :=
      int_set_accepts _ _ h
    simp [Params.setI, this]
  refine ⟨⟨by simp [DocInt], acc _ _ (by simp [intDefaults, IntP.Documented])⟩,
    ⟨?_, acc _ _ (by simp [intDefaults, IntP.Documented])⟩,
    ⟨by simp [DocInt], acc _ _ (by simp [intDefaults, IntP.Documented, intMin, intMax])⟩⟩
  rintro ⟨a, b, c, ha, hb, hc, h⟩
  omega

/-- The default strategy is the documented 536 = gurobi + user_cuts + presolve_off, and no other option is
on (src/main.cpp:1995). -/
theorem default_strategy : Params.default.getI .BB_STRATEGY = 536 ∧
    ∀ o, useBB (BitVec.ofInt 32 (Params.default.getI .BB_STRATEGY)) o = true ↔
      (o = .gurobi ∨ o = .user_cuts ∨ o = .presolve_off) := by
  refine ⟨by simp [Params.getI, Params.default, intDefaults], fun o => ?_⟩
  cases o <;> decide +kernel

/-! ## C20, C52: other options of the command line -/

/-- **C20.** A switch given anything but the numbers 0 and 1 ends the process. -/
theorem cli_switch_rejects (env : CliEnv) (p : Params) (sw : Switch) :
    (∀ v, IsInt v → v ≠ 0 → v ≠ 1 → cliStep env p (.switch sw) (decimal v) = none) ∧
    (∀ arg, (parseInt arg).1 = false → cliStep env p (.switch sw) arg = none) := by
  constructor
  · intro v hv h0 h1
    simp only [cliStep, parseInt_decimal_partial v hv]
    simp [h0, h1]
  · intro arg h
    simp [cliStep, h]

/-- The sub-options of the tikz output. -/
def tikzSub : List TempOpt :=
  [.GEN_TIKZ_STRING_WITH_VPCS, .GEN_TIKZ_STRING_WITH_GMICS, .GEN_TIKZ_STRING_AND_RETURN,
   .GEN_TIKZ_STRING_AND_EXIT]

/-- **C52 (partial: numbers that are not negative; see `temp_negative_loses`).** `--temp=v` sets exactly the
options of the number `v`, and the tikz output also if one of its sub-options is among them; nothing else
changes. -/
theorem cli_temp_partial (env : CliEnv) (p : Params) (hp : PInv p) (v : Int) (hv : IsInt v)
    (hpos : 0 ≤ v) : ∃ q, cliStep env p .temp (decimal v) = some q ∧
      (∀ o, useTemp (BitVec.ofInt 32 (q.getI .TEMP)) o = true ↔
        useTemp (BitVec.ofInt 32 v) o = true ∨
          (o = .GEN_TIKZ_STRING ∧ ∃ o' ∈ tikzSub, useTemp (BitVec.ofInt 32 v) o' = true)) ∧
      (∀ j, j ≠ .TEMP → q.ints j = p.ints j) ∧ q.dbls = p.dbls ∧ q.strs = p.strs := by
  obtain ⟨w, hw, -⟩ := hp.ints .TEMP
  set b := tempValidate (BitVec.ofInt 32 v) with hb
  have hset : (p.ints .TEMP).set b.toInt = some { p.ints .TEMP with val := b.toInt } := by
    apply int_set_accepts
    rw [hw]
    have := isInt_toInt b
    right; exact ⟨rfl, this.1, this.2⟩
  refine ⟨{ p with ints := fun j => if j = .TEMP then
      { p.ints .TEMP with val := b.toInt } else p.ints j }, ?_, ?_, ?_, rfl, rfl⟩
  · simp only [cliStep, parseInt_decimal_partial v hv, Bool.not_true, Bool.false_eq_true, if_false,
      ← hb, Params.setBits, Params.setI, hset, Option.map_some]
  · intro o
    simp only [Params.getI, if_true, BitVec.ofInt_toInt, hb]
    have hmsb : (BitVec.ofInt 32 v).msb = false := by
      rw [BitVec.msb_eq_toInt]
      have : (BitVec.ofInt 32 v).toInt = v := by
        rw [BitVec.toInt_ofInt]
        obtain ⟨h1, h2⟩ := hv
        simp only [intMin, intMax] at h1 h2
        exact Int.bmod_eq_of_le (by omega) (by omega)
      rw [this]; simpa using hpos
    unfold tempValidate
    simp only [hmsb, Bool.false_eq_true, if_false]
    split
    · rename_i h
      rw [(tempOption_spec _ _ _).1]
      have hex : ∃ o' ∈ tikzSub, useTemp (BitVec.ofInt 32 v) o' = true := by
        simp only [Bool.or_eq_true] at h
        rcases h with ((h | h) | h) | h
        · exact ⟨_, by simp [tikzSub], h⟩
        · exact ⟨_, by simp [tikzSub], h⟩
        · exact ⟨_, by simp [tikzSub], h⟩
        · exact ⟨_, by simp [tikzSub], h⟩
      by_cases ho : o = .GEN_TIKZ_STRING
      · simp [ho, hex]
      · simp [ho]
    · rename_i h
      constructor
      · exact Or.inl
      · rintro (h' | ⟨-, o', ho', h'⟩)
        · exact h'
        · exfalso; apply h
          simp only [tikzSub, List.mem_cons, List.not_mem_nil, or_false] at ho'
          rcases ho' with rfl | rfl | rfl | rfl <;> simp [h']
  · intro j hj; simp [hj]

/-- **C52 fails** for negative numbers, by which the user asks for the tikz output without LP values (the
options are those of the absolute value, include/VPCParameters.hpp:176): `--temp=-2048` asks for the output
with VPCs, but -1024 is stored, whose absolute value has the output on and the sub-option off. -/
theorem temp_negative_loses :
    useTemp (BitVec.ofInt 32 2048) .GEN_TIKZ_STRING_WITH_VPCS = true ∧
    (cliStep demoCli Params.default .temp "-2048".toList).map (fun q => q.getI .TEMP) = some (-1024) ∧
    useTemp (BitVec.ofInt 32 1024) .GEN_TIKZ_STRING_WITH_VPCS = false := by
  refine ⟨by decide, by decide +kernel, by decide⟩

/-- **C52.** `--bb_strategy=v` sets the strategy number to `v`, and ends the process if `v` asks for a solver
that was not compiled in. -/
theorem cli_bbStrategy (env : CliEnv) (p : Params) (hp : PInv p) (v : Int) (hv : IsInt v) :
    ((env.useGurobi = false ∧ useBB (BitVec.ofInt 32 v) .gurobi = true) ∨
      (env.useCplex = false ∧ useBB (BitVec.ofInt 32 v) .cplex = true) →
        cliStep env p .bbStrategy (decimal v) = none) ∧
    (¬ ((env.useGurobi = false ∧ useBB (BitVec.ofInt 32 v) .gurobi = true) ∨
      (env.useCplex = false ∧ useBB (BitVec.ofInt 32 v) .cplex = true)) →
        ∃ q, cliStep env p .bbStrategy (decimal v) = some q ∧ q.getI .BB_STRATEGY = v ∧
          (∀ j, j ≠ .BB_STRATEGY → q.ints j = p.ints j) ∧ q.dbls = p.dbls ∧ q.strs = p.strs) := by
  obtain ⟨q, h1, h2, h3, h4, h5⟩ :=
    documented_accepted_partial p hp .BB_STRATEGY v hv (by simp [DocInt]) (by simp)
  simp only [cliStep, parseInt_decimal_partial v hv, h1, Option.bind_eq_bind, Option.bind_some,
    Bool.not_true, Bool.false_eq_true, if_false]
  constructor
  · rintro (⟨e1, e2⟩ | ⟨e1, e2⟩)
    · simp [e1, e2]
    · simp [e1, e2]
  · intro h
    simp only [not_or, not_and] at h
    refine ⟨q, ?_, h2, h3, h4, h5⟩
    rw [if_neg, if_neg]
    · simp only [Bool.and_eq_true, Bool.not_eq_true', not_and]
      intro a b; exact h.2 b a
    · simp only [Bool.and_eq_true, Bool.not_eq_true', not_and]
      intro a b; exact h.1 b a

/-- The documentation of `--preprocess` (src/main.cpp:1963): "temp=1, bb_mode=001, bb_runs=7,
timelimit=7200". -/
def PreprocessDoc (q : Params) : Prop :=
  q.getI .TEMP = 1 ∧ q.getI .BB_MODE = 1 ∧ q.getI .BB_RUNS = 7 ∧ q.getD .TIMELIMIT = 7200

/-- **C52 fails** for `--preprocess`: one run instead of seven is set, and `TEMP` is left alone (the option's
own argument goes to `PREPROCESS`). -/
theorem preprocess_not_documented :
    ∃ q, cliStep demoCli Params.default .preprocess "1".toList = some q ∧ ¬ PreprocessDoc q ∧
      q.getI .PREPROCESS = 1 ∧ q.getI .TEMP = 0 ∧ q.getI .BB_RUNS = 1 ∧ q.getI .BB_MODE = 1 ∧
      q.getD .TIMELIMIT = 7200 := by
  have h : ((cliStep demoCli Params.default .preprocess "1".toList).map fun q =>
      (q.getI .PREPROCESS, q.getI .TEMP, q.getI .BB_RUNS, q.getI .BB_MODE, q.getD .TIMELIMIT)) =
      some (1, 0, 1, 1, 7200) := by decide +kernel
  obtain ⟨q, hq, he⟩ := Option.map_eq_some_iff.1 h
  simp only [Prod.mk.injEq] at he
  obtain ⟨e1, e2, e3, e4, e5⟩ := he
  refine ⟨q, hq, ?_, e1, e2, e3, e4, e5⟩
  intro hd
  rw [hd.1] at e2
  omega

/-- Non-vacuity: documented and undocumented values, in the initial parameter set. -/
example : PInv Params.default ∧ IsInt (-1) ∧ DocInt .GOMORY (-1) ∧ IsInt 2 ∧ Enforced .GOMORY ∧
    ¬ DocInt .GOMORY 2 := ⟨PInv_default, by simp [IsInt, intMin, intMax], by simp [DocInt],
      by simp [IsInt, intMin, intMax], by simp [Enforced], by simp [DocInt]⟩

end VPC
