import Verif.Props.Params

/-!
# Properties C19, C20, C31, C52 (option bits, command-line switches, strategy digits)
-/
namespace VPC

/-! ## C19: option bits -/

/-- Position of the bit of an option. -/
def BBOpt.idx : BBOpt → Nat
  | .cbc => 1 | .cplex => 2 | .gurobi => 3 | .user_cuts => 4 | .all_cuts_off => 5
  | .all_cuts_on => 6 | .gmics_off => 7 | .gmics_on => 8 | .presolve_off => 9
  | .presolve_on => 10 | .heuristics_off => 11 | .heuristics_on => 12 | .use_best_bound => 13
  | .strong_branching_on => 14

theorem BBOpt.val_eq (o : BBOpt) : o.val = BitVec.twoPow 32 o.idx := by
  cases o <;> rfl

theorem BBOpt.idx_lt (o : BBOpt) : o.idx < 32 := by cases o <;> decide

theorem BBOpt.idx_inj {o o' : BBOpt} (h : o.idx = o'.idx) : o = o' := by
  cases o <;> cases o' <;> first | rfl | (exact absurd h (by decide))

/-- An option tests true exactly when its bit is set. -/
theorem useBB_eq (s : BitVec 32) (o : BBOpt) : useBB s o = s.getLsbD o.idx := by
  unfold useBB
  rw [o.val_eq, BitVec.and_twoPow]
  cases h : s.getLsbD o.idx
  · simp
  · simp only [if_true, bne_iff_ne, ne_eq]
    cases o <;> decide

/-- C19: enabling an option makes it test true and leaves the test of every other option alone. -/
theorem enableBB_spec (s : BitVec 32) (o o' : BBOpt) :
    useBB (enableBB s o) o' = if o' = o then true else useBB s o' := by
  rw [useBB_eq, useBB_eq]
  unfold enableBB
  rw [BitVec.getLsbD_or, o.val_eq, BitVec.getLsbD_twoPow]
  have := o.idx_lt
  split_ifs with h
  · subst h; simp [this]
  · have : o.idx ≠ o'.idx := fun e => h (BBOpt.idx_inj e.symm)
    simp [this]

/-- C19: disabling an option makes it test false and leaves the test of every other option
alone. -/
theorem disableBB_spec (s : BitVec 32) (o o' : BBOpt) :
    useBB (disableBB s o) o' = if o' = o then false else useBB s o' := by
  rw [useBB_eq, useBB_eq]
  unfold disableBB
  rw [BitVec.getLsbD_and, BitVec.getLsbD_not, o.val_eq, BitVec.getLsbD_twoPow]
  have := o.idx_lt
  have := o'.idx_lt
  split_ifs with h
  · subst h; simp [this]
  · have : o.idx ≠ o'.idx := fun e => h (BBOpt.idx_inj e.symm)
    simp_all

/-- C19, on the whole word: enabling/disabling changes no bit other than that of the option, not
even bits without a name. -/
theorem enable_disable_other_bits (s : BitVec 32) (o : BBOpt) (i : Nat) (hi : i ≠ o.idx) :
    (enableBB s o).getLsbD i = s.getLsbD i ∧ (disableBB s o).getLsbD i = s.getLsbD i := by
  unfold enableBB disableBB
  rw [BitVec.getLsbD_or, BitVec.getLsbD_and, BitVec.getLsbD_not, o.val_eq, BitVec.getLsbD_twoPow]
  constructor
  · simp [hi.symm]
  · by_cases h : i < 32
    · simp [hi.symm, h]
    · have : s.getLsbD i = false := BitVec.getLsbD_of_ge s i (by omega)
      simp [this]

theorem word_ext {s t : BitVec 32} (h : ∀ i, s.getLsbD i = t.getLsbD i) : s = t :=
  BitVec.eq_of_getLsbD_eq fun i _ => h i

theorem getLsbD_enable (s : BitVec 32) (o : BBOpt) (i : Nat) :
    (enableBB s o).getLsbD i = if i = o.idx then true else s.getLsbD i := by
  split_ifs with h
  · subst h; rw [← useBB_eq, enableBB_spec]; simp
  · exact (enable_disable_other_bits s o i h).1

theorem getLsbD_disable (s : BitVec 32) (o : BBOpt) (i : Nat) :
    (disableBB s o).getLsbD i = if i = o.idx then false else s.getLsbD i := by
  split_ifs with h
  · subst h; rw [← useBB_eq, disableBB_spec]; simp
  · exact (enable_disable_other_bits s o i h).2

/-- C19: enabling and disabling are idempotent, undo each other on the option's bit, and commute
for different options. -/
theorem enable_disable_algebra (s : BitVec 32) (o o' : BBOpt) (h : o ≠ o') :
    enableBB (enableBB s o) o = enableBB s o ∧ disableBB (disableBB s o) o = disableBB s o ∧
    enableBB (enableBB s o) o' = enableBB (enableBB s o') o ∧
    disableBB (disableBB s o) o' = disableBB (disableBB s o') o ∧
    enableBB (disableBB s o) o' = disableBB (enableBB s o') o ∧
    (useBB s o = false → disableBB (enableBB s o) o = s) ∧
    (useBB s o = true → enableBB (disableBB s o) o = s) := by
  have hi : o.idx ≠ o'.idx := fun e => h (BBOpt.idx_inj e)
  refine ⟨?_, ?_, ?_, ?_, ?_, ?_, ?_⟩
  · apply word_ext; intro i; simp only [getLsbD_enable]; split_ifs <;> rfl
  · apply word_ext; intro i; simp only [getLsbD_disable]; split_ifs <;> rfl
  · apply word_ext; intro i; simp only [getLsbD_enable]; split_ifs <;> rfl
  · apply word_ext; intro i; simp only [getLsbD_disable]; split_ifs <;> rfl
  · apply word_ext; intro i; simp only [getLsbD_enable, getLsbD_disable]
    split_ifs <;> first | rfl | omega
  · intro hu; apply word_ext; intro i; simp only [getLsbD_enable, getLsbD_disable]
    split_ifs with h1
    · rw [h1, ← useBB_eq, hu]
    · rfl
  · intro hu; apply word_ext; intro i; simp only [getLsbD_enable, getLsbD_disable]
    split_ifs with h1
    · rw [h1, ← useBB_eq, hu]
    · rfl

example : BBOpt.cbc ≠ BBOpt.gurobi ∧ useBB 536 .gurobi = true ∧ useBB 536 .cbc = false := by
  decide

theorem bbValue_foldl (os : List BBOpt) (v : BitVec 32) (hnd : os.Nodup)
    (hv : ∀ o ∈ os, v.getLsbD o.idx = false) (i : Nat) :
    (os.foldl (fun v o => v + o.val) v).getLsbD i =
      (v.getLsbD i || os.any (fun o => o.idx == i)) := by
  induction os generalizing v with
  | nil => simp
  | cons o os ih =>
    simp only [List.foldl_cons, List.any_cons]
    have hadd : v + o.val = v ||| o.val := by
      apply BitVec.add_eq_or_of_and_eq_zero
      rw [o.val_eq, BitVec.and_twoPow, hv o List.mem_cons_self]
      simp
    rw [List.nodup_cons] at hnd
    rw [hadd]
    rw [ih _ hnd.2]
    · rw [BitVec.getLsbD_or, o.val_eq, BitVec.getLsbD_twoPow]
      have := o.idx_lt
      simp only [this, decide_true, Bool.true_and]
      rw [Bool.or_assoc]
      congr 1
    · intro o' ho'
      have hne : o ≠ o' := by rintro rfl; exact hnd.1 ho'
      rw [BitVec.getLsbD_or, hv o' (List.mem_cons_of_mem _ ho'), o.val_eq, BitVec.getLsbD_twoPow]
      have : o.idx ≠ o'.idx := fun e => hne (BBOpt.idx_inj e)
      simp [this]

/-- C19: the number computed for a list of distinct options has exactly those options on. -/
theorem bbValue_spec (os : List BBOpt) (hnd : os.Nodup) (o : BBOpt) :
    useBB (bbValue os) o = true ↔ o ∈ os := by
  rw [useBB_eq, bbValue, bbValue_foldl os 0 hnd (by simp)]
  simp only [BitVec.ofNat_eq_ofNat, BitVec.getLsbD_zero, Bool.false_or, List.any_eq_true,
    beq_iff_eq]
  constructor
  · rintro ⟨o', h1, h2⟩; rw [← BBOpt.idx_inj h2]; exact h1
  · intro h; exact ⟨o, h, rfl⟩

example : (bbValue [.gurobi, .user_cuts, .presolve_off]).toInt = 536 := by decide

/-- Without `Nodup` the claim is false: listing an option twice switches on another one. -/
theorem bbValue_duplicates : useBB (bbValue [.cbc, .cbc]) .cbc = false ∧
    useBB (bbValue [.cbc, .cbc]) .cplex = true := by decide

/-- The same three facts for the temporary options. -/
theorem tempOption_spec (s : BitVec 32) (o o' : TempOpt) :
    useTemp (enableTemp s o) o' = (if o' = o then true else useTemp s o') ∧
    useTemp (disableTemp s o) o' = (if o' = o then false else useTemp s o') := by
  have hw : ∀ k : TempOpt, ∃ i, i < 32 ∧ k.val = BitVec.twoPow 32 i := by
    intro k
    cases k
    · exact ⟨3, by decide, rfl⟩
    · exact ⟨4, by decide, rfl⟩
    · exact ⟨5, by decide, rfl⟩
    · exact ⟨10, by decide, rfl⟩
    · exact ⟨11, by decide, rfl⟩
    · exact ⟨12, by decide, rfl⟩
    · exact ⟨14, by decide, rfl⟩
    · exact ⟨15, by decide, rfl⟩
  obtain ⟨i, hi, ei⟩ := hw o
  obtain ⟨j, hj, ej⟩ := hw o'
  have hinj : o' = o ↔ i = j := by
    constructor
    · rintro rfl
      rw [ei] at ej
      by_contra hne
      have := congrArg (fun b => b.getLsbD j) ej
      simp [BitVec.getLsbD_twoPow, hj] at this
      exact hne this.symm
    · intro e
      subst e
      rw [← ei] at ej
      revert ej
      cases o <;> cases o' <;> first | (intro _; rfl) | (intro h; exact absurd h (by decide))
  have huse : ∀ t : BitVec 32, useTemp t o' = t.getLsbD j := by
    intro t
    unfold useTemp
    rw [ej, BitVec.and_twoPow]
    cases h : t.getLsbD j
    · simp
    · simp only [if_true, bne_iff_ne, ne_eq]
      intro h0
      have := congrArg (fun b => b.getLsbD j) h0
      simp [BitVec.getLsbD_twoPow, hj] at this
  rw [huse, huse, huse]
  unfold enableTemp disableTemp
  rw [BitVec.getLsbD_or, BitVec.getLsbD_and, BitVec.getLsbD_not, ei, BitVec.getLsbD_twoPow]
  by_cases h : i = j
  · rw [if_pos (hinj.mpr h), if_pos (hinj.mpr h)]; simp [h, hj]
  · rw [if_neg (fun e => h (hinj.mp e)), if_neg (fun e => h (hinj.mp e))]; simp [h, hj]

/-! ## C20: command-line switches -/

/-- What the name of a switch promises: the option(s) that must be on when the switch is 1 (first
component) and those that must be on when it is 0 (second component). -/
def promised : Switch → BBOpt × Option BBOpt
  | .cbc => (.cbc, none)
  | .cplex => (.cplex, none)
  | .gurobi => (.gurobi, none)
  | .user_cuts => (.user_cuts, none)
  | .use_best_bound => (.use_best_bound, none)
  | .bb_all_cuts => (.all_cuts_on, some .all_cuts_off)
  | .bb_gmics => (.gmics_on, some .gmics_off)
  | .bb_heuristics => (.heuristics_on, some .heuristics_off)
  | .bb_presolve => (.presolve_on, some .presolve_off)
  | .bb_strong_branching => (.strong_branching_on, none)

/-- The branch-and-bound solvers, of which at most one is to be selected. -/
def solvers : List BBOpt := [.cbc, .cplex, .gurobi]

/-- C20: the switch with value `v`, applied to strategy `s` giving `t`, does what its name says:
its on-option tests `v`, its off-option (if any) tests `!v`, selecting a solver deselects the other
solvers, and everything else is as before. -/
def SwitchOk (sw : Switch) (v : Bool) (s t : BitVec 32) : Prop :=
  useBB t (promised sw).1 = v ∧
  (∀ o, (promised sw).2 = some o → useBB t o = !v) ∧
  (∀ o, o ≠ (promised sw).1 → (promised sw).2 ≠ some o →
    useBB t o = if v = true ∧ (promised sw).1 ∈ solvers ∧ o ∈ solvers then false else useBB s o)

/-- C20, the part that holds: every switch except `bb_heuristics`, `bb_presolve` and switching
`use_best_bound` off. -/
theorem switch_ok_partial (sw : Switch) (v : Bool) (s : BitVec 32)
    (h1 : sw ≠ .bb_heuristics) (h2 : sw ≠ .bb_presolve)
    (h3 : ¬ (sw = .use_best_bound ∧ v = false)) :
    SwitchOk sw v s (switchBits sw v s) := by
  unfold SwitchOk
  refine ⟨?_, ?_, ?_⟩
  · cases sw <;> cases v <;> first
      | exact absurd rfl h1
      | exact absurd rfl h2
      | exact absurd ⟨rfl, rfl⟩ h3
      | (simp [switchBits, promised, enableBB_spec, disableBB_spec])
  · intro o ho
    cases sw <;> cases v <;> first
      | exact absurd rfl h1
      | exact absurd rfl h2
      | exact absurd ⟨rfl, rfl⟩ h3
      | (simp [promised] at ho; done)
      | (simp only [promised, Option.some.injEq] at ho; subst ho
         simp [switchBits, enableBB_spec, disableBB_spec])
  · intro o ho ho'
    cases sw <;> cases v <;> first
      | exact absurd rfl h1
      | exact absurd rfl h2
      | exact absurd ⟨rfl, rfl⟩ h3
      | (cases o <;> simp_all [switchBits, promised, solvers, enableBB_spec, disableBB_spec])

/-- C20 on the command line: `--switch=0/1` (any of the seven unaffected ones) succeeds and its
whole effect on the parameters is the promised change of `BB_STRATEGY`. -/
theorem cli_switch_partial (env : CliEnv) (p : Params) (hp : PInv p) (sw : Switch) (v : Bool)
    (h1 : sw ≠ .bb_heuristics) (h2 : sw ≠ .bb_presolve)
    (h3 : ¬ (sw = .use_best_bound ∧ v = false)) :
    ∃ q, cliStep env p (.switch sw) (decimal (if v then 1 else 0)) = some q ∧
      SwitchOk sw v (BitVec.ofInt 32 (p.getI .BB_STRATEGY)) (BitVec.ofInt 32 (q.getI .BB_STRATEGY)) ∧
      (∀ j, j ≠ .BB_STRATEGY → q.ints j = p.ints j) ∧ q.dbls = p.dbls ∧ q.strs = p.strs := by
  obtain ⟨w, hw, -⟩ := hp.ints .BB_STRATEGY
  set b := switchBits sw v (BitVec.ofInt 32 (p.getI .BB_STRATEGY)) with hb
  have hset : (p.ints .BB_STRATEGY).set b.toInt = some { p.ints .BB_STRATEGY with val := b.toInt } := by
    apply int_set_accepts
    rw [hw]
    have := isInt_toInt b
    right; exact ⟨rfl, this.1, this.2⟩
  refine ⟨{ p with ints := fun j => if j = .BB_STRATEGY then
      { p.ints .BB_STRATEGY with val := b.toInt } else p.ints j }, ?_, ?_, ?_, rfl, rfl⟩
  · have hpar : parseInt (decimal (if v then 1 else 0)) = (true, if v then 1 else 0) := by
      apply parseInt_decimal_partial
      cases v <;> simp [IsInt, intMin, intMax]
    simp only [cliStep, hpar]
    have hv : ((if v = true then (1 : Int) else 0) == 1) = v := by cases v <;> rfl
    rw [hv, ← hb]
    rw [if_neg (by cases v <;> simp)]
    simp only [Params.setBits, Params.setI, hset, Option.map_some]
  · simp only [Params.getI, if_true, BitVec.ofInt_toInt]
    exact switch_ok_partial sw v _ h1 h2 h3
  · intro j hj; simp [hj]

example : (cliStep demoCli Params.default (.switch .bb_gmics) ['0']).map
    (fun q => q.getI .BB_STRATEGY) = some (536 + 128) := by decide +kernel

/-- C20 is violated: `--use_best_bound=0` leaves (or makes) the option on. -/
theorem use_best_bound_stuck (v : Bool) (s : BitVec 32) :
    useBB (switchBits .use_best_bound v s) .use_best_bound = true := by
  cases v <;> simp [switchBits, enableBB_spec]

/-- C20 is violated: `--bb_heuristics` never touches the heuristics options, whatever its value; it
changes presolve instead. -/
theorem bb_heuristics_sets_presolve (v : Bool) (s : BitVec 32) :
    useBB (switchBits .bb_heuristics v s) .heuristics_on = useBB s .heuristics_on ∧
    useBB (switchBits .bb_heuristics v s) .heuristics_off = useBB s .heuristics_off ∧
    useBB (switchBits .bb_heuristics v s) .presolve_on = v ∧
    useBB (switchBits .bb_heuristics v s) .presolve_off = !v := by
  cases v <;> simp [switchBits, enableBB_spec, disableBB_spec]

/-- C20 is violated: `--bb_presolve` changes the heuristics options instead. -/
theorem bb_presolve_sets_heuristics (v : Bool) (s : BitVec 32) :
    useBB (switchBits .bb_presolve v s) .presolve_on = useBB s .presolve_on ∧
    useBB (switchBits .bb_presolve v s) .presolve_off = useBB s .presolve_off ∧
    useBB (switchBits .bb_presolve v s) .heuristics_on = v ∧
    useBB (switchBits .bb_presolve v s) .heuristics_off = !v := by
  cases v <;> simp [switchBits, enableBB_spec, disableBB_spec]

/-- C20 as stated fails, for each of the three switches. -/
theorem C20_violated :
    ¬ (∀ s, SwitchOk .bb_heuristics true s (switchBits .bb_heuristics true s)) ∧
    ¬ (∀ s, SwitchOk .bb_presolve true s (switchBits .bb_presolve true s)) ∧
    ¬ (∀ s, SwitchOk .use_best_bound false s (switchBits .use_best_bound false s)) := by
  refine ⟨?_, ?_, ?_⟩
  · intro h; have := (h 0).1; revert this; decide
  · intro h; have := (h 0).1; revert this; decide
  · intro h; have := (h 0).1; revert this; decide

/-! ## C52: plain command-line options -/

/-- C52: a plain integer option given the decimal text of a documented value sets its parameter to
that value and changes nothing else; text that is not an integer or a value that is not documented
stops the process. -/
theorem cli_int_option (env : CliEnv) (p : Params) (hp : PInv p) (i : IntId) :
    (∀ v, IsInt v → (intDefaults i).Documented v →
      ∃ q, cliStep env p (.int i) (decimal v) = some q ∧ q.getI i = v ∧
        (∀ j, j ≠ i → q.ints j = p.ints j) ∧ q.dbls = p.dbls ∧ q.strs = p.strs) ∧
    (∀ v, IsInt v → ¬ (intDefaults i).Documented v → cliStep env p (.int i) (decimal v) = none) ∧
    (∀ arg, (parseInt arg).1 = false → cliStep env p (.int i) arg = none) := by
  obtain ⟨w, hw, -⟩ := hp.ints i
  refine ⟨?_, ?_, ?_⟩
  · intro v hv hd
    have hset : (p.ints i).set v = some { p.ints i with val := v } := by
      apply int_set_accepts; rw [hw]; exact hd
    refine ⟨{ p with ints := fun j => if j = i then { p.ints i with val := v } else p.ints j },
      ?_, ?_, ?_, rfl, rfl⟩
    · simp only [cliStep, parseInt_decimal_partial v hv, if_true, Params.setI, hset,
        Option.map_some]
    · simp [Params.getI]
    · intro j hj; simp [hj]
  · intro v hv hd
    simp only [cliStep, parseInt_decimal_partial v hv, if_true, Params.setI]
    cases hs : (p.ints i).set v with
    | none => rfl
    | some q =>
      exfalso; apply hd
      have hb := int_table_bounds i
      have := (int_set_documented (p.ints i) q v (by rw [hw]; exact hb.1) (by rw [hw]; exact hb.2.1)
        (by rw [hw]; exact hb.2.2) hv hs).2
      rw [hw] at this; exact this
  · intro arg h
    simp [cliStep, h]

example : IsInt 64 ∧ (intDefaults .DISJ_TERMS).Documented 64 ∧ ¬ (intDefaults .MODE).Documented 2 := by
  simp [IsInt, IntP.Documented, intDefaults, intMin, intMax]

/-- C52: the name of every plain option is the name of its parameter (up to case and underscores),
with the two exceptions `--file` and `--partial_bb_keep_pruned`. -/
theorem longName_matches :
    ∀ nm ∈ ["away", "bb_runs", "bb_mode", "bb_timelimit", "cutlimit", "disj_terms", "disj_options",
      "gomory", "ip_obj", "logfile", "max_support_rel", "max_num_hot_start_viol", "mode", "optfile",
      "partial_bb_strategy", "partial_bb_num_strong", "partial_bb_timelimit", "random_seed",
      "rounds", "prlp_timelimit", "solfile", "timelimit", "use_all_ones", "use_disj_lb",
      "use_iter_bilinear", "use_tight_points", "use_tight_rays", "use_unit_vectors", "verbosity"],
      (match longName nm with
        | some (.int i) => upperNoUnderscore (intDefaults i).name
        | some (.dbl i) => upperNoUnderscore (dblDefaults i).name
        | some (.str i) => upperNoUnderscore (strDefaults i).1
        | _ => "") = upperNoUnderscore nm := by
  decide +kernel

/-- C52: a tikz sub-option always switches the tikz output itself on, and keeps all other temporary
options. -/
theorem cli_tikz (env : CliEnv) (p q : Params) (arg : List Char) (o : TempOpt)
    (ho : tikzOpt (String.ofList arg) = some o) (h : cliStep env p .tikz arg = some q) :
    useTemp (BitVec.ofInt 32 (q.getI .TEMP)) o = true ∧
    useTemp (BitVec.ofInt 32 (q.getI .TEMP)) .GEN_TIKZ_STRING = true ∧
    ∀ o', o' ≠ o → o' ≠ .GEN_TIKZ_STRING →
      useTemp (BitVec.ofInt 32 (q.getI .TEMP)) o' = useTemp (BitVec.ofInt 32 (p.getI .TEMP)) o' := by
  simp only [cliStep, ho] at h
  have hv : q.getI .TEMP =
      (enableTemp (enableTemp (BitVec.ofInt 32 (p.getI .TEMP)) o) .GEN_TIKZ_STRING).toInt := by
    simp only [Params.setBits, Params.setI, Option.map_eq_some_iff] at h
    obtain ⟨r, hr, rfl⟩ := h
    simp only [Params.getI, if_true]
    unfold IntP.set at hr
    simp only [Option.ite_none_right_eq_some, Option.some.injEq] at hr
    rw [← hr.2]; rfl
  rw [hv, BitVec.ofInt_toInt]
  refine ⟨?_, ?_, ?_⟩
  · rw [(tempOption_spec _ _ _).1]
    split_ifs
    · rfl
    · rw [(tempOption_spec _ _ _).1]; simp
  · rw [(tempOption_spec _ _ _).1]; simp
  · intro o' h1 h2
    rw [(tempOption_spec _ _ _).1, if_neg h2, (tempOption_spec _ _ _).1, if_neg h1]

example : ((cliStep demoCli Params.default .tikz "GEN_TIKZ_STRING_AND_EXIT".toList).map
    (fun q => q.getI .TEMP)) = some (32768 + 1024) := by decide +kernel

/-! ## C31: strategy digits -/

/-- C31: for decimal digits `h`, `t`, `o` and a sign, the number `±(100 h + 10 t + o)` decodes to
ones digit `o`, tens digit `t` and signed hundreds digit `±h`. (For a negative number whose
hundreds digit is 0 the sign is lost: `choose = 0`.) -/
theorem strategy_decodes (h t o : Int) (neg : Bool) (hh : 0 ≤ h ∧ h ≤ 9) (ht : 0 ≤ t ∧ t ≤ 9)
    (ho : 0 ≤ o ∧ o ≤ 9) :
    getCbcStrategies (if neg then -(100 * h + 10 * t + o) else 100 * h + 10 * t + o) =
      some (o, t, if neg then -h else h) := by
  unfold getCbcStrategies
  have hr : (if neg then -(100 * h + 10 * t + o) else 100 * h + 10 * t + o) ≠ intMin := by
    simp only [intMin]; split_ifs <;> omega
  rw [if_neg hr]
  have habs : ((if neg then -(100 * h + 10 * t + o) else 100 * h + 10 * t + o).natAbs : Int) =
      100 * h + 10 * t + o := by split_ifs <;> omega
  simp only [habs]
  have e1 : (100 * h + 10 * t + o).tmod 10 = o := by
    rw [Int.tmod_eq_emod_of_nonneg (by omega)]; omega
  have e2 : (100 * h + 10 * t + o).tmod 100 = 10 * t + o := by
    rw [Int.tmod_eq_emod_of_nonneg (by omega)]; omega
  have e3 : (100 * h + 10 * t + o).tmod 1000 = 100 * h + 10 * t + o := by
    rw [Int.tmod_eq_emod_of_nonneg (by omega)]; omega
  have e4 : (10 * t + o - o).tdiv 10 = t := by
    rw [Int.tdiv_eq_ediv_of_nonneg (by omega)]; omega
  simp only [e1, e2, e3, e4]
  have e5 : (100 * h + 10 * t + o - o - 10 * t) = 100 * h := by omega
  rw [e5]
  congr 3
  cases neg with
  | false =>
    simp only [Bool.false_eq_true, if_false]
    rw [if_neg (by omega), Int.one_mul, Int.mul_tdiv_cancel_left _ (by omega)]
  | true =>
    simp only [if_true]
    by_cases hz : 100 * h + 10 * t + o = 0
    · have : h = 0 := by omega
      subst this; simp
    · rw [if_pos (by omega)]
      have : (-1 : Int) * (100 * h) = 100 * (-h) := by ring
      rw [this, Int.mul_tdiv_cancel_left _ (by omega)]

/-- C31, every number in the parameter's range except the smallest `int` (undefined behaviour) is
decoded; digits beyond the hundreds are ignored. -/
theorem strategy_total (n : Int) :
    (getCbcStrategies n = none ↔ n = intMin) ∧
    ∀ c b ch, getCbcStrategies n = some (c, b, ch) →
      0 ≤ c ∧ c ≤ 9 ∧ 0 ≤ b ∧ b ≤ 9 ∧ -9 ≤ ch ∧ ch ≤ 9 := by
  constructor
  · unfold getCbcStrategies; split_ifs with h <;> simp [h]
  · intro c b ch h
    unfold getCbcStrategies at h
    split at h
    · cases h
    simp only [Option.some.injEq, Prod.mk.injEq] at h
    obtain ⟨h1, h2, h3⟩ := h
    have a1 : ((n.natAbs : Int)).tmod 10 = (n.natAbs : Int) % 10 :=
      Int.tmod_eq_emod_of_nonneg (by omega)
    have a2 : ((n.natAbs : Int)).tmod 100 = (n.natAbs : Int) % 100 :=
      Int.tmod_eq_emod_of_nonneg (by omega)
    have a3 : ((n.natAbs : Int)).tmod 1000 = (n.natAbs : Int) % 1000 :=
      Int.tmod_eq_emod_of_nonneg (by omega)
    rw [a1] at h1
    rw [a2, a1] at h2
    rw [a3, a2, a1] at h3
    have b1 : ((n.natAbs : Int) % 100 - (n.natAbs : Int) % 10).tdiv 10 =
        ((n.natAbs : Int) % 100 - (n.natAbs : Int) % 10) / 10 :=
      Int.tdiv_eq_ediv_of_nonneg (by omega)
    rw [b1] at h2 h3
    refine ⟨by omega, by omega, by omega, by omega, ?_, ?_⟩
    · rw [← h3]
      split_ifs
      · rw [Int.neg_mul, Int.one_mul, Int.neg_tdiv, Int.tdiv_eq_ediv_of_nonneg (by omega)]; omega
      · rw [Int.one_mul, Int.tdiv_eq_ediv_of_nonneg (by omega)]; omega
    · rw [← h3]
      split_ifs
      · rw [Int.neg_mul, Int.one_mul, Int.neg_tdiv, Int.tdiv_eq_ediv_of_nonneg (by omega)]; omega
      · rw [Int.one_mul, Int.tdiv_eq_ediv_of_nonneg (by omega)]; omega

example : getCbcStrategies (-231) = some (1, 3, -2) := by decide

end VPC
