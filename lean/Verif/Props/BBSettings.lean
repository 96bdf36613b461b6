import Verif.Props.RootStats
import Verif.Props.Options

/-!
# Options given to the branch-and-bound solver (C114) and results of a run (C115)

The bits of the strategy are those documented in include/VPCParameters.hpp:215-231: user_cuts 4, all_cuts_off 5,
all_cuts_on 6, gmics_off 7, gmics_on 8, presolve_off 9, presolve_on 10, heuristics_off 11, heuristics_on 12,
use_best_bound 13, strong_branching_on 14.
-/
namespace VPC

/-! ## File names -/

/-- The test of the extension: the name is something nonempty followed by the extension. -/
theorem hasExt_iff (f ext : List Char) : hasExt f ext = true ↔ ∃ p, p ≠ [] ∧ f = p ++ ext := by
  unfold hasExt
  simp only [Bool.and_eq_true, decide_eq_true_eq, beq_iff_eq]
  constructor
  · rintro ⟨h1, h2⟩
    refine ⟨f.take (f.length - ext.length), ?_, ?_⟩
    · intro h
      have := congrArg List.length h
      simp at this
      omega
    · conv_lhs => rw [← List.take_append_drop (f.length - ext.length) f, h2]
  · rintro ⟨p, hp, rfl⟩
    have : 0 < p.length := List.length_pos_iff.mpr hp
    refine ⟨by simp; omega, ?_⟩
    simp

/-! ## Settings -/

/-- Strong branching is asked for by bit 14 of the strategy, if it is not negative. -/
theorem wantsStrong_pos (s : BitVec 32) (h : 0 ≤ s.toInt) : wantsStrong s = .ok (s.getLsbD 14) := by
  unfold wantsStrong
  have : ¬ s.toInt = intMin := by unfold intMin; omega
  rw [if_neg this, if_neg (by omega), useBB_eq]
  rfl

theorem mem_iteNil {α : Type} (x : α) (p : Prop) [Decidable p] (l : List α) :
    x ∈ (if p then l else []) ↔ p ∧ x ∈ l := by
  split <;> simp [*]

theorem mem_iteNil' {α : Type} (x : α) (p : Prop) [Decidable p] (l : List α) :
    x ∈ (if p then [] else l) ↔ ¬ p ∧ x ∈ l := by
  split <;> simp [*]

theorem mem_iteTwo {α : Type} (x : α) (p : Prop) [Decidable p] (l k : List α) :
    x ∈ (if p then l else k) ↔ p ∧ x ∈ l ∨ ¬ p ∧ x ∈ k := by
  split <;> simp [*]

theorem grbStart_iff (f : List Char) : grbStart f = true ↔
    ∃ p, p ≠ [] ∧ (f = p ++ "_gurobi.sol.gz".toList ∨ f = p ++ "_gurobi.sol".toList ∨
        f = p ++ "_gurobi.mst.gz".toList ∨ f = p ++ "_gurobi.mst".toList) := by
  unfold grbStart
  simp only [Bool.or_eq_true, hasExt_iff]
  constructor
  · rintro (((⟨p, h, h1⟩ | ⟨p, h, h1⟩) | ⟨p, h, h1⟩) | ⟨p, h, h1⟩)
    · exact ⟨p, h, Or.inl h1⟩
    · exact ⟨p, h, Or.inr (Or.inl h1)⟩
    · exact ⟨p, h, Or.inr (Or.inr (Or.inl h1))⟩
    · exact ⟨p, h, Or.inr (Or.inr (Or.inr h1))⟩
  · rintro ⟨p, h, h1 | h1 | h1 | h1⟩
    · exact Or.inl (Or.inl (Or.inl ⟨p, h, h1⟩))
    · exact Or.inl (Or.inl (Or.inr ⟨p, h, h1⟩))
    · exact Or.inl (Or.inr ⟨p, h, h1⟩)
    · exact Or.inr ⟨p, h, h1⟩

/-- All calls on the Gurobi model for a positive strategy. -/
theorem mem_grbSettings (c : StratCfg) (s : BitVec 32) (best : ℚ) (hs : 0 < s.toInt) :
    ∃ l, grbSettings c s best = .ok l ∧ ∀ k, k ∈ l ↔
      k = .timeLimit c.timeLimit ∨ k = .threads 1 ∨ (0 ≤ c.seed ∧ k = .seed c.seed) ∨
      (c.verbosity = 0 ∧ k = .outputFlag 0) ∨
      (c.verbosity ≠ 0 ∧ (k = .outputFlag 1 ∨ k = .displayInterval 1)) ∨
      (s.getLsbD 4 = true ∧ k = .preCrush 1) ∨ (s.getLsbD 5 = true ∧ k = .cuts 0) ∨
      (s.getLsbD 9 = true ∧ k = .presolve 0) ∨ (s.getLsbD 11 = true ∧ k = .heuristics 0) ∨
      (s.getLsbD 13 = true ∧ isInfinity |best| = false ∧ k = .bestBdStop (best - 1 / 10 ^ 7)) ∨
      (s.getLsbD 13 = true ∧ grbStart c.solfile = true ∧ k = .read c.solfile) ∨
      (s.getLsbD 14 = true ∧ k = .varBranch 3) := by
  unfold grbSettings
  rw [wantsStrong_pos s (by omega)]
  simp only [Res.bind]
  refine ⟨_, rfl, ?_⟩
  intro k
  unfold grbOptions grbAlways grbBest
  simp only [useBB_eq, BBOpt.idx, List.mem_append, mem_iteNil, mem_iteNil', mem_iteTwo, List.mem_cons,
    List.not_mem_nil, or_false, Bool.not_eq_true', ge_iff_le]
  have : ¬ s.toInt ≤ 0 := by omega
  simp only [this, not_false_eq_true, true_and, or_assoc, and_or_left, ne_eq, and_false, false_or, or_false]

/-- **C114, Gurobi.** For a positive strategy the parameters set are exactly those asked for. -/
theorem gurobi_options (c : StratCfg) (s : BitVec 32) (best : ℚ) (hs : 0 < s.toInt) :
    ∃ l, grbSettings c s best = .ok l ∧
    (∀ n, GrbSet.preCrush n ∈ l ↔ s.getLsbD 4 = true ∧ n = 1) ∧
    (∀ n, GrbSet.cuts n ∈ l ↔ s.getLsbD 5 = true ∧ n = 0) ∧
    (∀ n, GrbSet.presolve n ∈ l ↔ s.getLsbD 9 = true ∧ n = 0) ∧
    (∀ v, GrbSet.heuristics v ∈ l ↔ s.getLsbD 11 = true ∧ v = 0) ∧
    (∀ v, GrbSet.bestBdStop v ∈ l ↔ s.getLsbD 13 = true ∧ isInfinity |best| = false ∧ v = best - 1 / 10 ^ 7) ∧
    (∀ f, GrbSet.read f ∈ l ↔ s.getLsbD 13 = true ∧ f = c.solfile ∧
      ∃ p, p ≠ [] ∧ (f = p ++ "_gurobi.sol.gz".toList ∨ f = p ++ "_gurobi.sol".toList ∨
        f = p ++ "_gurobi.mst.gz".toList ∨ f = p ++ "_gurobi.mst".toList)) ∧
    (∀ n, GrbSet.varBranch n ∈ l ↔ s.getLsbD 14 = true ∧ n = 3) ∧
    (∀ v, GrbSet.timeLimit v ∈ l ↔ v = c.timeLimit) ∧ (∀ n, GrbSet.threads n ∈ l ↔ n = 1) ∧
    (∀ n, GrbSet.seed n ∈ l ↔ n = c.seed ∧ 0 ≤ n) ∧
    (∀ n, GrbSet.outputFlag n ∈ l ↔ n = if c.verbosity = 0 then 0 else 1) := by
  obtain ⟨l, hl, hm⟩ := mem_grbSettings c s best hs
  refine ⟨l, hl, ?_, ?_, ?_, ?_, ?_, ?_, ?_, ?_, ?_, ?_, ?_⟩
  · intro n; rw [hm]; simp
  · intro n; rw [hm]; simp
  · intro n; rw [hm]; simp
  · intro n; rw [hm]; simp
  · intro n; rw [hm]; simp
  · intro f
    rw [hm, ← grbStart_iff]; simp
    intro _; constructor
    · rintro ⟨h, rfl⟩; exact ⟨rfl, h⟩
    · rintro ⟨rfl, h⟩; exact ⟨h, rfl⟩
  · intro n; rw [hm]; simp
  · intro n; rw [hm]; simp
  · intro n; rw [hm]; simp
  · intro n; rw [hm]; simp
    constructor
    · rintro ⟨h, rfl⟩; exact ⟨rfl, h⟩
    · rintro ⟨rfl, h⟩; exact ⟨h, rfl⟩
  · intro n; rw [hm]; simp
    by_cases h : c.verbosity = 0 <;> simp [h]

/-- Options of the example: no limit on the time, no seed, no file. -/
def bsCfg : StratCfg := ⟨3600, 0, 0, "a_gurobi.mst".toList⟩

example : grbSettings bsCfg 24 5 = .ok [.timeLimit 3600, .threads 1, .seed 0, .outputFlag 0, .preCrush 1] := by
  decide +kernel
example : grbSettings bsCfg (8 + 16 + 32 + 512 + 2048 + 8192 + 16384) 5 =
    .ok [.timeLimit 3600, .threads 1, .seed 0, .outputFlag 0, .preCrush 1, .cuts 0, .presolve 0, .heuristics 0,
      .bestBdStop (5 - 1 / 10 ^ 7), .read bsCfg.solfile, .varBranch 3] := by
  decide +kernel

/-- All calls on the CPLEX environment for a positive strategy. -/
theorem mem_cpxSettings (c : StratCfg) (s : BitVec 32) (best : ℚ) (hs : 0 < s.toInt) :
    ∃ l, cpxSettings c s best = .ok l ∧ ∀ k, k ∈ l ↔
      k = .timeLimit c.timeLimit ∨ k = .threads 1 ∨ (0 ≤ c.seed ∧ k = .seed c.seed) ∨
      (c.verbosity = 0 ∧ k = .screen false) ∨
      (c.verbosity ≠ 0 ∧ (k = .screen true ∨ k = .display 3 ∨ k = .interval 1)) ∨
      (s.getLsbD 4 = true ∧ k = .linear 0) ∨
      (s.getLsbD 5 = true ∧ ∃ f, k = .cut f (-1)) ∨
      (s.getLsbD 9 = true ∧ k = .presolve 0) ∨
      (s.getLsbD 11 = true ∧ (k = .heurEffort 0 ∨ k = .heurFreq (-1) ∨ k = .fpHeur (-1) ∨ k = .lbHeur 0 ∨
        k = .rinsHeur 0)) ∨
      (s.getLsbD 13 = true ∧ isInfinity |best| = false ∧ k = .upperCutoff (best + 1 / 10 ^ 7)) ∨
      (s.getLsbD 13 = true ∧
        (hasExt c.solfile "_cplex.sol.gz".toList = true ∨ hasExt c.solfile "_cplex.sol".toList = true) ∧
        (k = .advance 1 ∨ k = .readSol c.solfile)) ∨
      (s.getLsbD 13 = true ∧
        (hasExt c.solfile "_cplex.mst.gz".toList = true ∨ hasExt c.solfile "_cplex.mst".toList = true) ∧
        (k = .advance 1 ∨ k = .readStarts c.solfile)) ∨
      (s.getLsbD 14 = true ∧ (k = .strongSelect ∨ k = .strongCandMax ∨ k = .strongItMax ∨ k = .bbInterval 1)) := by
  have hall : ∀ k : CpxSet, k ∈ CpxCut.all.map (.cut · (-1)) ↔ ∃ f, k = .cut f (-1) := by
    intro k
    simp only [List.mem_map]
    constructor
    · rintro ⟨f, _, rfl⟩; exact ⟨f, rfl⟩
    · rintro ⟨f, rfl⟩; exact ⟨f, by cases f <;> decide, rfl⟩
  unfold cpxSettings
  rw [wantsStrong_pos s (by omega)]
  simp only [Res.bind]
  refine ⟨_, rfl, ?_⟩
  intro k
  unfold cpxOptions cpxAlways cpxBest
  simp only [useBB_eq, BBOpt.idx, List.mem_append, mem_iteTwo, hall, List.mem_cons,
    List.not_mem_nil, or_false, Bool.not_eq_true', ge_iff_le, Bool.or_eq_true]
  have : ¬ s.toInt ≤ 0 := by omega
  simp only [this, not_false_eq_true, true_and, or_assoc, and_or_left, ne_eq, and_false, false_or, or_false]

/-- **C114, CPLEX.** For a positive strategy the parameters set are exactly those asked for: with all cuts off
every family is switched off. -/
theorem cplex_options (c : StratCfg) (s : BitVec 32) (best : ℚ) (hs : 0 < s.toInt) :
    ∃ l, cpxSettings c s best = .ok l ∧
    (∀ n, CpxSet.linear n ∈ l ↔ s.getLsbD 4 = true ∧ n = 0) ∧
    (∀ f n, CpxSet.cut f n ∈ l ↔ s.getLsbD 5 = true ∧ n = -1) ∧
    (∀ n, CpxSet.presolve n ∈ l ↔ s.getLsbD 9 = true ∧ n = 0) ∧
    (∀ v, CpxSet.heurEffort v ∈ l ↔ s.getLsbD 11 = true ∧ v = 0) ∧
    (∀ n, CpxSet.heurFreq n ∈ l ↔ s.getLsbD 11 = true ∧ n = -1) ∧
    (∀ v, CpxSet.upperCutoff v ∈ l ↔ s.getLsbD 13 = true ∧ isInfinity |best| = false ∧ v = best + 1 / 10 ^ 7) ∧
    (∀ f, CpxSet.readSol f ∈ l ↔ s.getLsbD 13 = true ∧ f = c.solfile ∧
      ∃ p, p ≠ [] ∧ (f = p ++ "_cplex.sol.gz".toList ∨ f = p ++ "_cplex.sol".toList)) ∧
    (∀ f, CpxSet.readStarts f ∈ l ↔ s.getLsbD 13 = true ∧ f = c.solfile ∧
      ∃ p, p ≠ [] ∧ (f = p ++ "_cplex.mst.gz".toList ∨ f = p ++ "_cplex.mst".toList)) ∧
    (CpxSet.strongSelect ∈ l ↔ s.getLsbD 14 = true) ∧
    (∀ v, CpxSet.timeLimit v ∈ l ↔ v = c.timeLimit) ∧ (∀ n, CpxSet.threads n ∈ l ↔ n = 1) ∧
    (∀ n, CpxSet.seed n ∈ l ↔ n = c.seed ∧ 0 ≤ n) ∧
    (∀ b, CpxSet.screen b ∈ l ↔ b = decide (c.verbosity ≠ 0)) := by
  obtain ⟨l, hl, hm⟩ := mem_cpxSettings c s best hs
  refine ⟨l, hl, ?_, ?_, ?_, ?_, ?_, ?_, ?_, ?_, ?_, ?_, ?_, ?_, ?_⟩
  · intro n; rw [hm]; simp
  · intro f n; rw [hm]; simp
  · intro n; rw [hm]; simp
  · intro n; rw [hm]; simp
  · intro n; rw [hm]; simp
  · intro n; rw [hm]; simp
  · intro f; rw [hm]
    simp only [reduceCtorEq, and_false, false_or, or_false, CpxSet.readSol.injEq, hasExt_iff, exists_false]
    constructor
    · rintro ⟨h, ⟨p, hp, e⟩ | ⟨p, hp, e⟩, rfl⟩
      · exact ⟨h, rfl, p, hp, Or.inl e⟩
      · exact ⟨h, rfl, p, hp, Or.inr e⟩
    · rintro ⟨h, rfl, p, hp, e | e⟩
      · exact ⟨h, Or.inl ⟨p, hp, e⟩, rfl⟩
      · exact ⟨h, Or.inr ⟨p, hp, e⟩, rfl⟩
  · intro f; rw [hm]
    simp only [reduceCtorEq, and_false, false_or, or_false, CpxSet.readStarts.injEq, hasExt_iff, exists_false]
    constructor
    · rintro ⟨h, ⟨p, hp, e⟩ | ⟨p, hp, e⟩, rfl⟩
      · exact ⟨h, rfl, p, hp, Or.inl e⟩
      · exact ⟨h, rfl, p, hp, Or.inr e⟩
    · rintro ⟨h, rfl, p, hp, e | e⟩
      · exact ⟨h, Or.inl ⟨p, hp, e⟩, rfl⟩
      · exact ⟨h, Or.inr ⟨p, hp, e⟩, rfl⟩
  · rw [hm]; simp
  · intro n; rw [hm]; simp
  · intro n; rw [hm]; simp
  · intro n; rw [hm]; simp
    constructor
    · rintro ⟨h, rfl⟩; exact ⟨rfl, h⟩
    · rintro ⟨rfl, h⟩; exact ⟨h, rfl⟩
  · intro b; rw [hm]; simp
    by_cases h : c.verbosity = 0 <;> cases b <;> simp [h]

example : cpxSettings ⟨60, 2, 0, "x_cplex.sol".toList⟩ (4 + 16 + 2048 + 8192) 7 =
    .ok [.timeLimit 60, .threads 1, .seed 2, .screen false, .linear 0, .heurEffort 0, .heurFreq (-1),
      .fpHeur (-1), .lbHeur 0, .rinsHeur 0, .upperCutoff (7 + 1 / 10 ^ 7), .advance 1,
      .readSol "x_cplex.sol".toList] := by
  decide +kernel

/-- **C114, Cbc.** For a positive strategy: time limit, seed, cuts, presolve and strong branching. Nothing else is
passed on. -/
theorem cbc_options (c : StratCfg) (s : BitVec 32) (ncols : ℤ) (hs : 0 < s.toInt) :
    ∃ l, cbcSettings c s ncols = .ok l ∧ ∀ k, k ∈ l ↔
      k = .timeLimit c.timeLimit ∨ k = .seed c.seed ∨
      (s.getLsbD 5 = true ∧ (k = .cutPassesRoot 0 ∨ k = .cutPasses 0 ∨ k = .whenCuts 0)) ∨
      (s.getLsbD 9 = true ∧ k = .presolve 0) ∨ (s.getLsbD 14 = true ∧ k = .strong ncols) := by
  unfold cbcSettings
  rw [wantsStrong_pos s (by omega)]
  simp only [Res.bind]
  refine ⟨_, rfl, ?_⟩
  intro k
  unfold cbcOptions
  simp only [useBB_eq, BBOpt.idx, List.mem_append, mem_iteTwo, List.mem_cons,
    List.not_mem_nil, or_false]
  have : ¬ s.toInt ≤ 0 := by omega
  simp only [this, not_false_eq_true, true_and, or_assoc, and_or_left, and_false, false_or, or_false, false_and]

example : cbcSettings ⟨60, 2, 0, []⟩ (2 + 32 + 512) 4 =
    .ok [.timeLimit 60, .seed 2, .cutPassesRoot 0, .cutPasses 0, .whenCuts 0, .presolve 0] := by
  decide +kernel

/-! ### Options that do nothing -/

/-- Only the bits 4, 5, 9, 11, 13 and 14 of a positive strategy matter to Gurobi and CPLEX (which of the solvers is
called is decided elsewhere): all_cuts_on (6), gmics_off (7), gmics_on (8), presolve_on (10) and heuristics_on (12)
do nothing. -/
theorem options_that_matter (c : StratCfg) (s t : BitVec 32) (best : ℚ) (hs : 0 < s.toInt) (ht : 0 < t.toInt)
    (h : ∀ i ∈ [4, 5, 9, 11, 13, 14], s.getLsbD i = t.getLsbD i) :
    grbSettings c s best = grbSettings c t best ∧ cpxSettings c s best = cpxSettings c t best := by
  simp only [List.mem_cons, List.not_mem_nil, or_false, forall_eq_or_imp, forall_eq] at h
  obtain ⟨h4, h5, h9, h11, h13, h14⟩ := h
  have hs' : ¬ s.toInt ≤ 0 := by omega
  have ht' : ¬ t.toInt ≤ 0 := by omega
  unfold grbSettings cpxSettings
  rw [wantsStrong_pos s (by omega), wantsStrong_pos t (by omega)]
  simp only [Res.bind, hs', ht', if_false, grbOptions, cpxOptions, useBB_eq, BBOpt.idx, h4, h5, h9, h11, h13, h14,
    and_self]

/-- Only the bits 5, 9 and 14 matter to Cbc. -/
theorem options_that_matter_cbc (c : StratCfg) (s t : BitVec 32) (n : ℤ) (hs : 0 < s.toInt) (ht : 0 < t.toInt)
    (h : ∀ i ∈ [5, 9, 14], s.getLsbD i = t.getLsbD i) :
    cbcSettings c s n = cbcSettings c t n := by
  simp only [List.mem_cons, List.not_mem_nil, or_false, forall_eq_or_imp, forall_eq] at h
  obtain ⟨h5, h9, h14⟩ := h
  have hs' : ¬ s.toInt ≤ 0 := by omega
  have ht' : ¬ t.toInt ≤ 0 := by omega
  unfold cbcSettings
  rw [wantsStrong_pos s (by omega), wantsStrong_pos t (by omega)]
  simp only [Res.bind, hs', ht', if_false, cbcOptions, useBB_eq, BBOpt.idx, h5, h9, h14]

example : grbSettings bsCfg 8 5 = grbSettings bsCfg (8 + 64 + 128 + 256 + 1024 + 4096) 5 :=
  (options_that_matter bsCfg 8 _ 5 (by decide) (by decide) (by decide)).1

/-- "turn off gomory cuts" does not turn them off: only all_cuts_off does. -/
theorem gmics_off_ignored (c : StratCfg) (best : ℚ) :
    cpxSettings c (4 + 128) best = cpxSettings c 4 best ∧ grbSettings c (8 + 128) best = grbSettings c 8 best :=
  ⟨(options_that_matter c (4 + 128) 4 best (by decide) (by decide) (by decide)).2,
    (options_that_matter c (8 + 128) 8 best (by decide) (by decide) (by decide)).1⟩

/-- "turn off heuristics" and "use best known bound" do nothing in Cbc. -/
theorem cbc_ignores (c : StratCfg) (n : ℤ) : cbcSettings c (2 + 2048 + 8192) n = cbcSettings c 2 n :=
  options_that_matter_cbc c _ 2 n (by decide) (by decide) (by decide)

/-! ### Negative strategies -/

/-- A strategy that is not positive: everything except strong branching is ignored. -/
theorem negative_options (c : StratCfg) (s : BitVec 32) (best : ℚ) (hs : s.toInt ≤ 0) (hm : s.toInt ≠ intMin) :
    grbSettings c s best = .ok (grbAlways c ++ if (-s).getLsbD 14 || (s.toInt = 0 && s.getLsbD 14) then
      [.varBranch 3] else []) := by
  unfold grbSettings wantsStrong
  rw [if_neg hm]
  simp only [Res.bind, hs, if_true, useBB_eq, BBOpt.idx, List.append_nil]
  by_cases h0 : s.toInt = 0
  · have : s = 0 := BitVec.eq_of_toInt_eq (by simpa using h0)
    subst this
    simp
  · have : s.toInt < 0 := by omega
    simp [this, h0]

/-- A negative strategy whose bits ask for Gurobi: cuts are given as user cuts, but the parameter that Gurobi
requires for this is not set, and presolve is not switched off though its bit is set. -/
theorem user_cuts_not_announced : ∃ s : BitVec 32, useBB s .gurobi = true ∧ useBB s .presolve_off = true ∧
    useBB (withUserCuts s) .user_cuts = true ∧
    ∃ l, grbSettings bsCfg (withUserCuts s) 0 = .ok l ∧ GrbSet.preCrush 1 ∉ l ∧ GrbSet.presolve 0 ∉ l := by
  refine ⟨-2, by decide, by decide, by decide, [.timeLimit 3600, .threads 1, .seed 0, .outputFlag 0], ?_, ?_, ?_⟩
  · decide +kernel
  · decide
  · decide

/-- Strong branching is tested on the absolute value: it is switched on for a negative strategy whose bit is not
set, and off for one whose bit is set. -/
theorem strong_on_absolute_value :
    (useBB (-16384 - 8) .strong_branching_on = false ∧ wantsStrong (-16384 - 8) = .ok true) ∧
    (useBB (-8) .strong_branching_on = true ∧ wantsStrong (-8) = .ok false) := by
  decide

/-- The smallest integer as strategy: undefined behaviour. -/
theorem strong_undefined (c : StratCfg) (best : ℚ) : grbSettings c (BitVec.ofInt 32 intMin) best = .undef ∧
    cpxSettings c (BitVec.ofInt 32 intMin) best = .undef := by
  have : wantsStrong (BitVec.ofInt 32 intMin) = .undef := by decide
  unfold grbSettings cpxSettings
  rw [this]
  exact ⟨rfl, rfl⟩

end VPC
