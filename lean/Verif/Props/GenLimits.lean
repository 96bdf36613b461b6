import Verif.Props.GenCut
import Mathlib.Algebra.Order.Floor.Ring
import Mathlib.Tactic.FieldSimp

/-!
# Limits, exit reasons, witnesses (C11, C12, C13, C14, C41, C49)
-/
namespace VPC

/-! ## A concrete environment used in witnesses and non-vacuity examples -/

/-- Two structural columns, both nonbasic at lower bound 0. -/
def demoLP : LP :=
  { numCols := 2, rows := fun _ => [], sense := fun _ => .G, rhs := fun _ => 0
    colLower := fun _ => 0, colUpper := fun _ => 100, colStat := fun _ => .atLower }

/-- Lenient cleaning parameters, LP optimum at the origin, cuts almost parallel to each other. -/
def demoEnv : GenEnv :=
  { lp := demoLP, nbVar := [0, 1], nz := [0, 1], beta := 1, EPS := 1 / 10 ^ 7, MIN_ORTHO := 1 / 2
    clean := { EPS_COEFF := 1 / 10 ^ 5, MAX_DYN := 10 ^ 8, MIN_SUP_THRESH := 100, MAX_SUP_ABS := 1000,
               MAX_SUP_REL := 1, MIN_VIOL_ABS := 1 / 10 ^ 7, MIN_VIOL_REL := 1 / 10 ^ 7,
               MIN_ABS_COEFF := 1, MAX_ABS_COEFF := 1, EPS := 1 / 10 ^ 7, checkViolation := false }
    solver := { numCols := 2, colLower := fun _ => 0, colUpper := fun _ => 100, obj := fun _ => 1
                colSolution := fun _ => 0 }
    norm := fun _ => 1
    ortho := fun _ _ => 1 / 20 }

/-- A generator as constructed, with the given settings and per-cut records. -/
def demoGen (limit : ℤ) (perDisj canReplace repeatedUse : Bool) (ct : List CutType)
    (ot : List ObjType) (di : List ℤ) : Gen :=
  { cutLimit := limit, perDisj := perDisj, currDisj := 0, canReplace := canReplace
    repeatedUse := repeatedUse, initNumCuts := 0, numCuts := 0, numObj := 0, numFailures := 0
    cuts := [], cutType := ct, objType := ot, disjID := di, numCutsOfType := fun _ => 0
    numCutsFromHeur := fun _ => 0, numObjFromHeur := fun _ => 0, numFailsFromHeur := fun _ => 0
    numFails := fun _ => 0, userObjectives := [] }

/-- The state in which the loop starts (if it does). -/
def RoundStart.gen? : RoundStart → Option Gen
  | .go g => some g
  | _ => none

/-- Starting a round and running it. -/
def runRound (g : Gen) (given : List GCut) (nf nf0 : ℕ) (ops : List Op) : Option Gen :=
  ((g.startRound given nf nf0).gen?).bind fun g => g.run ops

theorem runRound_spec {g g' : Gen} {given : List GCut} {nf nf0 : ℕ} {ops : List Op}
    (h : runRound g given nf nf0 ops = some g') :
    ∃ g0, g.startRound given nf nf0 = .go g0 ∧ g0.run ops = some g' := by
  unfold runRound at h
  cases hs : g.startRound given nf nf0 with
  | abort => rw [hs] at h; simp [RoundStart.gen?] at h
  | early g1 r => rw [hs] at h; simp [RoundStart.gen?] at h
  | go g1 => rw [hs] at h; exact ⟨g1, rfl, h⟩

/-- Non-vacuity for `counters_exact`, `given_cuts_preserved`, `cut_limit_total`: a round with one
given cut, a root inequality, and two cuts from the point-ray LP (the second solve fails). -/
example : (runRound (demoGen 5 false false false [] [] []) [⟨⟨[(0, 7), (1, 1)], 3⟩, 1⟩] 3 3
    [.rootCut demoEnv ⟨[(0, 1)], 1⟩,
     .tryObj { demoEnv with ortho := fun _ _ => 1 } none (.optimal [1, 1]) .ALL_ONES,
     .tryObj demoEnv none .abandoned .DISJ_LB,
     .tryObj { demoEnv with ortho := fun _ _ => 1 } none (.optimal [1, 3]) .DISJ_LB]).map
    (fun g => (g.numCuts, g.numObj, g.numFailures, g.cuts.map (·.cut), g.objType))
    = some (3, 3, 1,
        [⟨[(0, 7), (1, 1)], 3⟩, ⟨[(0, 1)], 1⟩, ⟨[(0, 1), (1, 1)], 1⟩, ⟨[(0, 1), (1, 3)], 1⟩],
        [.ONE_SIDED, .ALL_ONES, .DISJ_LB]) := by decide +kernel

/-! ## C11: where the counters go wrong -/

/-- When a cut found with one objective replaces a cut found with another, the objective is counted
both as a success (`numCutsFromHeur`) and as a failure (`numFailsFromHeur`): per objective type, tries
no longer equal cuts plus failures — here for `ALL_ONES` (1 try, 0 cuts, 0 failures) and `DISJ_LB`
(1 try, 1 cut, 1 failure) — although only one cut was generated in two tries. -/
theorem per_objective_counts_wrong :
    (runRound (demoGen 5 false false false [] [] []) [] 3 3
      [.tryObj demoEnv none (.optimal [1, 2]) .ALL_ONES,
       .tryObj demoEnv none (.optimal [2, 0]) .DISJ_LB]).map
      (fun g => (g.numCuts, g.numFailures, (g.numObjFromHeur .ALL_ONES, g.numCutsFromHeur .ALL_ONES,
        g.numFailsFromHeur .ALL_ONES),
        (g.numObjFromHeur .DISJ_LB, g.numCutsFromHeur .DISJ_LB, g.numFailsFromHeur .DISJ_LB)))
    = some (1, 1, (1, 0, 0), (1, 1, 1)) := by decide +kernel

/-- With repeated use and without permission to replace given cuts, the position
`minOrthogonalityIndex - init_num_cuts` is used for vectors that still hold the records of the given
cuts: replacing the new cut number 1 overwrites the record of the given cut number 0, and the counter of
its type becomes negative. -/
theorem repeated_use_counts_wrong :
    (runRound (demoGen 5 false false true [.GMIC] [.USER] [0]) [⟨⟨[(0, 1), (1, 50)], 1⟩, 0⟩] 3 3
      [.tryObj { demoEnv with ortho := fun _ _ => 1 } none (.optimal [1, 2]) .ALL_ONES,
       .tryObj { demoEnv with ortho := fun _ w => if w = [(0, 1), (1, 50)] then 1 else 1 / 20 } none
         (.optimal [2, 0]) .DISJ_LB]).map
      (fun g => (g.cuts.map (·.cut), g.objType, g.numCutsFromHeur .USER, g.numCutsOfType .GMIC))
    = some ([⟨[(0, 1), (1, 50)], 1⟩, ⟨[(0, 2)], 1⟩], [.DISJ_LB, .ALL_ONES], -1, -1) := by
  decide +kernel

/-! ## C12: with repeated use the limit per disjunction is not respected -/

/-- `reachedCutLimitForDisjunction` looks at the first `num_cuts` entries of `disjID`; with repeated
use these are the entries of the given cuts. Here the limit is 1 cut per disjunction and disjunction
0 gets 2. -/
theorem repeated_use_exceeds_limit :
    (runRound (demoGen 1 true false true [.VPC] [.USER] [7]) [⟨⟨[(0, 1), (1, 50)], 1⟩, 0⟩] 3 3
      [.tryObj { demoEnv with ortho := fun _ _ => 1 } none (.optimal [1, 2]) .ALL_ONES,
       .tryObj { demoEnv with ortho := fun _ _ => 1 } none (.optimal [2, 1]) .DISJ_LB]).map
      (fun g => (g.cutLimit, g.disjID.count 0)) = some (1, 2) := by
  decide +kernel

/-- Non-vacuity for `cut_limit_per_disjunction`. -/
example : (runRound (demoGen 1 true false false [] [] []) [] 3 3
      [.tryObj { demoEnv with ortho := fun _ _ => 1 } none (.optimal [1, 2]) .ALL_ONES,
       .tryObj { demoEnv with ortho := fun _ _ => 1 } none (.optimal [2, 1]) .DISJ_LB,
       .nextDisj 1,
       .tryObj { demoEnv with ortho := fun _ _ => 1 } none (.optimal [2, 1]) .DISJ_LB]).map
      (fun g => (g.disjID, g.numFails .CUT_LIMIT)) = some ([0, 1], 1) := by
  decide +kernel

/-! ## C14: exit reasons -/

/-- The exit reason a user is told for a disjunction that could not be used, by name. -/
def sameName : DisjExit → ExitReason → Prop
  | .SUCCESS, .SUCCESS => True
  | .OPTIMAL_SOLUTION_FOUND, .OPTIMAL_SOLUTION_FOUND => True
  | .TOO_FEW_TERMS, .TOO_FEW_TERMS => True
  | .NO_DISJUNCTION, .NO_DISJUNCTION => True
  | .UNKNOWN, .UNKNOWN => True
  | _, _ => False

/-- Each disjunction status is reported under its own name, and different statuses are reported
differently. -/
theorem matchStatus_one_to_one :
    (∀ s, sameName s (matchStatus s)) ∧ (∀ s t, matchStatus s = matchStatus t → s = t) := by
  constructor
  · intro s; cases s <;> exact trivial
  · intro s t; cases s <;> cases t <;> simp [matchStatus]

/-! ## C41: resolving the cut limit -/

/-- A positive limit is used as it is, zero means no cuts, and `-k` means `k` cuts per fractional
variable. -/
theorem cutLimit_resolution (c : ℤ) (nf : ℕ) :
    (0 ≤ c → getCutLimit c nf = c) ∧ (c < 0 → getCutLimit c nf = -c * nf) ∧
    0 ≤ getCutLimit c nf := by
  unfold getCutLimit
  refine ⟨fun h => ?_, fun h => ?_, ?_⟩
  · rcases eq_or_lt_of_le h with h | h
    · simp [← h]
    · rw [if_neg (by omega), if_pos h]
  · rw [if_neg (by omega), if_neg (by omega)]
    split
    · have : nf = 0 := by omega
      simp [this]
    · ring
  · split
    · omega
    · split
      · omega
      · split
        · omega
        · have : 0 ≤ -1 * c := by omega
          exact mul_nonneg this (by omega)

/-- The state of the generator when `generateCuts` moves on, or has returned early. -/
def RoundStart.after : RoundStart → Option Gen
  | .go g => some g
  | .early g _ => some g
  | .abort => none

/-- The limit resolved in the first round is kept for all later rounds of the same generator,
whatever their numbers of fractional variables. (A user who asked for a limit relative to the number
of fractional variables gets one relative to the first round's number.) -/
theorem cutLimit_sticks (g g1 g2 : Gen) (given1 given2 : List GCut) (nf1 nf1' nf2 nf2' : ℕ)
    (h1 : (g.startRound given1 nf1 nf1').after = some g1)
    (h2 : (g1.startRound given2 nf2 nf2').after = some g2) :
    g1.cutLimit = getCutLimit g.cutLimit nf1 ∧ g2.cutLimit = getCutLimit g.cutLimit nf1 := by
  have key : ∀ (g g1 : Gen) (given : List GCut) (a b : ℕ), (g.startRound given a b).after = some g1 →
      g1.cutLimit = getCutLimit g.cutLimit a := by
    intro g g1 given a b h
    unfold Gen.startRound at h
    dsimp only at h
    split at h
    · simp [RoundStart.after] at h
    · split at h <;>
      · simp only [RoundStart.after, Option.some.injEq] at h
        rw [← h]
  have e1 := key _ _ _ _ _ h1
  refine ⟨e1, ?_⟩
  rw [key _ _ _ _ _ h2, e1]
  exact (cutLimit_resolution _ _).1 (cutLimit_resolution _ _).2.2

/-- Hence the relative limit is wrong in the second round: asked for 2 cuts per fractional variable,
with 1 and then 5 fractional variables, the second limit is 2 instead of 10; and once a round has no
fractional variable, no cuts are ever generated again. -/
theorem cutLimit_second_round_wrong :
    (((demoGen (-2) false false false [] [] []).startRound [] 1 1).after.bind fun g =>
      ((g.startRound [] 5 5).after).map (·.cutLimit)) = some 2 ∧
    (((demoGen (-2) false false false [] [] []).startRound [] 0 0).after.bind fun g =>
      ((g.startRound [] 5 5).after).map (·.cutLimit)) = some 0 ∧
    getCutLimit (-2) 5 = 10 := by decide +kernel

/-! ## C49: user objectives -/

/-- User objectives set before a round are gone when the loop over them is reached: `setupAsNew`,
called first thing by `generateCuts`, empties the list. So none is ever tried. -/
theorem user_objectives_dropped (g g1 : Gen) (objs : List (List ℚ)) (given : List GCut) (a b : ℕ)
    (h : ((g.setUserObjectives objs).startRound given a b).after = some g1) :
    g1.userObjectives = [] := by
  unfold Gen.startRound at h
  dsimp only at h
  split at h
  · simp [RoundStart.after] at h
  · split at h <;>
    · simp only [RoundStart.after, Option.some.injEq] at h
      rw [← h]; rfl

example : ((((demoGen 3 false false false [] [] []).setUserObjectives [[1, 2]]).startRound [] 1 1
    ).after).isSome = true := by decide +kernel

/-! ## C13: the failure limit -/

/-- Values of the derived constants for the default thresholds (as binary64 numbers; the division
is exact): 20 objectives without any cut, and `MANY_OBJ = max(20, 10·⌈L/4⌉ + 1)` for limits `L`
between 1 and 10^12. -/
theorem failure_constants (L : ℤ) (h1 : 1 ≤ L) (h2 : L ≤ 10 ^ 12) :
    noCutsObj thr95 = 20 ∧ manyCuts L = (L + 3) / 4 ∧
    manyObj L thr95 thr90 = max 20 (10 * ((L + 3) / 4) + 1) := by
  have hm : manyCuts L = (L + 3) / 4 := by
    unfold manyCuts
    rw [Int.ceil_eq_iff]
    have e : L = 4 * (L / 4) + L % 4 := by omega
    have hq : (L + 3) / 4 = L / 4 + (if L % 4 = 0 then 0 else 1) := by split <;> omega
    have r0 : 0 ≤ L % 4 := by omega
    have r3 : L % 4 ≤ 3 := by omega
    have eq : (L : ℚ) = 4 * ((L / 4 : ℤ) : ℚ) + ((L % 4 : ℤ) : ℚ) := by exact_mod_cast e
    rw [hq]
    have r0' : (0 : ℚ) ≤ ((L % 4 : ℤ) : ℚ) := by exact_mod_cast r0
    have r3' : ((L % 4 : ℤ) : ℚ) ≤ 3 := by exact_mod_cast r3
    split
    · rename_i hz
      have : ((L % 4 : ℤ) : ℚ) = 0 := by exact_mod_cast hz
      push_cast
      constructor <;> linarith
    · rename_i hz
      have : (1 : ℚ) ≤ ((L % 4 : ℤ) : ℚ) := by
        have : 1 ≤ L % 4 := by omega
        exact_mod_cast this
      push_cast
      constructor <;> linarith
  have h20 : (⌈1 / (1 - thr95)⌉ : ℤ) = 20 := by
    rw [Int.ceil_eq_iff]; unfold thr95; constructor <;> norm_num
  refine ⟨h20, hm, ?_⟩
  unfold manyObj
  rw [h20, hm]
  congr 1
  have b1 : 1 ≤ (L + 3) / 4 := by omega
  have b2 : (L + 3) / 4 ≤ 10 ^ 12 := by omega
  generalize (L + 3) / 4 = k at *
  rw [Int.ceil_eq_iff]
  have c1 : (1 : ℚ) ≤ k := by exact_mod_cast b1
  have c2 : (k : ℚ) ≤ 10 ^ 12 := by exact_mod_cast b2
  have e : (1 - thr90 : ℚ) = 900719925474099 / 9007199254740992 := by unfold thr90; norm_num
  rw [e]
  push_cast
  constructor
  · rw [lt_div_iff₀ (by norm_num)]; linarith
  · rw [div_le_iff₀ (by norm_num)]; linarith

/-- A run without any cut is stopped exactly from the 20th failure on, for every cut limit from 1
to 10^12 and however long the solves took. -/
theorem all_failures_stop_at_20 (L : ℤ) (h1 : 1 ≤ L) (h2 : L ≤ 10 ^ 12) (time tl : ℚ) (fails : ℕ) :
    reachedFailureLimit L time tl 0 fails = true ↔ 20 ≤ fails := by
  obtain ⟨c1, c2, c3⟩ := failure_constants L h1 h2
  unfold reachedFailureLimit failRatioReached
  rw [c1, c2, c3]
  constructor
  · intro h
    by_contra hlt
    have hm : ¬ ((fails : ℤ) ≥ max 20 (10 * ((L + 3) / 4) + 1)) := by
      intro hc
      have := le_trans (le_max_left _ _) hc
      omega
    have h3 : ¬ ((0 : ℤ) ≥ (L + 3) / 4) := by omega
    have h4 : ¬ (20 ≤ (fails : ℤ)) := by omega
    simp [h3] at h
    obtain ⟨_, h⟩ := h
    rcases h with (h | h) | h
    · exact hm (by simpa using h.1)
    · omega
    · exact hm (by simpa using h.1.1)
  · intro h
    have hz : fails ≠ 0 := by omega
    have h4 : (20 : ℤ) ≤ fails := by omega
    simp [hz, h]

/-- A run in which at least one objective in five gives a cut is never stopped by the failure
counts, whatever the limit. -/
theorem successful_runs_continue (L : ℤ) (cuts fails : ℕ) (hc : 1 ≤ cuts) (hs : fails ≤ 4 * cuts) :
    failRatioReached L cuts fails thr95 thr90 thr80 = false := by
  have htr : (0 : ℚ) < ((cuts + fails : ℕ) : ℚ) := by exact_mod_cast (by omega)
  have hr : (fails : ℚ) / ((cuts + fails : ℕ) : ℚ) ≤ 4 / 5 := by
    rw [div_le_iff₀ htr]
    have : (fails : ℚ) ≤ 4 * cuts := by exact_mod_cast hs
    push_cast; linarith
  have k1 : greaterThanVal ((fails : ℚ) / ((cuts + fails : ℕ) : ℚ)) thr80 = false := by
    simp only [greaterThanVal, defEps, thr80, ge_iff_le, decide_eq_false_iff_not, not_le]
    norm_num at hr ⊢; linarith
  have k2 : greaterThanVal ((fails : ℚ) / ((cuts + fails : ℕ) : ℚ)) thr90 = false := by
    simp only [greaterThanVal, defEps, thr90, ge_iff_le, decide_eq_false_iff_not, not_le]
    norm_num at hr ⊢; linarith
  have k3 : greaterThanVal ((fails : ℚ) / ((cuts + fails : ℕ) : ℚ)) thr95 = false := by
    simp only [greaterThanVal, defEps, thr95, ge_iff_le, decide_eq_false_iff_not, not_le]
    norm_num at hr ⊢; linarith
  unfold failRatioReached
  dsimp only
  rw [k1, k2, k3]
  have : ¬ cuts < 1 := by omega
  simp [this]

example : failRatioReached 10 3 12 thr95 thr90 thr80 = false :=
  successful_runs_continue 10 3 12 (by omega) (by omega)

/-- Full decision table for runs with at least one cut, in exact integer form, for fewer than
400000 objectives: stop iff more than 4 in 5 tries failed after `MANY_OBJ` tries, or more than 9 in 10
failed with `MANY_CUTS` cuts, or more than 19 in 20 failed. -/
theorem failure_limit_table (L : ℤ) (h1 : 1 ≤ L) (h2 : L ≤ 10 ^ 12) (cuts fails : ℕ)
    (hc : 1 ≤ cuts) (hb : cuts + fails < 400000) :
    failRatioReached L cuts fails thr95 thr90 thr80 = true ↔
      (max 20 (10 * ((L + 3) / 4) + 1) ≤ (cuts + fails : ℕ) ∧ fails > 4 * cuts) ∨
      ((L + 3) / 4 ≤ (cuts : ℤ) ∧ fails > 9 * cuts) ∨ fails > 19 * cuts := by
  obtain ⟨c1, c2, c3⟩ := failure_constants L h1 h2
  have htr : (0 : ℚ) < ((cuts + fails : ℕ) : ℚ) := by exact_mod_cast (by omega)
  have hbq : ((cuts + fails : ℕ) : ℚ) < 400000 := by exact_mod_cast hb
  have key : ∀ (thr : ℚ) (m : ℕ), 1 ≤ m → m ≤ 19 → |thr - m / (m + 1)| ≤ 1 / 2 ^ 50 →
      (greaterThanVal ((fails : ℚ) / ((cuts + fails : ℕ) : ℚ)) thr = true ↔ fails > m * cuts) := by
    intro thr m hm1 hm2 hthr
    obtain ⟨t1, t2⟩ := abs_le.mp hthr
    have hmq : (1 : ℚ) ≤ m := by exact_mod_cast hm1
    have hmq2 : (m : ℚ) ≤ 19 := by exact_mod_cast hm2
    have hm0 : (0 : ℚ) < m + 1 := by linarith
    have expand : ∀ δ : ℚ, (m / (m + 1) + δ) * ((cuts + fails : ℕ) : ℚ) * (m + 1)
        = m * ((cuts + fails : ℕ) : ℚ) + δ * (m + 1) * ((cuts + fails : ℕ) : ℚ) := by
      intro δ; field_simp
    rw [greaterThanVal_iff, le_div_iff₀ htr]
    constructor
    · intro h
      by_contra hle
      have hle : (fails : ℚ) ≤ m * cuts := by exact_mod_cast (not_lt.mp hle)
      have h' : (m / (m + 1) + (defEps - 1 / 2 ^ 50)) * ((cuts + fails : ℕ) : ℚ) ≤ fails := by
        refine le_trans (mul_le_mul_of_nonneg_right ?_ htr.le) h
        linarith
      have h'' := mul_le_mul_of_nonneg_right h' hm0.le
      rw [expand] at h''
      have pos : 0 < (defEps - 1 / 2 ^ 50) * (m + 1) * ((cuts + fails : ℕ) : ℚ) := by
        apply mul_pos (mul_pos (by norm_num [defEps]) hm0) htr
      push_cast at *
      nlinarith
    · intro hlt
      have hlt : m * (cuts : ℚ) + 1 ≤ fails := by exact_mod_cast hlt
      rw [← mul_le_mul_iff_left₀ hm0]
      have hthr2 : thr + defEps ≤ m / (m + 1) + (defEps + 1 / 2 ^ 50) := by linarith
      refine le_trans (mul_le_mul_of_nonneg_right (mul_le_mul_of_nonneg_right hthr2 htr.le) hm0.le) ?_
      rw [expand]
      have small : (defEps + 1 / 2 ^ 50) * (m + 1) * ((cuts + fails : ℕ) : ℚ) ≤ 1 := by
        have a1 : (defEps + 1 / 2 ^ 50) * (m + 1 : ℚ) ≤ 1 / 400000 := by
          have : (m + 1 : ℚ) ≤ 20 := by linarith
          calc (defEps + 1 / 2 ^ 50) * (m + 1 : ℚ) ≤ (defEps + 1 / 2 ^ 50) * 20 :=
                mul_le_mul_of_nonneg_left this (by norm_num [defEps])
            _ ≤ 1 / 400000 := by norm_num [defEps]
        calc _ ≤ (1 / 400000 : ℚ) * 400000 := mul_le_mul a1 hbq.le htr.le (by norm_num)
          _ = 1 := by norm_num
      push_cast at *
      nlinarith
  have k80 := key thr80 4 (by omega) (by omega) (by unfold thr80; norm_num [abs_le])
  have k90 := key thr90 9 (by omega) (by omega) (by unfold thr90; norm_num [abs_le])
  have k95 := key thr95 19 (by omega) (by omega) (by unfold thr95; norm_num [abs_le])
  unfold failRatioReached
  rw [c1, c2, c3]
  simp only [k80, k90, k95, ge_iff_le]
  have hno : ¬ (cuts < 1 ∧ (20 : ℤ) ≤ ((cuts + fails : ℕ) : ℤ)) := by omega
  rw [if_neg hno]
  by_cases p1 : max 20 (10 * ((L + 3) / 4) + 1) ≤ ((cuts + fails : ℕ) : ℤ) ∧ fails > 4 * cuts
  · simp only [p1, and_self, if_true, true_or]
  · rw [if_neg p1]
    by_cases p2 : (L + 3) / 4 ≤ (cuts : ℤ) ∧ fails > 9 * cuts
    · simp only [p2, and_self, if_true, true_or, or_true]
    · rw [if_neg p2]
      by_cases p3 : 1 ≤ cuts ∧ fails > 19 * cuts
      · simp only [p3, and_self, if_true, or_true]
      · rw [if_neg p3]
        simp only [Bool.false_eq_true, false_iff, not_or]
        exact ⟨p1, p2, fun h => p3 ⟨hc, h⟩⟩

example : failRatioReached 8 1 20 thr95 thr90 thr80 = true := by
  rw [failure_limit_table 8 (by omega) (by omega) 1 20 (by omega) (by omega)]; omega

/-- Once the failure counts have stopped a run, one more failure would not have changed that. -/
theorem failure_limit_monotone (L : ℤ) (cuts fails : ℕ) (few many obj : ℚ)
    (h : failRatioReached L cuts fails few many obj = true) :
    failRatioReached L cuts (fails + 1) few many obj = true := by
  have hr : (fails : ℚ) / ((cuts + fails : ℕ) : ℚ)
      ≤ ((fails + 1 : ℕ) : ℚ) / ((cuts + (fails + 1) : ℕ) : ℚ) := by
    rcases Nat.eq_zero_or_pos (cuts + fails) with h0 | h0
    · rw [h0]; simp; positivity
    · have a : (0 : ℚ) < ((cuts + fails : ℕ) : ℚ) := by exact_mod_cast h0
      have b : (0 : ℚ) < ((cuts + (fails + 1) : ℕ) : ℚ) := by exact_mod_cast (by omega)
      rw [div_le_div_iff₀ a b]
      push_cast
      have : (0 : ℚ) ≤ cuts := by positivity
      nlinarith
  have mono : ∀ t, greaterThanVal ((fails : ℚ) / ((cuts + fails : ℕ) : ℚ)) t = true →
      greaterThanVal (((fails + 1 : ℕ) : ℚ) / ((cuts + (fails + 1) : ℕ) : ℚ)) t = true := by
    intro t ht
    rw [greaterThanVal_iff] at ht ⊢
    exact le_trans ht hr
  unfold failRatioReached at h ⊢
  dsimp only at h ⊢
  have hlen : ∀ z : ℤ, ((cuts + fails : ℕ) : ℤ) ≥ z → ((cuts + (fails + 1) : ℕ) : ℤ) ≥ z := by
    intro z hz; push_cast at *; omega
  split at h
  · rename_i hh; rw [if_pos ⟨hlen _ hh.1, mono _ hh.2⟩]
  · split at h
    · rename_i hh
      have : (cuts : ℤ) ≥ manyCuts L ∧ greaterThanVal (((fails + 1 : ℕ) : ℚ) / ((cuts + (fails + 1) : ℕ) : ℚ)) many = true :=
        ⟨hh.1, mono _ hh.2⟩
      simp only [this, and_self, if_true]; split <;> rfl
    · split at h
      · rename_i hh
        have : cuts ≥ 1 ∧ greaterThanVal (((fails + 1 : ℕ) : ℚ) / ((cuts + (fails + 1) : ℕ) : ℚ)) few = true :=
          ⟨hh.1, mono _ hh.2⟩
        simp only [this, and_self, if_true]; split <;> (try rfl); split <;> rfl
      · split at h
        · rename_i hh
          have : cuts < 1 ∧ ((cuts + (fails + 1) : ℕ) : ℤ) ≥ noCutsObj few := ⟨hh.1, hlen _ hh.2⟩
          simp only [this, and_self, if_true]
          split <;> (try rfl); split <;> (try rfl); split <;> rfl
        · simp at h

end VPC
