import Verif.Model.PrlpTime
import Verif.Props.GenLimits
import Verif.Props.Params

/-!
# C13 (time clause), C75, C76: first solve of the point-ray LP

C75: the exit reason of the first solve says what the LP solver answered, and every answer but an
optimal one is recorded as exactly one failure.
C76: the time limits are the documented ones (violated).
-/
namespace VPC

/-! ## C13: the complete decision -/

/-- **C13.** Complete decision for runs with at least one cut and fewer than 400000 objectives: the run is
stopped iff too many objectives failed (more than 4 in 5 after `MANY_OBJ` tries, more than 9 in 10 with a
quarter of the allowed cuts, more than 19 in 20), or the solves are slow: at least `MANY_OBJ` tries, more
than ten seconds in total, and on average at least `PRLP_TIMELIMIT`. -/
theorem failure_limit_complete (L : ℤ) (h1 : 1 ≤ L) (h2 : L ≤ 10 ^ 12) (time tl : ℚ) (cuts fails : ℕ)
    (hc : 1 ≤ cuts) (hb : cuts + fails < 400000) :
    reachedFailureLimit L time tl cuts fails = true ↔
      (max 20 (10 * ((L + 3) / 4) + 1) ≤ (cuts + fails : ℕ) ∧ fails > 4 * cuts) ∨
      ((L + 3) / 4 ≤ (cuts : ℤ) ∧ fails > 9 * cuts) ∨ fails > 19 * cuts ∨
      (max 20 (10 * ((L + 3) / 4) + 1) ≤ ((cuts + fails : ℕ) : ℤ) ∧ 10 < time ∧
        tl * (cuts + fails : ℕ) ≤ time) := by
  have ht := failure_limit_table L h1 h2 cuts fails hc hb
  obtain ⟨-, -, c3⟩ := failure_constants L h1 h2
  have hpos : (0 : ℚ) < ((cuts + fails : ℕ) : ℚ) := by exact_mod_cast (by omega)
  unfold reachedFailureLimit
  rw [if_neg (by omega), Bool.or_eq_true, ht, c3]
  simp only [Bool.and_eq_true, decide_eq_true_eq, ge_iff_le, gt_iff_lt, le_div_iff₀ hpos]
  tauto

/-- **C13.** A run in which at least one objective in five gives a cut is stopped only if the solves are
slow; never within its first 19 objectives or its first ten seconds. -/
theorem successful_stopped_only_if_slow (L : ℤ) (time tl : ℚ) (cuts fails : ℕ)
    (hc : 1 ≤ cuts) (hs : fails ≤ 4 * cuts)
    (h : reachedFailureLimit L time tl cuts fails = true) :
    20 ≤ cuts + fails ∧ 10 < time ∧ tl * (cuts + fails : ℕ) ≤ time := by
  have hf := successful_runs_continue L cuts fails hc hs
  have hpos : (0 : ℚ) < ((cuts + fails : ℕ) : ℚ) := by exact_mod_cast (by omega)
  unfold reachedFailureLimit at h
  rw [if_neg (by omega), hf] at h
  simp only [Bool.false_or, Bool.and_eq_true, decide_eq_true_eq, ge_iff_le, gt_iff_lt,
    le_div_iff₀ hpos] at h
  obtain ⟨⟨h1, h2⟩, h3⟩ := h
  refine ⟨?_, h2, h3⟩
  have h20 : (⌈1 / (1 - thr95)⌉ : ℤ) = 20 := by
    rw [Int.ceil_eq_iff]; unfold thr95; constructor <;> norm_num
  have : (20 : ℤ) ≤ ((cuts + fails : ℕ) : ℤ) := by
    refine le_trans ?_ h1
    unfold manyObj
    rw [h20]; exact le_max_left _ _
  exact_mod_cast this

/-- Non-vacuity: 25 cuts in 25 tries, 130 seconds, limit 5 seconds: stopped; with 9 seconds: not. -/
example : reachedFailureLimit 8 130 5 25 0 = true ∧ reachedFailureLimit 8 9 (1/5) 25 0 = false := by
  constructor
  · rw [failure_limit_complete 8 (by omega) (by omega) _ _ 25 0 (by omega) (by omega)]
    norm_num
  · rw [Bool.eq_false_iff]
    intro h
    have := (successful_stopped_only_if_slow 8 9 (1/5) 25 0 (by omega) (by omega) h).2.1
    norm_num at this

/-! ## C75: exit reason of the first solve -/

/-- **C75.** The exit reason of the first solve, for every answer of the LP solver. -/
theorem prlpSetupExit_spec (maxTime : ℚ) (a : PrlpAnswer) :
    ((prlpSetupExit maxTime a).1 = .SUCCESS ↔ a.optimal = true) ∧
    ((prlpSetupExit maxTime a).1 = .PRLP_INFEASIBLE ↔
      a.optimal = false ∧ a.primalInf = true ∧ a.abandoned = false) ∧
    ((prlpSetupExit maxTime a).1 = .PRLP_TIME_LIMIT ↔
      a.optimal = false ∧ ¬ (a.primalInf = true ∧ a.abandoned = false) ∧
        maxTime - defEps < a.dur) ∧
    ((prlpSetupExit maxTime a).1 = .PRLP_NUMERICAL_ISSUES ↔
      a.optimal = false ∧ ¬ (a.primalInf = true ∧ a.abandoned = false) ∧
        a.dur ≤ maxTime - defEps) := by
  have hl : lessThanVal a.dur maxTime defEps = true ↔ a.dur ≤ maxTime - defEps := lessThanVal_iff
  unfold prlpSetupExit
  by_cases hlt : lessThanVal a.dur maxTime defEps = true
  · have hlt' := hl.1 hlt
    cases a.optimal <;> cases a.primalInf <;> cases a.abandoned <;> cases a.iterLimit <;>
      cases a.hitMax <;> cases a.dualInf <;> simp [hlt] <;> linarith
  · have hlt' : ¬ (a.dur ≤ maxTime - defEps) := fun h => hlt (hl.2 h)
    have hlt'' : lessThanVal a.dur maxTime defEps = false := by rw [Bool.eq_false_iff]; exact hlt
    cases a.optimal <;> cases a.primalInf <;> cases a.abandoned <;> cases a.iterLimit <;>
      cases a.hitMax <;> cases a.dualInf <;> simp [hlt''] <;> linarith

/-- **C75.** Exactly one failure is recorded if the solve did not end with an optimal solution, none
otherwise, and the failure belongs to the exit reason. -/
theorem prlpSetupExit_fail (maxTime : ℚ) (a : PrlpAnswer) :
    ((prlpSetupExit maxTime a).2 = none ↔ (prlpSetupExit maxTime a).1 = .SUCCESS) ∧
    ((prlpSetupExit maxTime a).1 = .PRLP_INFEASIBLE ↔
      (prlpSetupExit maxTime a).2 = some .PRIMAL_INFEASIBLE_NO_OBJ) ∧
    ((prlpSetupExit maxTime a).1 = .PRLP_TIME_LIMIT →
      (prlpSetupExit maxTime a).2 = some .NUMERICAL_ISSUES_NO_OBJ) ∧
    ((prlpSetupExit maxTime a).1 = .PRLP_NUMERICAL_ISSUES →
      (prlpSetupExit maxTime a).2 = some .NUMERICAL_ISSUES_NO_OBJ ∨
      (prlpSetupExit maxTime a).2 = some .UNKNOWN) := by
  unfold prlpSetupExit
  split
  · simp
  · split
    · simp
    · split
      · simp
      · split
        · simp
        · split <;> simp

/-- Non-vacuity: an infeasible LP, one that took too long, and one that was abandoned. -/
example : (prlpSetupExit 60 ⟨false, true, false, false, false, false, 1⟩).1 = .PRLP_INFEASIBLE ∧
    (prlpSetupExit 60 ⟨false, false, false, false, false, true, 60⟩).1 = .PRLP_TIME_LIMIT ∧
    prlpSetupExit 60 ⟨false, true, false, true, false, false, 1⟩ =
      (.PRLP_NUMERICAL_ISSUES, some .UNKNOWN) := by decide +kernel

/-! ## C76: time limits -/

/-- **C76, what holds.** A limit `tl ≥ 0` given by the user is kept, and the first solve gets ten times as
much (at least a minute, at most the total time). -/
theorem prlp_limit_given_partial (TIMELIMIT tl dur : ℚ) (h : 0 ≤ tl) :
    prlpLimitAfter tl dur = tl ∧ prlpInitLimit TIMELIMIT tl ≤ TIMELIMIT ∧
    (10 * tl ≤ TIMELIMIT → 60 ≤ TIMELIMIT → 60 ≤ prlpInitLimit TIMELIMIT tl ∧
      10 * tl ≤ prlpInitLimit TIMELIMIT tl) := by
  refine ⟨?_, min_le_left _ _, fun h1 h2 => ⟨le_min h2 (le_max_left _ _), le_min h1 (le_max_right _ _)⟩⟩
  unfold prlpLimitAfter
  rw [if_neg]
  rw [isVal_iff]
  have := defEps_lt_one
  rw [abs_of_nonneg (by linarith)]
  linarith

/-- **C76 fails**: with the value -1, documented as "unlimited time for initial solve, and then half that
time subsequently", the first solve is limited to a minute, and the limit afterwards is never half of the
time used: it is at least five seconds and at least the whole time. -/
theorem prlp_unlimited_is_limited (TIMELIMIT dur : ℚ) :
    prlpInitLimit TIMELIMIT (-1) ≤ 60 ∧ prlpLimitAfter (-1) dur = max 5 dur ∧
    prlpLimitAfter (-1) dur ≠ dur / 2 := by
  have h2 : prlpLimitAfter (-1) dur = max 5 dur := by
    unfold prlpLimitAfter
    rw [if_pos]
    rw [isVal_iff]; simp [defEps_pos]
  refine ⟨(min_le_right _ _).trans (by norm_num), h2, ?_⟩
  rw [h2]
  intro h
  have h5 := le_max_left 5 dur
  have h6 := le_max_right 5 dur
  linarith

/-- **C76 fails**: the limit derived from the first disjunction replaces the user's parameter, so that for
every later disjunction the first solve is not "unlimited" in the sense above but has that limit (times
ten). -/
theorem prlp_limit_sticks (d1 d2 : ℚ) :
    prlpLimitAfter (prlpLimitAfter (-1) d1) d2 = prlpLimitAfter (-1) d1 := by
  rw [(prlp_unlimited_is_limited 0 d1).2.1]
  exact (prlp_limit_given_partial 0 _ d2 ((by norm_num : (0 : ℚ) ≤ 5).trans (le_max_left _ _))).1

/-- With the default parameter, the time clause of the failure limit therefore needs an average of at least
five seconds per objective. -/
theorem default_time_clause (L : ℤ) (time dur : ℚ) (cuts fails : ℕ) (hc : 1 ≤ cuts)
    (hs : fails ≤ 4 * cuts)
    (h : reachedFailureLimit L time (prlpLimitAfter (-1) dur) cuts fails = true) :
    100 ≤ time ∧ 5 * (cuts + fails : ℕ) ≤ time := by
  obtain ⟨h1, h2, h3⟩ := successful_stopped_only_if_slow L time _ cuts fails hc hs h
  rw [(prlp_unlimited_is_limited 0 dur).2.1] at h3
  have hq : (20 : ℚ) ≤ ((cuts + fails : ℕ) : ℚ) := by exact_mod_cast h1
  have h5 := le_max_left 5 dur
  have : (5 : ℚ) * ((cuts + fails : ℕ) : ℚ) ≤ time :=
    le_trans (mul_le_mul_of_nonneg_right h5 (by linarith)) h3
  exact ⟨by linarith, this⟩

end VPC
