import Verif.Model.SolverOps
import Mathlib.Tactic.Linarith
import Mathlib.Tactic.NormNum

/-!
# Properties of variable status tests, re-solving and applying cuts (C43, C44, C56, C57)
-/
namespace VPC

/-! ## C44: each nonbasic variable is at exactly one bound -/

/-- Clp's status of a variable, structural or slack. -/
def BasisInfo.status (b : BasisInfo) (var : ℕ) : ClpStatus :=
  if var < b.numCols then b.colStatus var else b.rowStatus (var - b.numCols)

/-- **C44 (partial).** For every variable, structural or slack, exactly one of the tests basic /
free / at lower / at upper holds, unless Clp calls it superbasic. Missing: superbasic variables
(`superbasic_in_no_class`). -/
theorem status_partition_partial (b : BasisInfo) (var : ℕ) (h : b.status var ≠ .superBasic) :
    ((b.isBasic var).toNat + (b.isFree var).toNat + (b.isLB var).toNat + (b.isUB var).toNat) = 1 := by
  unfold BasisInfo.status at h
  unfold BasisInfo.isBasic BasisInfo.isFree BasisInfo.isLB BasisInfo.isUB
  by_cases hv : var < b.numCols
  · simp only [hv, if_true] at h ⊢
    cases hs : b.colStatus var <;>
      simp_all [isBasicVar, isNonBasicFreeVar, isNonBasicLBCol, isNonBasicUBCol]
    cases lessThanVal (b.reducedCost var) 0 <;> rfl
  · simp only [hv, if_false] at h ⊢
    cases hs : b.rowStatus (var - b.numCols) <;>
      simp_all [isBasicVar, isNonBasicFreeVar, isNonBasicLBSlack, isNonBasicUBSlack]
    cases greaterThanVal (b.rowPrice (var - b.numCols)) 0 <;> rfl

/-- The two bound tests are mutually exclusive for every variable and every status. -/
theorem bounds_exclusive (b : BasisInfo) (var : ℕ) : ¬(b.isLB var = true ∧ b.isUB var = true) := by
  rintro ⟨h1, h2⟩
  by_cases h : b.status var = .superBasic
  · unfold BasisInfo.status at h
    unfold BasisInfo.isLB at h1
    by_cases hv : var < b.numCols
    · simp only [hv, if_true] at h h1; simp [isNonBasicLBCol, h] at h1
    · simp only [hv, if_false] at h h1; simp [isNonBasicLBSlack, h] at h1
  · have := status_partition_partial b var h
    rw [h1, h2] at this
    simp at this

/-- **C44 fails** for superbasic variables: they count as nonbasic (they generate a ray) but are at
neither bound and not free. -/
theorem superbasic_in_no_class (b : BasisInfo) (var : ℕ) (h : b.status var = .superBasic) :
    b.isBasic var = false ∧ b.isFree var = false ∧ b.isLB var = false ∧ b.isUB var = false := by
  unfold BasisInfo.status at h
  unfold BasisInfo.isBasic BasisInfo.isFree BasisInfo.isLB BasisInfo.isUB
  by_cases hv : var < b.numCols
  · simp only [hv, if_true] at h ⊢
    simp [h, isBasicVar, isNonBasicFreeVar, isNonBasicLBCol, isNonBasicUBCol]
  · simp only [hv, if_false] at h ⊢
    simp [h, isBasicVar, isNonBasicFreeVar, isNonBasicLBSlack, isNonBasicUBSlack]

/-- What Clp guarantees about the values belonging to a basis: nonbasic columns sit at the bound
their status names; a row's activity sits at the bound its status names. -/
structure AtBounds (b : BasisInfo) (x lb ub activity rowLower rowUpper : ℕ → ℚ) : Prop where
  colLo : ∀ j, b.colStatus j = .atLowerBound → x j = lb j
  colUp : ∀ j, b.colStatus j = .atUpperBound → x j = ub j
  colFix : ∀ j, b.colStatus j = .isFixed → x j = lb j ∧ x j = ub j
  rowLo : ∀ i, b.rowStatus i = .atLowerBound → activity i = rowLower i
  rowUp : ∀ i, b.rowStatus i = .atUpperBound → activity i = rowUpper i
  rowFix : ∀ i, b.rowStatus i = .isFixed → activity i = rowLower i ∧ activity i = rowUpper i

/-- The bound reported is the bound the variable is at. For a row `i`, Osi's slack
`s_i = rowUpper i - activity i` (with coefficient `+1`) ranges over `[0, rowUpper i - rowLower i]`:
"at lower" means the slack is 0 and "at upper" that it is `rowUpper i - rowLower i`. -/
theorem bound_tests_true (b : BasisInfo) (x lb ub activity rowLower rowUpper : ℕ → ℚ)
    (h : AtBounds b x lb ub activity rowLower rowUpper) (var : ℕ) :
    (var < b.numCols → (b.isLB var = true → x var = lb var) ∧ (b.isUB var = true → x var = ub var)) ∧
    (b.numCols ≤ var →
      (b.isLB var = true → rowUpper (var - b.numCols) - activity (var - b.numCols) = 0) ∧
      (b.isUB var = true → rowUpper (var - b.numCols) - activity (var - b.numCols)
        = rowUpper (var - b.numCols) - rowLower (var - b.numCols))) := by
  refine ⟨fun hv => ?_, fun hv => ?_⟩
  · unfold BasisInfo.isLB BasisInfo.isUB
    simp only [hv, if_true]
    constructor
    · intro hl
      simp only [isNonBasicLBCol, Bool.or_eq_true, decide_eq_true_eq, Bool.and_eq_true] at hl
      rcases hl with hl | hl
      · exact h.colLo _ hl
      · exact (h.colFix _ hl.1).1
    · intro hl
      simp only [isNonBasicUBCol, Bool.or_eq_true, decide_eq_true_eq, Bool.and_eq_true] at hl
      rcases hl with hl | hl
      · exact h.colUp _ hl
      · exact (h.colFix _ hl.1).2
  · unfold BasisInfo.isLB BasisInfo.isUB
    simp only [Nat.not_lt.mpr hv, if_false]
    constructor
    · intro hl
      simp only [isNonBasicLBSlack, Bool.or_eq_true, decide_eq_true_eq, Bool.and_eq_true] at hl
      rcases hl with hl | hl
      · rw [h.rowUp _ hl]; simp
      · rw [(h.rowFix _ hl.1).2]; simp
    · intro hl
      simp only [isNonBasicUBSlack, Bool.or_eq_true, decide_eq_true_eq, Bool.and_eq_true] at hl
      rcases hl with hl | hl
      · rw [h.rowLo _ hl]
      · rw [(h.rowFix _ hl.1).1]

/-- Fixed variables are assigned by the sign of the reduced cost (a slack's reduced cost is minus
its row price): at the upper bound exactly when it is at most `-1e-7`. -/
theorem fixed_by_reduced_cost (b : BasisInfo) (var : ℕ) (h : b.status var = .isFixed) :
    let rc := if var < b.numCols then b.reducedCost var else -(b.rowPrice (var - b.numCols))
    (b.isUB var = true ↔ rc ≤ -defEps) ∧ (b.isLB var = true ↔ -defEps < rc) := by
  unfold BasisInfo.status at h
  intro rc
  unfold BasisInfo.isLB BasisInfo.isUB
  by_cases hv : var < b.numCols
  · simp only [hv, if_true] at h ⊢
    have : rc = b.reducedCost var := by simp [rc, hv]
    rw [this]
    simp [h, isNonBasicLBCol, isNonBasicUBCol, lessThanVal]
  · simp only [hv, if_false] at h ⊢
    have : rc = -(b.rowPrice (var - b.numCols)) := by simp [rc, hv]
    rw [this]
    simp only [h, isNonBasicLBSlack, isNonBasicUBSlack, greaterThanVal]
    simp

/-- A two-column, two-row basis with a fixed column at its upper bound and a `≥` row. -/
def exBasis : BasisInfo :=
  ⟨2, fun j => if j = 0 then .isFixed else .basic, fun i => if i = 0 then .atLowerBound else .basic,
   fun j => if j = 0 then -3 else 0, fun _ => 0⟩

example : exBasis.status 0 ≠ .superBasic ∧ exBasis.isUB 0 = true ∧ exBasis.isUB 2 = true ∧
    AtBounds exBasis (fun _ => 1) (fun _ => 1) (fun _ => 1) (fun _ => 4) (fun _ => 4) (fun _ => 9) := by
  refine ⟨by decide +kernel, by decide +kernel, by decide +kernel, ?_⟩
  constructor <;> intro j hj <;> simp_all [exBasis]
  all_goals (split at hj <;> simp_all)

/-! ## Laws of an LP solver -/

variable {σ : Type} (I : SolverImpl σ)

/-- `P` is not disturbed by solving, cleaning up or refactorizing. -/
structure Stable (P : σ → Prop) : Prop where
  timed : ∀ s, P s → P (I.timed s)
  resolve : ∀ s, P s → P (I.resolve s)
  initialSolve : ∀ s, P s → P (I.initialSolve s)
  cleanup : ∀ k s, P s → P (I.cleanup k s)
  dualValuesPass : ∀ s, P s → P (I.dualValuesPass s)
  setStatus2 : ∀ s, P s → P (I.setStatus2 s)
  enableFact : ∀ s, P s → P (I.enableFact s)
  disableFact : ∀ s, P s → P (I.disableFact s)

theorem cleanStep_stable {P : σ → Prop} (hP : Stable I P) (s s' : σ) (hs : P s)
    (h : cleanStep I s = some s') : P s' := by
  unfold cleanStep at h
  split at h
  · cases h; exact hP.cleanup _ _ hs
  · split at h
    · cases h; exact hP.cleanup _ _ hs
    · split at h
      · cases h; exact hP.cleanup _ _ hs
      · cases h

theorem resolveLoop_stable {P : σ → Prop} (hP : Stable I P) (max count : ℕ) (infeas : ℚ) (s : σ)
    (hs : P s) : P (resolveLoop I max count infeas s).1 := by
  fun_induction resolveLoop I max count infeas s with
  | case1 count infeas s h curr hc ih => exact ih (hP.resolve _ (hP.timed _ hs))
  | case2 => exact hs
  | case3 => exact hs

theorem checkResolves_stable {P : σ → Prop} (hP : Stable I P) (max count : ℕ) (s : σ)
    (hs : P s) : P (checkResolves I max count s).1 := by
  unfold checkResolves
  have h1 := resolveLoop_stable I hP max count dblMax s hs
  cases hr : resolveLoop I max count dblMax s with
  | mk s1 c1 =>
    rw [hr] at h1
    simp only
    split
    · split
      · split
        · exact hP.disableFact _ (hP.resolve _ (hP.timed _ (hP.enableFact _ (hP.setStatus2 _ (hP.dualValuesPass _ h1)))))
        · exact hP.setStatus2 _ (hP.dualValuesPass _ h1)
      · split
        · exact hP.disableFact _ (hP.resolve _ (hP.timed _ (hP.enableFact _ (hP.dualValuesPass _ h1))))
        · exact hP.dualValuesPass _ h1
    · split
      · exact hP.disableFact _ (hP.resolve _ (hP.timed _ (hP.enableFact _ h1)))
      · exact h1

theorem checkTail_stable {P : σ → Prop} (hP : Stable I P) (e : Bool) (max count : ℕ) (s : σ)
    (b : Bool) (s' : σ) (hs : P s) (h : checkTail I e max count s = .ok (b, s')) : P s' := by
  unfold checkTail at h
  split at h
  · cases h; exact hs
  · split at h
    · have hs2 : P (if count < max then I.resolve s else s) := by
        split
        · exact hP.resolve _ hs
        · exact hs
      simp only at h
      generalize (if count < max then I.resolve s else s) = t at h hs2
      split at h
      · cases h; exact hs2
      · split at h
        · split at h
          · cases h
          · cases h; exact hs2
        · split at h <;> (cases h; exact hs2)
    · cases h; exact hs

/-- Whatever solving does not disturb is not disturbed by the optimality check. -/
theorem checkSolverOptimality_stable {P : σ → Prop} (hP : Stable I P) (e : Bool) (max : ℕ) (s : σ)
    (b : Bool) (s' : σ) (hs : P s) (h : checkSolverOptimality I e max s = .ok (b, s')) : P s' := by
  unfold checkSolverOptimality at h
  split at h
  · have key : ∀ t c, P t →
        (if c < max then
          match cleanStep I t with
          | some s => checkTail I e 0 0 s
          | none =>
            match checkResolves I max c t with
            | (s, count) =>
              match cleanStep I s with
              | some s => checkTail I e 0 0 s
              | none => checkTail I e max count s
        else checkTail I e max c t) = .ok (b, s') → P s' := by
      intro t c ht hh
      split at hh
      · split at hh
        · rename_i s1 h1
          exact checkTail_stable I hP _ _ _ _ _ _ (cleanStep_stable I hP _ _ ht h1) hh
        · have h2 := checkResolves_stable I hP max c t ht
          cases hr : checkResolves I max c t with
          | mk s1 c1 =>
            rw [hr] at hh h2
            simp only at hh
            split at hh
            · rename_i s2 h3
              exact checkTail_stable I hP _ _ _ _ _ _ (cleanStep_stable I hP _ _ h2 h3) hh
            · exact checkTail_stable I hP _ _ _ _ _ _ h2 hh
      · exact checkTail_stable I hP _ _ _ _ _ _ ht hh
    by_cases hp : I.isPrimalInf s = true
    · simp only [hp, if_true] at h
      exact key _ 1 (hP.resolve _ (hP.timed _ hs)) h
    · rw [if_neg hp] at h
      exact key _ 0 hs h
  · exact checkTail_stable I hP _ _ _ _ _ _ hs h

/-! ## C56: the optimality check -/

/-- A solver never reports two of optimal / primal infeasible / dual infeasible. -/
structure Coherent : Prop where
  op : ∀ s, I.isOptimal s = true → I.isPrimalInf s = false
  od : ∀ s, I.isOptimal s = true → I.isDualInf s = false

theorem checkTail_result (hI : Coherent I) (e : Bool) (max count : ℕ) (s : σ) (b : Bool) (s' : σ)
    (h : checkTail I e max count s = .ok (b, s')) : b = I.isOptimal s' := by
  have np : ∀ t, I.isPrimalInf t = true → I.isOptimal t = false := by
    intro t ht
    cases ho : I.isOptimal t with
    | false => rfl
    | true => rw [hI.op t ho] at ht; cases ht
  have nd : ∀ t, I.isDualInf t = true → I.isOptimal t = false := by
    intro t ht
    cases ho : I.isOptimal t with
    | false => rfl
    | true => rw [hI.od t ho] at ht; cases ht
  unfold checkTail at h
  split at h
  · rename_i h1; cases h; exact (np _ h1).symm
  · split at h
    · simp only at h
      generalize (if count < max then I.resolve s else s) = t at h
      split at h
      · rename_i h1; cases h; exact (np _ h1).symm
      · split at h
        · rename_i h1
          split at h
          · cases h
          · cases h; exact (nd _ h1).symm
        · split at h
          · rename_i h1; cases h; simpa using h1
          · rename_i h1; cases h; simpa using h1
    · rename_i h1; cases h; simpa using h1

/-- Every outcome of the optimality check is an outcome of its last part for some state. -/
theorem checkSolverOptimality_cases (e : Bool) (max : ℕ) (s : σ) :
    ∃ m c t, checkSolverOptimality I e max s = checkTail I e m c t := by
  unfold checkSolverOptimality
  split
  · simp only
    split
    · split
      · split
        · exact ⟨_, _, _, rfl⟩
        · split <;> exact ⟨_, _, _, rfl⟩
      · exact ⟨_, _, _, rfl⟩
    · split
      · split
        · exact ⟨_, _, _, rfl⟩
        · split <;> exact ⟨_, _, _, rfl⟩
      · exact ⟨_, _, _, rfl⟩
  · exact ⟨_, _, _, rfl⟩

/-- **C56.** Whatever the solver does, the optimality check returns whether the solver is proven
optimal when it returns; it terminates the process only if asked to stop on dual infeasibility and
the solver ends dual infeasible and not primal infeasible. -/
theorem checkSolverOptimality_result (hI : Coherent I) (e : Bool) (max : ℕ) (s : σ) :
    (∃ s', checkSolverOptimality I e max s = .ok (I.isOptimal s', s')) ∨
    (checkSolverOptimality I e max s = .exit ∧ e = true ∧
      ∃ s', I.isDualInf s' = true ∧ I.isPrimalInf s' = false) := by
  obtain ⟨m, c, t, ht⟩ := checkSolverOptimality_cases I e max s
  rw [ht]
  cases hr : checkTail I e m c t with
  | ok r =>
    obtain ⟨b, s'⟩ := r
    exact Or.inl ⟨s', by rw [checkTail_result I hI _ _ _ _ _ _ hr]⟩
  | exit =>
    right
    unfold checkTail at hr
    split at hr
    · cases hr
    · split at hr
      · simp only at hr
        generalize (if c < m then I.resolve t else t) = u at hr
        split at hr
        · cases hr
        · rename_i hp
          split at hr
          · rename_i hd
            split at hr
            · rename_i he; exact ⟨rfl, he, u, hd, by simpa using hp⟩
            · cases hr
          · split at hr <;> cases hr
      · cases hr
  | undef =>
    unfold checkTail at hr
    split at hr
    · cases hr
    · split at hr
      · simp only at hr
        generalize (if c < m then I.resolve t else t) = u at hr
        split at hr
        · cases hr
        · split at hr
          · split at hr <;> cases hr
          · split at hr <;> cases hr
      · cases hr

/-- `cnt` counts calls of the solver: only resolves, cleanups and the dual pass may increase it. -/
structure Counts (cnt : σ → ℕ) : Prop where
  timed : ∀ s, cnt (I.timed s) ≤ cnt s
  resolve : ∀ s, cnt (I.resolve s) ≤ cnt s + 1
  cleanup : ∀ k s, cnt (I.cleanup k s) ≤ cnt s + 1
  dualValuesPass : ∀ s, cnt (I.dualValuesPass s) ≤ cnt s + 1
  setStatus2 : ∀ s, cnt (I.setStatus2 s) ≤ cnt s
  enableFact : ∀ s, cnt (I.enableFact s) ≤ cnt s
  disableFact : ∀ s, cnt (I.disableFact s) ≤ cnt s

theorem cleanStep_count {cnt : σ → ℕ} (hc : Counts I cnt) (s s' : σ)
    (h : cleanStep I s = some s') : cnt s' ≤ cnt s + 1 := by
  unfold cleanStep at h
  split at h
  · cases h; exact hc.cleanup _ _
  · split at h
    · cases h; exact hc.cleanup _ _
    · split at h
      · cases h; exact hc.cleanup _ _
      · cases h

theorem resolveLoop_count {cnt : σ → ℕ} (hc : Counts I cnt) (max count : ℕ) (infeas : ℚ) (s : σ) :
    cnt (resolveLoop I max count infeas s).1 ≤ cnt s + (max - count) := by
  fun_induction resolveLoop I max count infeas s with
  | case1 count infeas s h curr hcc ih =>
    have h1 := hc.resolve (I.timed s)
    have h2 := hc.timed s
    omega
  | case2 => exact Nat.le_add_right _ _
  | case3 => exact Nat.le_add_right _ _

theorem checkResolves_count {cnt : σ → ℕ} (hc : Counts I cnt) (max count : ℕ) (s : σ) :
    cnt (checkResolves I max count s).1 ≤ cnt s + (max - count) + 2 := by
  unfold checkResolves
  have h1 := resolveLoop_count I hc max count dblMax s
  cases hr : resolveLoop I max count dblMax s with
  | mk s1 c1 =>
    rw [hr] at h1
    simp only at h1 ⊢
    have d := hc.dualValuesPass s1
    have f : ∀ t, cnt (I.disableFact (I.resolve (I.timed (I.enableFact t)))) ≤ cnt t + 1 := fun t => by
      have a1 := hc.enableFact t
      have a4 := hc.timed (I.enableFact t)
      have a2 := hc.resolve (I.timed (I.enableFact t))
      have a3 := hc.disableFact (I.resolve (I.timed (I.enableFact t)))
      omega
    have g := hc.setStatus2 (I.dualValuesPass s1)
    have f1 := f (I.setStatus2 (I.dualValuesPass s1))
    have f2 := f (I.dualValuesPass s1)
    have f3 := f s1
    split
    · split
      · split <;> simp only <;> omega
      · split <;> simp only <;> omega
    · split <;> simp only <;> omega

theorem checkTail_count {cnt : σ → ℕ} (hc : Counts I cnt) (e : Bool) (max count : ℕ) (s : σ)
    (b : Bool) (s' : σ) (h : checkTail I e max count s = .ok (b, s')) :
    cnt s' ≤ cnt s + (if count < max then 1 else 0) := by
  unfold checkTail at h
  split at h
  · cases h; omega
  · split at h
    · simp only at h
      have h2 : cnt (if count < max then I.resolve s else s) ≤ cnt s + (if count < max then 1 else 0) := by
        split
        · exact hc.resolve s
        · omega
      generalize (if count < max then I.resolve s else s) = t at h h2
      split at h
      · cases h; exact h2
      · split at h
        · split at h
          · cases h
          · cases h; exact h2
        · split at h <;> (cases h; exact h2)
    · cases h; omega

/-- **C56.** The check makes at most `maxNumResolves + 3` solver calls, and none at all when no
resolve is allowed. -/
theorem checkSolverOptimality_calls {cnt : σ → ℕ} (hc : Counts I cnt) (e : Bool) (max : ℕ) (s : σ)
    (b : Bool) (s' : σ) (h : checkSolverOptimality I e max s = .ok (b, s')) :
    cnt s' ≤ cnt s + (if max = 0 then 0 else max + 3) := by
  unfold checkSolverOptimality at h
  split at h
  · rename_i hm
    have hm : 0 < max := by simp at hm; exact hm.2
    rw [if_neg (by omega)]
    have key : ∀ t c, c ≤ 1 → cnt t ≤ cnt s + c →
        (if c < max then
          match cleanStep I t with
          | some s => checkTail I e 0 0 s
          | none =>
            match checkResolves I max c t with
            | (s, count) =>
              match cleanStep I s with
              | some s => checkTail I e 0 0 s
              | none => checkTail I e max count s
        else checkTail I e max c t) = .ok (b, s') → cnt s' ≤ cnt s + (max + 3) := by
      intro t c hc1 ht hh
      split at hh
      · split at hh
        · rename_i s1 h1
          have h2 := checkTail_count I hc _ _ _ _ _ _ hh
          have h3 := cleanStep_count I hc _ _ h1
          simp at h2
          omega
        · have h2 := checkResolves_count I hc max c t
          cases hr : checkResolves I max c t with
          | mk s1 c1 =>
            rw [hr] at hh h2
            simp only at hh h2
            split at hh
            · rename_i s2 h3
              have h4 := checkTail_count I hc _ _ _ _ _ _ hh
              have h5 := cleanStep_count I hc _ _ h3
              simp at h4
              omega
            · have h4 := checkTail_count I hc _ _ _ _ _ _ hh
              split at h4 <;> omega
      · have h4 := checkTail_count I hc _ _ _ _ _ _ hh
        split at h4 <;> omega
    by_cases hp : I.isPrimalInf s = true
    · simp only [hp, if_true] at h
      exact key _ 1 (by omega) (le_trans (hc.resolve _) (Nat.succ_le_succ (hc.timed s))) h
    · rw [if_neg hp] at h
      exact key _ 0 (by omega) (by omega) h
  · have h4 := checkTail_count I hc _ _ _ _ _ _ h
    by_cases hm : max = 0
    · simp [hm] at h4 ⊢; exact h4
    · rw [if_neg hm]; split at h4 <;> omega

/-! ## C57: hot starts -/

/-- Laws of hot starts and bounds: solving, marking and unmarking leave the bounds alone, setting
one bound changes exactly that bound, and only marking/unmarking change whether a hot start is in
place. -/
structure HotLaws : Prop where
  mark : ∀ s, I.marked (I.markHot s) = true
  solve_marked : ∀ s, I.marked (I.solveHot s) = I.marked s
  resolve_marked : ∀ s, I.marked (I.resolve s) = I.marked s
  setUB_marked : ∀ c v s, I.marked (I.setColUpper c v s) = I.marked s
  setLB_marked : ∀ c v s, I.marked (I.setColLower c v s) = I.marked s
  lb_same : ∀ s, I.colLower (I.markHot s) = I.colLower s ∧ I.colLower (I.unmarkHot s) = I.colLower s ∧
    I.colLower (I.solveHot s) = I.colLower s ∧ I.colLower (I.resolve s) = I.colLower s ∧
    I.colLower (I.initialSolve s) = I.colLower s
  ub_same : ∀ s, I.colUpper (I.markHot s) = I.colUpper s ∧ I.colUpper (I.unmarkHot s) = I.colUpper s ∧
    I.colUpper (I.solveHot s) = I.colUpper s ∧ I.colUpper (I.resolve s) = I.colUpper s ∧
    I.colUpper (I.initialSolve s) = I.colUpper s
  setUB : ∀ c v s, I.colUpper (I.setColUpper c v s) = Function.update (I.colUpper s) c v ∧
    I.colLower (I.setColUpper c v s) = I.colLower s
  setLB : ∀ c v s, I.colLower (I.setColLower c v s) = Function.update (I.colLower s) c v ∧
    I.colUpper (I.setColLower c v s) = I.colUpper s

/-- The bound that is being changed. -/
def theBound (isUB : Bool) (col : ℕ) (s : σ) : ℚ :=
  if isUB then I.colUpper s col else I.colLower s col

theorem setBound_back (hI : HotLaws I) (isUB : Bool) (col : ℕ) (orig new : ℚ) (s t : σ)
    (hn : theBound I isUB col s = new)
    (hl : I.colLower t = I.colLower (setBound I isUB col orig s))
    (hu : I.colUpper t = I.colUpper (setBound I isUB col orig s)) :
    I.colLower (setBound I isUB col new t) = I.colLower s ∧
    I.colUpper (setBound I isUB col new t) = I.colUpper s := by
  cases isUB
  · simp only [setBound, theBound, Bool.false_eq_true, if_false] at *
    rw [(hI.setLB _ _ _).1, (hI.setLB _ _ _).2, hl, hu, (hI.setLB _ _ _).1, (hI.setLB _ _ _).2]
    simp [← hn]
  · simp only [setBound, theBound, if_true] at *
    rw [(hI.setUB _ _ _).1, (hI.setUB _ _ _).2, hl, hu, (hI.setUB _ _ _).1, (hI.setUB _ _ _).2]
    simp [← hn]

theorem setBound_marked (hI : HotLaws I) (isUB : Bool) (col : ℕ) (v : ℚ) (s : σ) :
    I.marked (setBound I isUB col v s) = I.marked s := by
  cases isUB
  · exact hI.setLB_marked _ _ _
  · exact hI.setUB_marked _ _ _

theorem hotRetry_spec (hI : HotLaws I) (col : ℕ) (isUB : Bool) (orig new : ℚ) (viol : ℤ) (s : σ)
    (hn : theBound I isUB col s = new) :
    ∃ s' v, hotRetry I col isUB orig new viol s = .ok (s', v) ∧ I.marked s' = true ∧
      I.colLower s' = I.colLower s ∧ I.colUpper s' = I.colUpper s ∧
      v = (if I.isIterLimit s' then viol + 1 else viol) := by
  unfold hotRetry
  simp only
  set s1 := I.resolve (I.unmarkHot s) with hs1
  have l1 : I.colLower s1 = I.colLower s := by
    rw [hs1, (hI.lb_same _).2.2.2.1, (hI.lb_same _).2.1]
  have u1 : I.colUpper s1 = I.colUpper s := by
    rw [hs1, (hI.ub_same _).2.2.2.1, (hI.ub_same _).2.1]
  set s2 := I.markHot (I.resolve (setBound I isUB col orig s1)) with hs2
  have l2 : I.colLower s2 = I.colLower (setBound I isUB col orig s1) := by
    rw [hs2, (hI.lb_same _).1, (hI.lb_same _).2.2.2.1]
  have u2 : I.colUpper s2 = I.colUpper (setBound I isUB col orig s1) := by
    rw [hs2, (hI.ub_same _).1, (hI.ub_same _).2.2.2.1]
  have hn1 : theBound I isUB col s1 = new := by
    rw [← hn]; unfold theBound; rw [l1, u1]
  obtain ⟨b1, b2⟩ := setBound_back I hI isUB col orig new s1 s2 hn1 l2 u2
  set s3 := setBound I isUB col new s2 with hs3
  have m3 : I.marked s3 = true := by rw [hs3, setBound_marked I hI, hs2, hI.mark]
  refine ⟨I.solveHot s3, _, ?_, ?_, ?_, ?_, rfl⟩
  · simp [hotSolve, m3, Res.bind]
  · rw [hI.solve_marked, m3]
  · rw [(hI.lb_same _).2.2.1, b1, l1]
  · rw [(hI.ub_same _).2.2.1, b2, u1]

/-- **C57.** Solving from a hot start with a changed bound in place: the call never solves without
a marked hot start, the result is whether the solver ended proven optimal, a hot start is in place
again, every bound is what it was at the call, and the number of violations grows by at most two
(not at all when the limit is negative). -/
theorem solveFromHotStart_spec (hI : HotLaws I) (col : ℕ) (isUB : Bool) (orig new : ℚ)
    (viol max : ℤ) (s : σ) (hm : I.marked s = true) (hn : theBound I isUB col s = new) :
    ∃ s' v, solveFromHotStart I col isUB orig new viol max s = .ok (I.isOptimal s', s', v) ∧
      I.marked s' = true ∧ I.colLower s' = I.colLower s ∧ I.colUpper s' = I.colUpper s ∧
      viol ≤ v ∧ v ≤ viol + 2 ∧ (max ≤ viol → v = viol) := by
  unfold solveFromHotStart
  have fin : ∀ t v, I.marked t = true → I.colLower t = I.colLower s → I.colUpper t = I.colUpper s →
      let u := (if v ≥ max then
          (if max = 0 then I.markHot (I.initialSolve (I.unmarkHot t)) else I.resolve t) else t)
      I.marked u = true ∧ I.colLower u = I.colLower s ∧ I.colUpper u = I.colUpper s := by
    intro t v h1 h2 h3
    simp only
    split
    · split
      · refine ⟨hI.mark _, ?_, ?_⟩
        · rw [(hI.lb_same _).1, (hI.lb_same _).2.2.2.2, (hI.lb_same _).2.1, h2]
        · rw [(hI.ub_same _).1, (hI.ub_same _).2.2.2.2, (hI.ub_same _).2.1, h3]
      · exact ⟨by rw [hI.resolve_marked, h1], by rw [(hI.lb_same _).2.2.2.1, h2],
          by rw [(hI.ub_same _).2.2.2.1, h3]⟩
    · exact ⟨h1, h2, h3⟩
  have hot : hotSolve I s = .ok (I.solveHot s) := by simp [hotSolve, hm]
  have mh : I.marked (I.solveHot s) = true := by rw [hI.solve_marked, hm]
  have lh := (hI.lb_same s).2.2.1
  have uh := (hI.ub_same s).2.2.1
  by_cases h0 : max < 0
  · rw [if_pos h0, hot]
    exact ⟨I.solveHot s, viol, rfl, mh, lh, uh, le_refl _, by omega, fun _ => rfl⟩
  · rw [if_neg h0]
    by_cases h1 : viol < max
    · rw [if_pos h1, hot]
      simp only [Res.bind]
      by_cases h2 : I.isIterLimit (I.solveHot s) = true
      · rw [if_pos h2]
        obtain ⟨t, v, e1, e2, e3, e4, e5⟩ := hotRetry_spec I hI col isUB orig new (viol + 1)
          (I.solveHot s) (by unfold theBound at hn ⊢; rw [lh, uh]; exact hn)
        rw [e1]
        simp only
        obtain ⟨g1, g2, g3⟩ := fin t v e2 (by rw [e3, lh]) (by rw [e4, uh])
        refine ⟨_, v, rfl, g1, g2, g3, ?_, ?_, fun h => by omega⟩
        · rw [e5]; split <;> omega
        · rw [e5]; split <;> omega
      · rw [if_neg h2]
        simp only
        obtain ⟨g1, g2, g3⟩ := fin (I.solveHot s) viol mh lh uh
        exact ⟨_, viol, rfl, g1, g2, g3, le_refl _, by omega, fun _ => rfl⟩
    · rw [if_neg h1]
      simp only [Res.bind]
      obtain ⟨g1, g2, g3⟩ := fin s viol hm rfl rfl
      exact ⟨_, viol, rfl, g1, g2, g3, le_refl _, by omega, fun _ => rfl⟩

/-! ## C43: applying cuts -/

/-- Laws of rows: solving keeps them, applying appends (`applyCuts` appends the cuts that Osi finds
effective and consistent, `keep`), restoring keeps the first rows. -/
structure RowLaws (keep : RowCut → Bool) : Prop where
  stable : ∀ r, Stable I (fun s => I.rows s = r)
  applyRowCuts : ∀ l s, I.rows (I.applyRowCuts l s) = I.rows s ++ l
  applyCuts : ∀ l s, I.rows (I.applyCuts l s) = I.rows s ++ l.filter keep
  restoreBase : ∀ n s, I.rows (I.restoreBase n s) = (I.rows s).take n

/-- The cuts asked for: `num` cuts from position `start`; when that is the whole collection, those
that Osi does not discard. -/
def requested (keep : RowCut → Bool) (cs : List RowCut) (start num : ℕ) : List RowCut :=
  if start = 0 ∧ num = cs.length then cs.filter keep else (cs.drop start).take num

theorem recheck_ok (hI : Coherent I) (s : σ) :
    ∃ s', recheck I s = .ok s' := by
  unfold recheck
  rcases checkSolverOptimality_result I hI false 2 s with ⟨s', h⟩ | ⟨_, h, _⟩
  · rw [h]; exact ⟨s', rfl⟩
  · cases h

theorem recheck_rows {keep : RowCut → Bool} (hR : RowLaws I keep) (s s' : σ)
    (h : recheck I s = .ok s') : I.rows s' = I.rows s := by
  unfold recheck at h
  cases hr : checkSolverOptimality I false 2 s with
  | ok r =>
    rw [hr] at h
    simp only [Res.bind, Res.ok.injEq] at h
    subst h
    exact checkSolverOptimality_stable I (hR.stable (I.rows s)) _ _ _ _ _ rfl hr
  | exit => rw [hr] at h; cases h
  | undef => rw [hr] at h; cases h

theorem afterCuts_spec {keep : RowCut → Bool} (hI : Coherent I) (hR : RowLaws I keep)
    (compareObj : ℚ) (s : σ) :
    (afterCuts I compareObj s = .exit ∧ ∃ t, I.rows t = I.rows s ∧ I.isOptimal t = false ∧
      I.hitTime t = false ∧ I.isIterLimit t = false) ∨
    ∃ s', afterCuts I compareObj s = .ok (if I.isOptimal s' then I.objValue s' else dblMax, s') ∧
      I.rows s' = I.rows s := by
  unfold afterCuts
  set s0 := (if I.isOptimal s then I.resolve s else I.initialSolve s) with hs0
  have r0 : I.rows s0 = I.rows s := by
    rw [hs0]
    split
    · exact (hR.stable (I.rows s)).resolve _ rfl
    · exact (hR.stable (I.rows s)).initialSolve _ rfl
  obtain ⟨s1, h1⟩ := recheck_ok I hI s0
  have r1 := recheck_rows I hR _ _ h1
  rw [h1]
  simp only [Res.bind]
  split
  · rename_i hx
    simp only [Bool.and_eq_true, Bool.not_eq_true'] at hx
    exact Or.inl ⟨rfl, s1, by rw [r1, r0], hx.1.1, hx.1.2, hx.2⟩
  · right
    by_cases hc : (I.isOptimal s1 && decide (I.objValue s1 < compareObj)) = true
    · rw [if_pos hc]
      obtain ⟨s2, h2⟩ := recheck_ok I hI (I.resolve s1)
      have r2 := recheck_rows I hR _ _ h2
      rw [h2]
      refine ⟨s2, rfl, ?_⟩
      rw [r2, (hR.stable (I.rows s1)).resolve _ rfl, r1, r0]
    · rw [if_neg hc]
      exact ⟨s1, rfl, by rw [r1, r0]⟩

theorem addCuts_spec {keep : RowCut → Bool} (hR : RowLaws I keep) (cs : List RowCut)
    (start num : ℕ) (h : start + num ≤ cs.length) (s : σ) :
    ∃ s', addCuts I cs start num s = .ok s' ∧ I.rows s' = I.rows s ++ requested keep cs start num := by
  unfold addCuts requested
  by_cases hn : (num : ℤ) > 0
  · rw [if_pos hn]
    by_cases hf : start = 0 ∧ num = cs.length
    · rw [if_pos (by omega), if_pos hf]
      exact ⟨_, rfl, hR.applyCuts _ _⟩
    · rw [if_neg (by omega), if_neg hf]
      have : cutRange cs (start : ℤ) ((num : ℤ)).toNat = some ((cs.drop start).take num) := by
        unfold cutRange
        rw [if_pos (by omega)]
        simp
      rw [this]
      exact ⟨_, rfl, hR.applyRowCuts _ _⟩
  · rw [if_neg hn]
    have hz : num = 0 := by omega
    subst hz
    refine ⟨s, rfl, ?_⟩
    by_cases hf : start = 0 ∧ (0 : ℕ) = cs.length
    · rw [if_pos hf]
      have : cs = [] := by cases cs with
        | nil => rfl
        | cons _ _ => simp at hf
      simp [this]
    · rw [if_neg hf]; simp

/-- **C43 (partial).** Applying `num` cuts from position `start` of the collection (a range inside
the collection) to any solver: either the LP could not be solved to begin with, and infinity is
returned with no row added; or exactly the requested cuts are appended to the rows, once and in
order, and the value returned is that of the solver after adding them if it is proven optimal and
infinity otherwise; or the process is terminated with the cuts added and the LP not optimal, neither
limit having been hit. Missing: the last outcome should be "infinity" (`infeasible_exits`), and
ranges that leave the collection (`negative_count_undefined`). -/
theorem applyCuts_partial {keep : RowCut → Bool} (hI : Coherent I) (hR : RowLaws I keep)
    (cs : List RowCut) (start num : ℕ) (compareObj : ℚ) (h : start + num ≤ cs.length) (s : σ) :
    (∃ s', applyCutsFrom I (some s) cs start num compareObj = .ok (dblMax, s') ∧
      I.rows s' = I.rows s ∧ I.isOptimal s' = false ∧ I.isOptimal s = false) ∨
    (∃ s', applyCutsFrom I (some s) cs start num compareObj =
        .ok (if I.isOptimal s' then I.objValue s' else dblMax, s') ∧
      I.rows s' = I.rows s ++ requested keep cs start num) ∨
    (applyCutsFrom I (some s) cs start num compareObj = .exit ∧
      ∃ t, I.rows t = I.rows s ++ requested keep cs start num ∧ I.isOptimal t = false ∧
        I.hitTime t = false ∧ I.isIterLimit t = false) := by
  unfold applyCutsFrom
  have hnum : (if (num : ℤ) ≥ 0 then (num : ℤ) else (cs.length : ℤ)) = num := by
    rw [if_pos (by omega)]
  simp only [hnum]
  have main : ∀ t, I.rows t = I.rows s → I.isOptimal t = true → ∀ c,
      (∃ s', (addCuts I cs start num t).bind (afterCuts I c) =
        .ok (if I.isOptimal s' then I.objValue s' else dblMax, s') ∧
        I.rows s' = I.rows s ++ requested keep cs start num) ∨
      ((addCuts I cs start num t).bind (afterCuts I c) = .exit ∧
        ∃ t, I.rows t = I.rows s ++ requested keep cs start num ∧ I.isOptimal t = false ∧
        I.hitTime t = false ∧ I.isIterLimit t = false) := by
    intro t ht _ c
    obtain ⟨u, hu, ru⟩ := addCuts_spec I hR cs start num h t
    rw [hu]
    simp only [Res.bind]
    rcases afterCuts_spec I hI hR c u with ⟨e, w, w1, w2⟩ | ⟨s', e, rs⟩
    · right; exact ⟨e, w, by rw [w1, ru, ht], w2⟩
    · left; exact ⟨s', e, by rw [rs, ru, ht]⟩
  by_cases ho : I.isOptimal s = true
  · right
    simp only [ho, Bool.not_true, Bool.false_eq_true, if_false, Res.bind]
    exact main s rfl ho _
  · have ho : I.isOptimal s = false := by simpa using ho
    simp only [ho, Bool.not_false, if_true]
    obtain ⟨s1, h1⟩ := recheck_ok I hI (I.resolve s)
    have r1 := recheck_rows I hR _ _ h1
    rw [(hR.stable (I.rows s)).resolve _ rfl] at r1
    rw [h1]
    simp only [Res.bind]
    by_cases h2 : I.isOptimal s1 = true
    · right
      simp only [h2, Bool.not_true, Bool.false_eq_true, if_false]
      exact main s1 r1 h2 _
    · have h2 : I.isOptimal s1 = false := by simpa using h2
      left
      simp only [h2, Bool.not_false, if_true]
      exact ⟨s1, rfl, r1, h2, trivial⟩

/-- Applying a whole collection (no count given, or the count equal to its size). -/
theorem applyCuts_all_partial {keep : RowCut → Bool} (hI : Coherent I) (hR : RowLaws I keep)
    (cs : List RowCut) (compareObj : ℚ) (s : σ) (v : ℚ) (s' : σ)
    (h : applyCutsCustom I (some s) cs (-1) compareObj = .ok (v, s')) :
    (v = dblMax ∧ I.rows s' = I.rows s ∧ I.isOptimal s' = false) ∨
    (I.rows s' = I.rows s ++ cs.filter keep ∧
      v = if I.isOptimal s' then I.objValue s' else dblMax) := by
  unfold applyCutsCustom at h
  simp only [show ¬((-1 : ℤ) ≥ 0) by decide, if_false] at h
  rcases applyCuts_partial I hI hR cs 0 cs.length compareObj (by omega) s with
    ⟨t, e, r⟩ | ⟨t, e, r⟩ | ⟨e, _⟩
  · left
    rw [Nat.cast_zero] at e
    rw [e] at h; cases h
    exact ⟨rfl, r.1, r.2.1⟩
  · right
    rw [Nat.cast_zero] at e
    rw [e] at h; cases h
    refine ⟨?_, rfl⟩
    rw [r]; simp [requested]
  · rw [Nat.cast_zero] at e
    rw [e] at h; cases h

/-- Asking for a start position without a count reads past the end of the collection. -/
theorem negative_count_undefined (cs : List RowCut) (start : ℤ) (overload : ℤ) (compareObj : ℚ)
    (s : σ) (ho : I.isOptimal s = true) (hs : start ≠ 0) (hn : overload < 0) (hc : cs ≠ []) :
    applyCutsFrom I (some s) cs start overload compareObj = .undef := by
  have hl : 0 < cs.length := List.length_pos_iff.mpr hc
  unfold applyCutsFrom
  simp only [if_neg (not_le.mpr hn), ho, Bool.not_true, Bool.false_eq_true, if_false, Res.bind]
  have : addCuts I cs start cs.length s = .undef := by
    unfold addCuts
    rw [if_pos (by omega), if_neg (by omega)]
    have : cutRange cs start ((cs.length : ℤ)).toNat = none := by
      unfold cutRange; rw [if_neg]; omega
    rw [this]
  rw [this]

/-- The null solver that the code means to handle is dereferenced. -/
theorem null_solver_undefined (cs : List RowCut) (start overload : ℤ) (compareObj : ℚ) :
    applyCutsFrom I none cs start overload compareObj = .undef := rfl

/-- A toy solver whose state is its rows; it is optimal with value 0 as long as it has no row, and
infeasible afterwards. -/
def toySolver : SolverImpl (List RowCut) where
  isClp := true
  isOptimal s := s.isEmpty
  isPrimalInf s := !s.isEmpty
  isDualInf _ := false
  isIterLimit _ := false
  hitTime _ := false
  objValue _ := 0
  secondary _ := 0
  sumPrimal _ := 0
  sumDual _ := 0
  timed := id
  resolve := id
  initialSolve := id
  cleanup _ := id
  dualValuesPass := id
  setStatus2 := id
  enableFact := id
  disableFact := id
  marked _ := true
  markHot := id
  unmarkHot := id
  solveHot := id
  colLower _ _ := 0
  colUpper _ _ := 0
  setColLower _ _ := id
  setColUpper _ _ := id
  rows := id
  applyCuts l s := s ++ l
  applyRowCuts l s := s ++ l
  restoreBase n s := s.take n

theorem toySolver_coherent : Coherent toySolver := by
  constructor <;> intro s h <;> simp_all [toySolver]

theorem toySolver_rows : RowLaws toySolver (fun _ => true) where
  stable r := ⟨fun _ h => h, fun _ h => h, fun _ h => h, fun _ _ h => h, fun _ h => h, fun _ h => h,
    fun _ h => h, fun _ h => h⟩
  applyRowCuts _ _ := rfl
  applyCuts l s := by simp [toySolver]
  restoreBase _ _ := rfl

/-- **C43 fails**: when the cuts make the LP infeasible the process terminates instead of reporting
an infinite bound. -/
theorem infeasible_exits :
    toySolver.isOptimal [] = true ∧ toySolver.isPrimalInf [⟨[], 1⟩] = true ∧
    applyCutsCustom toySolver (some []) [⟨[], 1⟩] (-1) (-dblMax) = .exit := by
  refine ⟨rfl, rfl, by decide +kernel⟩

/-- **C43.** `getObjValue` with cuts leaves the rows of the solver as they were and returns what
applying the cuts reports; without cuts it returns the solver's value, infinity when infeasible and
minus infinity otherwise, and touches nothing. -/
theorem getObjValue_spec {keep : RowCut → Bool} (hI : Coherent I) (hR : RowLaws I keep) (s : σ)
    (cuts : Option (List RowCut)) (v : ℚ) (s' : σ) (h : getObjValue I s cuts = .ok (v, s')) :
    I.rows s' = I.rows s ∧
    (cuts.getD [] ≠ [] → ∃ t, applyCutsCustom I (some s) (cuts.getD []) (-1) (-dblMax) = .ok (v, t)) ∧
    (cuts.getD [] = [] → s' = s ∧ v = if I.isOptimal s then I.objValue s
      else if I.isPrimalInf s then dblMax else -dblMax) := by
  cases cuts with
  | none =>
    simp only [getObjValue] at h
    simp only [Option.getD_none, ne_eq, not_true, false_imp_iff, true_and, true_implies]
    split at h
    · rename_i ho; cases h; simp [ho]
    · split at h
      · rename_i ho hp; cases h; simp [ho, hp]
      · rename_i ho hp; cases h; simp [ho, hp]
  | some l =>
    cases l with
    | nil =>
      simp only [getObjValue] at h
      simp only [Option.getD_some, ne_eq, not_true, false_imp_iff, true_and, true_implies]
      split at h
      · rename_i ho; cases h; simp [ho]
      · split at h
        · rename_i ho hp; cases h; simp [ho, hp]
        · rename_i ho hp; cases h; simp [ho, hp]
    | cons c cs =>
      simp only [getObjValue] at h
      simp only [Option.getD_some, ne_eq, reduceCtorEq, not_false_eq_true, true_implies,
        false_imp_iff, and_true]
      cases hr : applyCutsCustom I (some s) (c :: cs) (-1) (-dblMax) with
      | ok r =>
        obtain ⟨w, t⟩ := r
        rw [hr] at h
        simp only [Res.bind, Res.ok.injEq, Prod.mk.injEq] at h
        obtain ⟨rfl, rfl⟩ := h
        refine ⟨?_, t, rfl⟩
        rw [hR.restoreBase]
        rcases applyCuts_all_partial I hI hR _ _ _ _ _ hr with ⟨_, g, _⟩ | ⟨g, _⟩
        · rw [g]; simp
        · rw [g]; simp
      | exit => rw [hr] at h; cases h
      | undef => rw [hr] at h; cases h

/-- The cuts selected by a mask, in order. -/
def selected (mask : List Bool) (cs : List RowCut) : List RowCut :=
  ((mask.zip cs).filter (·.1)).map (·.2)

theorem maskedApply_spec {keep : RowCut → Bool} (hR : RowLaws I keep) (mask : List Bool)
    (cs : List RowCut) (s : σ) :
    (maskedApply I mask cs s = .undef ↔ mask.length < cs.length) ∧
    (cs.length ≤ mask.length → ∃ s', maskedApply I mask cs s = .ok s' ∧
      I.rows s' = I.rows s ++ selected mask cs) := by
  induction cs generalizing mask s with
  | nil => simp [maskedApply, selected]
  | cons c cs ih =>
    cases mask with
    | nil => simp [maskedApply]
    | cons b bs =>
      simp only [maskedApply, List.length_cons, Nat.add_lt_add_iff_right, Nat.add_le_add_iff_right]
      refine ⟨(ih bs _).1, fun h => ?_⟩
      obtain ⟨s', e, r⟩ := (ih bs (if b then I.applyRowCuts [c] s else s)).2 h
      refine ⟨s', e, ?_⟩
      rw [r]
      cases b
      · simp [selected]
      · simp [selected, hR.applyRowCuts]

/-- **C43.** Applying selected cuts through the solver interface appends exactly the selected cuts,
once each and in order, returns how many they are, and clears the collection exactly when asked; a
mask shorter than the collection is read past its end. -/
theorem vpcApplyCuts_mask {keep : RowCut → Bool} (hR : RowLaws I keep)
    (na : List RowCut → σ → ℕ) (mask : List Bool) (clear : Bool) (cs : List RowCut) (s : σ) :
    (cs.length ≤ mask.length → ∃ s', vpcApplyCuts I na (some mask) clear cs s =
        .ok (((selected mask cs).length : ℤ), s', if clear then [] else cs) ∧
      I.rows s' = I.rows s ++ selected mask cs) ∧
    (mask.length < cs.length → vpcApplyCuts I na (some mask) clear cs s = .undef) := by
  obtain ⟨h1, h2⟩ := maskedApply_spec I hR mask cs s
  refine ⟨fun h => ?_, fun h => ?_⟩
  · obtain ⟨s', e, r⟩ := h2 h
    refine ⟨s', ?_, r⟩
    simp only [vpcApplyCuts, e, Res.bind, r, List.length_append]
    congr 2
    push_cast; omega
  · simp [vpcApplyCuts, h1.mpr h, Res.bind]

/-- Without a mask all cuts Osi accepts are appended. -/
theorem vpcApplyCuts_all {keep : RowCut → Bool} (hR : RowLaws I keep)
    (na : List RowCut → σ → ℕ) (clear : Bool) (cs : List RowCut) (s : σ) :
    ∃ s', vpcApplyCuts I na none clear cs s = .ok ((na cs s : ℤ), s', if clear then [] else cs) ∧
      I.rows s' = I.rows s ++ cs.filter keep :=
  ⟨_, rfl, hR.applyCuts _ _⟩

/-! ## Non-vacuity: solvers satisfying the laws -/

/-- A solver with bounds, hot starts and a call counter as its state. -/
structure ToyState where
  lb : ℕ → ℚ
  ub : ℕ → ℚ
  hot : Bool
  calls : ℕ

/-- See `ToyState`; the iteration limit is reported on even call numbers. -/
def toySolver2 : SolverImpl ToyState where
  isClp := true
  isOptimal s := s.calls % 3 = 2
  isPrimalInf s := s.calls % 3 = 1
  isDualInf s := s.calls % 3 = 0
  isIterLimit s := s.calls % 2 = 0
  hitTime _ := false
  objValue _ := 0
  secondary s := s.calls
  sumPrimal _ := 0
  sumDual _ := 1
  timed := id
  resolve s := { s with calls := s.calls + 1 }
  initialSolve s := { s with calls := s.calls + 1 }
  cleanup _ s := { s with calls := s.calls + 1 }
  dualValuesPass s := { s with calls := s.calls + 1 }
  setStatus2 := id
  enableFact := id
  disableFact := id
  marked := ToyState.hot
  markHot s := { s with hot := true }
  unmarkHot s := { s with hot := false }
  solveHot s := { s with calls := s.calls + 1 }
  colLower := ToyState.lb
  colUpper := ToyState.ub
  setColLower c v s := { s with lb := Function.update s.lb c v }
  setColUpper c v s := { s with ub := Function.update s.ub c v }
  rows _ := []
  applyCuts _ := id
  applyRowCuts _ := id
  restoreBase _ := id

example : HotLaws toySolver2 := by
  constructor <;> intros <;> simp [toySolver2]

example : Counts toySolver2 ToyState.calls := by
  constructor <;> intros <;> simp [toySolver2]

example : Coherent toySolver2 := by
  constructor <;> intro s h <;> simp [toySolver2] at * <;> omega

example : ∃ s : ToyState, toySolver2.marked s = true ∧ theBound toySolver2 true 4 s = 7 :=
  ⟨⟨fun _ => 0, fun _ => 7, true, 0⟩, rfl, rfl⟩

example : Coherent toySolver ∧ RowLaws toySolver (fun _ => true) :=
  ⟨toySolver_coherent, toySolver_rows⟩

end VPC
