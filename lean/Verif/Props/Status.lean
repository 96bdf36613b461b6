import Verif.Model.Status
import Verif.Props.Num

/-!
# C142: the status of a variable does not depend on the kind of solver
-/
namespace VPC

/-! ## Specification -/

/-- Where a variable of a basic solution is. -/
inductive Place | basic | upper | lower | free
deriving DecidableEq, Repr

/-- The place of a column: a fixed one counts as at its upper bound if its reduced cost is negative (beyond the
tolerance), otherwise as at its lower bound. A superbasic one is called free. -/
def placeOfCol (b : BasisInfo) (c : ℕ) : Place :=
  match b.colStatus c with
  | .basic => .basic
  | .atUpperBound => .upper
  | .atLowerBound => .lower
  | .isFixed => if b.reducedCost c ≤ -defEps then .upper else .lower
  | .isFree | .superBasic => .free

/-- The place of the slack of a row, which is added to the row: it is at its upper bound if the row is at its
lower side. The reduced cost of a slack is the negative of the row price. -/
def placeOfRow (b : BasisInfo) (r : ℕ) : Place :=
  match b.rowStatus r with
  | .basic => .basic
  | .atUpperBound => .lower
  | .atLowerBound => .upper
  | .isFixed => if -b.rowPrice r ≤ -defEps then .upper else .lower
  | .isFree | .superBasic => .free

/-- The place of a variable. -/
def placeOf (b : BasisInfo) (var : ℕ) : Place :=
  if var < b.numCols then placeOfCol b var else placeOfRow b (var - b.numCols)

/-- The codes `getBasisStatus` promises (external, OsiSolverInterface.hpp): 0 free, 1 basic, 2 at upper bound, 3 at
lower bound. -/
def Place.code : Place → ℤ
  | .free => 0
  | .basic => 1
  | .upper => 2
  | .lower => 3

/-- `getBasisStatus` keeps its promise for a problem with `m` rows. -/
structure StatSolver.Documented (s : StatSolver) (m : ℕ) : Prop where
  cols : ∀ c < s.info.numCols, s.cstat[c]? = some (placeOfCol s.info c).code
  rows : ∀ r < m, s.rstat[r]? = some (placeOfRow s.info r).code

/-! ## The functions -/

/-- The program can ask this solver: it is Clp, or there is no Clp branch and the codes are as promised. -/
def StatSolver.Askable (s : StatSolver) (m : ℕ) : Prop :=
  (s.useClp = true ∧ s.isClp = true) ∨
    (s.useClp = false ∧ s.Documented m ∧ 0 < s.info.numCols ∧ 0 < m)

theorem ask_clp {s : StatSolver} (h : s.useClp = true ∧ s.isClp = true) (c : Bool) (l : List ℤ) (i : ℕ) (k : ℤ) :
    s.ask c l i k = .ok c := by simp [StatSolver.ask, h.1, h.2]

theorem ask_code {s : StatSolver} {m : ℕ} (h : s.useClp = false) (hd : s.Documented m) (hn : 0 < s.info.numCols)
    (hm : 0 < m) (c : Bool) {l : List ℤ} {i : ℕ} {p : Place} (hl : l[i]? = some p.code) (k : ℤ) :
    s.ask c l i k = .ok (decide (p.code = k)) := by
  have h1 : s.cstat ≠ [] := by
    intro e; have := hd.cols 0 hn; rw [e] at this; simp at this
  have h2 : s.rstat ≠ [] := by
    intro e; have := hd.rows 0 hm; rw [e] at this; simp at this
  simp [StatSolver.ask, h, h1, h2, hl]

theorem col_place (b : BasisInfo) (c : ℕ) :
    isBasicVar (b.colStatus c) = decide (placeOfCol b c = .basic) ∧
    isNonBasicUBCol (b.colStatus c) (b.reducedCost c) = decide (placeOfCol b c = .upper) ∧
    isNonBasicLBCol (b.colStatus c) (b.reducedCost c) = decide (placeOfCol b c = .lower) ∧
    (isNonBasicFreeVar (b.colStatus c) = decide (placeOfCol b c = .free) ∨ b.colStatus c = .superBasic) := by
  have e : lessThanVal (b.reducedCost c) 0 = decide (b.reducedCost c ≤ -defEps) := by
    rw [Bool.eq_iff_iff, lessThanVal_iff, decide_eq_true_iff, zero_sub]
  unfold placeOfCol isBasicVar isNonBasicUBCol isNonBasicLBCol isNonBasicFreeVar
  rw [e]
  cases b.colStatus c <;> simp
  by_cases h : b.reducedCost c ≤ -defEps <;> simp [h]
  exact not_le.1 h

theorem row_place (b : BasisInfo) (r : ℕ) :
    isBasicVar (b.rowStatus r) = decide (placeOfRow b r = .basic) ∧
    isNonBasicUBSlack (b.rowStatus r) (b.rowPrice r) = decide (placeOfRow b r = .upper) ∧
    isNonBasicLBSlack (b.rowStatus r) (b.rowPrice r) = decide (placeOfRow b r = .lower) ∧
    (isNonBasicFreeVar (b.rowStatus r) = decide (placeOfRow b r = .free) ∨ b.rowStatus r = .superBasic) := by
  have e : greaterThanVal (b.rowPrice r) 0 = decide (defEps ≤ b.rowPrice r) := by
    rw [Bool.eq_iff_iff, greaterThanVal_iff, decide_eq_true_iff, zero_add]
  unfold placeOfRow isBasicVar isNonBasicUBSlack isNonBasicLBSlack isNonBasicFreeVar
  rw [e]
  cases b.rowStatus r <;> simp
  by_cases h : defEps ≤ b.rowPrice r <;> simp [h]
  exact not_le.1 h

theorem code_inj (p q : Place) : decide (p.code = q.code) = decide (p = q) := by
  cases p <;> cases q <;> rfl

/-- **C142.** For every solver the program can ask, every basis and every variable (column or slack), the questions
"basic", "at its upper bound", "at its lower bound" and "is it a ray" are answered according to the place of the variable:
with Clp as with any other solver, whatever branch answers. -/
theorem status_right {s : StatSolver} {m : ℕ} (h : s.Askable m) {var : ℕ} (hv : var < s.info.numCols + m) :
    s.basicVar var = .ok (decide (placeOf s.info var = .basic)) ∧
    s.ubVar var = .ok (decide (placeOf s.info var = .upper)) ∧
    s.lbVar var = .ok (decide (placeOf s.info var = .lower)) ∧
    s.rayVar var = .ok (decide (placeOf s.info var ≠ .basic)) := by
  have key : s.basicVar var = .ok (decide (placeOf s.info var = .basic)) ∧
      s.ubVar var = .ok (decide (placeOf s.info var = .upper)) ∧
      s.lbVar var = .ok (decide (placeOf s.info var = .lower)) := by
    unfold StatSolver.basicVar StatSolver.ubVar StatSolver.lbVar StatSolver.either placeOf
    by_cases hc : var < s.info.numCols
    · simp only [hc, if_true]
      have hp := col_place s.info var
      rcases h with h | ⟨h, hd, hn, hm⟩
      · simp only [StatSolver.basicCol, StatSolver.ubCol, StatSolver.lbCol, ask_clp h, hp.1, hp.2.1, hp.2.2.1, and_self]
      · have hk := hd.cols var hc
        simp only [StatSolver.basicCol, StatSolver.ubCol, StatSolver.lbCol, ask_code h hd hn hm _ hk]
        exact ⟨congrArg _ (code_inj _ .basic), congrArg _ (code_inj _ .upper), congrArg _ (code_inj _ .lower)⟩
    · simp only [hc, if_false]
      have hr : var - s.info.numCols < m := by omega
      have hp := row_place s.info (var - s.info.numCols)
      rcases h with h | ⟨h, hd, hn, hm⟩
      · simp only [StatSolver.basicRow, StatSolver.ubRow, StatSolver.lbRow, ask_clp h, hp.1, hp.2.1, hp.2.2.1, and_self]
      · have hk := hd.rows _ hr
        simp only [StatSolver.basicRow, StatSolver.ubRow, StatSolver.lbRow, ask_code h hd hn hm _ hk]
        exact ⟨congrArg _ (code_inj _ .basic), congrArg _ (code_inj _ .upper), congrArg _ (code_inj _ .lower)⟩
  refine ⟨key.1, key.2.1, key.2.2, ?_⟩
  unfold StatSolver.rayVar
  rw [key.1]
  simp [Res.bind]

/-- **C142, free variables (partial).** The same for "free", if the variable is not superbasic. Missing: superbasic
variables, see `superbasic_differs`. -/
theorem status_free_partial {s : StatSolver} {m : ℕ} (h : s.Askable m) {var : ℕ} (hv : var < s.info.numCols + m)
    (hs : (if var < s.info.numCols then s.info.colStatus var else s.info.rowStatus (var - s.info.numCols)) ≠
      .superBasic) :
    s.freeVar var = .ok (decide (placeOf s.info var = .free)) := by
  unfold StatSolver.freeVar StatSolver.either placeOf
  by_cases hc : var < s.info.numCols
  · simp only [hc, if_true] at hs ⊢
    have hp := (col_place s.info var).2.2.2.resolve_right hs
    rcases h with h | ⟨h, hd, hn, hm⟩
    · simp only [StatSolver.freeCol, ask_clp h, hp]
    · have hk := hd.cols var hc
      simp only [StatSolver.freeCol, ask_code h hd hn hm _ hk]
      exact congrArg _ (code_inj _ .free)
  · simp only [hc, if_false] at hs ⊢
    have hr : var - s.info.numCols < m := by omega
    have hp := (row_place s.info (var - s.info.numCols)).2.2.2.resolve_right hs
    rcases h with h | ⟨h, hd, hn, hm⟩
    · simp only [StatSolver.freeRow, ask_clp h, hp]
    · have hk := hd.rows _ hr
      simp only [StatSolver.freeRow, ask_code h hd hn hm _ hk]
      exact congrArg _ (code_inj _ .free)

/-- **C142, violated for superbasic variables.** Clp's branch says "not free", and neither basic nor at a bound; the other
branch says "free", for the same basis. -/
theorem superbasic_differs {s : StatSolver} {m : ℕ} (hc : s.useClp = true ∧ s.isClp = true) {c : ℕ}
    (hn : c < s.info.numCols) (hs : s.info.colStatus c = .superBasic) {t : StatSolver} (ht : t.useClp = false)
    (hi : t.info = s.info) (hd : t.Documented m) (hm : 0 < m) :
    s.freeVar c = .ok false ∧ s.basicVar c = .ok false ∧ s.ubVar c = .ok false ∧ s.lbVar c = .ok false ∧
      t.freeVar c = .ok true := by
  have hn' : c < t.info.numCols := hi ▸ hn
  refine ⟨?_, ?_, ?_, ?_, ?_⟩
  · simp [StatSolver.freeVar, StatSolver.either, hn, StatSolver.freeCol, ask_clp hc, hs, isNonBasicFreeVar]
  · simp [StatSolver.basicVar, StatSolver.either, hn, StatSolver.basicCol, ask_clp hc, hs, isBasicVar]
  · simp [StatSolver.ubVar, StatSolver.either, hn, StatSolver.ubCol, ask_clp hc, hs, isNonBasicUBCol]
  · simp [StatSolver.lbVar, StatSolver.either, hn, StatSolver.lbCol, ask_clp hc, hs, isNonBasicLBCol]
  · have hk := hd.cols c hn'
    simp only [StatSolver.freeVar, StatSolver.either, hn', if_true, StatSolver.freeCol,
      ask_code ht hd (by omega) hm _ hk]
    simp [placeOfCol, hi, hs, Place.code]

/-- With Clp, "fixed" is answered as Clp has it. -/
theorem fixed_clp {s : StatSolver} (h : s.useClp = true ∧ s.isClp = true) (var : ℕ) :
    s.fixedVar var = .ok (decide ((if var < s.info.numCols then s.info.colStatus var
      else s.info.rowStatus (var - s.info.numCols)) = .isFixed)) := by
  unfold StatSolver.fixedVar StatSolver.either
  split <;> simp [StatSolver.fixedCol, StatSolver.fixedRow, ask_clp h]

/-- **C142, violated for fixed variables.** Without Clp no variable is ever called fixed: the code 5 that is compared
with is not one `getBasisStatus` uses. -/
theorem fixed_never_found {s : StatSolver} {m : ℕ} (hu : s.useClp = false) (hd : s.Documented m)
    (hn : 0 < s.info.numCols) (hm : 0 < m) {var : ℕ} (hv : var < s.info.numCols + m) :
    s.fixedVar var = .ok false := by
  have h5 : ∀ p : Place, decide (p.code = 5) = false := by intro p; cases p <;> rfl
  unfold StatSolver.fixedVar StatSolver.either
  by_cases hc : var < s.info.numCols
  · simp only [hc, if_true, StatSolver.fixedCol, ask_code hu hd hn hm _ (hd.cols var hc), h5]
  · simp only [hc, if_false, StatSolver.fixedRow,
      ask_code hu hd hn hm _ (hd.rows (var - s.info.numCols) (by omega)), h5]

/-- **C142, violated for other solvers.** In a program built with Clp, every question about a solver that is not Clp is
undefined: the branch after the `catch` is never reached. -/
theorem other_solver_undefined {s : StatSolver} (hu : s.useClp = true) (ho : s.isClp = false) (var : ℕ) :
    s.basicVar var = .undef ∧ s.ubVar var = .undef ∧ s.lbVar var = .undef ∧ s.freeVar var = .undef ∧
      s.fixedVar var = .undef ∧ s.rayVar var = .undef := by
  have k : ∀ c l i k, s.ask c l i k = .undef := by intro c l i k; simp [StatSolver.ask, hu, ho]
  refine ⟨?_, ?_, ?_, ?_, ?_, ?_⟩
  all_goals
    simp only [StatSolver.rayVar, StatSolver.basicVar, StatSolver.ubVar, StatSolver.lbVar, StatSolver.freeVar,
      StatSolver.fixedVar, StatSolver.either, StatSolver.basicCol, StatSolver.basicRow, StatSolver.ubCol, StatSolver.ubRow,
      StatSolver.lbCol, StatSolver.lbRow, StatSolver.freeCol, StatSolver.freeRow, StatSolver.fixedCol, StatSolver.fixedRow, k,
      ite_self, Res.bind]

/-- **C142, violated for problems without rows.** Without Clp, every question is undefined if there are no rows: the
address of the first element of an empty vector is taken. -/
theorem stat_no_rows_undefined {s : StatSolver} (hu : s.useClp = false) (hr : s.rstat = []) (var : ℕ) :
    s.basicVar var = .undef ∧ s.ubVar var = .undef ∧ s.lbVar var = .undef := by
  have k : ∀ c l i k, s.ask c l i k = .undef := by intro c l i k; simp [StatSolver.ask, hu, hr]
  refine ⟨?_, ?_, ?_⟩
  all_goals
    simp only [StatSolver.basicVar, StatSolver.ubVar, StatSolver.lbVar, StatSolver.either, StatSolver.basicCol,
      StatSolver.basicRow, StatSolver.ubCol, StatSolver.ubRow, StatSolver.lbCol, StatSolver.lbRow, k, ite_self]

/-- A slack at its upper bound belongs to a row at its lower side, and the other way round, for a solver whose row
status is true (`lo`, `hi`: sides of the row, `act`: its activity). -/
theorem slack_side {s : StatSolver} {m : ℕ} (h : s.Askable m) {r : ℕ} (hr : r < m) {lo hi act : ℚ}
    (hL : s.info.rowStatus r = .atLowerBound → act = lo) (hU : s.info.rowStatus r = .atUpperBound → act = hi)
    (hF : s.info.rowStatus r = .isFixed → act = lo ∧ act = hi) :
    (s.ubVar (s.info.numCols + r) = .ok true → act = lo) ∧ (s.lbVar (s.info.numCols + r) = .ok true → act = hi) := by
  obtain ⟨-, h1, h2, -⟩ := status_right h (var := s.info.numCols + r) (by omega)
  rw [h1, h2]
  have e : placeOf s.info (s.info.numCols + r) = placeOfRow s.info r := by simp [placeOf]
  rw [e]
  simp only [Res.ok.injEq, decide_eq_true_eq]
  unfold placeOfRow
  cases hs : s.info.rowStatus r <;> simp_all
  exact fun _ => hF.1.symm.trans hF.2

/-! ## Examples -/

/-- Two columns (basic, and fixed with reduced cost -1) and two rows (at the lower side; superbasic). -/
def statInfo : BasisInfo where
  numCols := 2
  colStatus c := if c = 0 then .basic else .isFixed
  rowStatus r := if r = 0 then .atLowerBound else .superBasic
  reducedCost c := if c = 0 then 0 else -1
  rowPrice _ := 0

/-- A Clp solver in a program built with Clp, and another solver in a program built without. -/
def statClp : StatSolver := ⟨true, true, statInfo, [], []⟩
def statOther : StatSolver := ⟨false, false, statInfo, [1, 2], [2, 0]⟩

theorem statOther_doc : statOther.Documented 2 := by
  constructor
  · intro c hc
    have : c = 0 ∨ c = 1 := by simp only [statOther, statInfo] at hc; omega
    rcases this with rfl | rfl <;> decide +kernel
  · intro r hr
    have : r = 0 ∨ r = 1 := by omega
    rcases this with rfl | rfl <;> decide +kernel

example : statClp.Askable 2 ∧ statOther.Askable 2 :=
  ⟨.inl ⟨rfl, rfl⟩, .inr ⟨rfl, statOther_doc, by decide, by decide⟩⟩

example : statClp.ubVar 1 = .ok true ∧ statOther.ubVar 1 = .ok true ∧ statClp.ubVar 2 = .ok true ∧
    statOther.ubVar 2 = .ok true ∧ statClp.fixedVar 1 = .ok true ∧ statOther.fixedVar 1 = .ok false ∧
    statClp.freeVar 3 = .ok false ∧ statOther.freeVar 3 = .ok true ∧ statClp.basicVar 0 = .ok true := by
  decide +kernel

example : (⟨true, false, statInfo, [1, 2], [2, 0]⟩ : StatSolver).ubVar 1 = .undef :=
  (other_solver_undefined rfl rfl 1).2.1

end VPC
