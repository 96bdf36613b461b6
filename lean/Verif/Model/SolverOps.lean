import Verif.Model.Sparse

/-!
# Operating an LP solver (src/utility/SolverHelper.cpp, include/common/SolverHelper.hpp)

The LP solver itself is external.  `SolverImpl σ` lists the operations and queries of
`OsiSolverInterface` / `ClpSimplex` that the code calls, on an arbitrary solver state `σ`; nothing
is assumed about them in this file.
-/
namespace VPC

/-- Outcome of running code: a value, `exit(1)`, or undefined behaviour. -/
inductive Res (α : Type) where
  | ok (a : α)
  | exit
  | undef
deriving DecidableEq, Repr

/-- Sequencing of statements. -/
def Res.bind {α β : Type} : Res α → (α → Res β) → Res β
  | .ok a, f => f a
  | .exit, _ => .exit
  | .undef, _ => .undef

theorem Res.bind_ok {α β : Type} {r : Res α} {f : α → Res β} {b : β} (h : r.bind f = .ok b) :
    ∃ a, r = .ok a ∧ f a = .ok b := by
  cases r with
  | ok a => exact ⟨a, rfl, h⟩
  | exit => simp [Res.bind] at h
  | undef => simp [Res.bind] at h

/-! ## Status of variables -/

/-- `ClpSimplex::Status` (Clp's enumeration, used in include/common/SolverHelper.hpp:141-163). -/
inductive ClpStatus | isFree | basic | atUpperBound | atLowerBound | superBasic | isFixed
deriving DecidableEq, Repr

/-- `isBasicVar(stat)` (include/common/SolverHelper.hpp:141-143), also `isBasicCol`,
`isBasicSlack`, `isBasicVar(solver, var)` for a Clp solver. -/
def isBasicVar (s : ClpStatus) : Bool := s = .basic

/-- `isNonBasicFreeVar(stat)` (include/common/SolverHelper.hpp:146-148). -/
def isNonBasicFreeVar (s : ClpStatus) : Bool := s = .isFree

/-- `isNonBasicUBCol(solver, col)` (src/utility/SolverHelper.cpp:675-690). -/
def isNonBasicUBCol (s : ClpStatus) (reducedCost : ℚ) : Bool :=
  decide (s = .atUpperBound) || (decide (s = .isFixed) && lessThanVal reducedCost 0)

/-- `isNonBasicLBCol(solver, col)` (src/utility/SolverHelper.cpp:692-707). -/
def isNonBasicLBCol (s : ClpStatus) (reducedCost : ℚ) : Bool :=
  decide (s = .atLowerBound) || (decide (s = .isFixed) && !(lessThanVal reducedCost 0))

/-- `isNonBasicUBSlack(solver, row)` (src/utility/SolverHelper.cpp:753-770): Clp's row status is
flipped. -/
def isNonBasicUBSlack (s : ClpStatus) (rowPrice : ℚ) : Bool :=
  decide (s = .atLowerBound) || (decide (s = .isFixed) && greaterThanVal rowPrice 0)

/-- `isNonBasicLBSlack(solver, row)` (src/utility/SolverHelper.cpp:772-789). -/
def isNonBasicLBSlack (s : ClpStatus) (rowPrice : ℚ) : Bool :=
  decide (s = .atUpperBound) || (decide (s = .isFixed) && !(greaterThanVal rowPrice 0))

/-- Per-variable data of a Clp solver: `getColumnStatus`/`getReducedCost` for columns,
`getRowStatus`/`getRowPrice` for rows. -/
structure BasisInfo where
  numCols : ℕ
  colStatus : ℕ → ClpStatus
  rowStatus : ℕ → ClpStatus
  reducedCost : ℕ → ℚ
  rowPrice : ℕ → ℚ

/-- `isNonBasicUBVar(solver, var)` (include/common/SolverHelper.hpp:324-329). -/
def BasisInfo.isUB (b : BasisInfo) (var : ℕ) : Bool :=
  if var < b.numCols then isNonBasicUBCol (b.colStatus var) (b.reducedCost var)
  else isNonBasicUBSlack (b.rowStatus (var - b.numCols)) (b.rowPrice (var - b.numCols))

/-- `isNonBasicLBVar(solver, var)` (include/common/SolverHelper.hpp:312-317). -/
def BasisInfo.isLB (b : BasisInfo) (var : ℕ) : Bool :=
  if var < b.numCols then isNonBasicLBCol (b.colStatus var) (b.reducedCost var)
  else isNonBasicLBSlack (b.rowStatus (var - b.numCols)) (b.rowPrice (var - b.numCols))

/-- `isNonBasicFreeVar(solver, var)` (include/common/SolverHelper.hpp:336-341). -/
def BasisInfo.isFree (b : BasisInfo) (var : ℕ) : Bool :=
  if var < b.numCols then isNonBasicFreeVar (b.colStatus var)
  else isNonBasicFreeVar (b.rowStatus (var - b.numCols))

/-- `isBasicVar(solver, var)` (include/common/SolverHelper.hpp:293-305); `isRayVar` (:359-361) is
its negation. -/
def BasisInfo.isBasic (b : BasisInfo) (var : ℕ) : Bool :=
  if var < b.numCols then VPC.isBasicVar (b.colStatus var)
  else VPC.isBasicVar (b.rowStatus (var - b.numCols))

/-! ## Solving -/

/-- The operations and queries of a solver used by the functions below, on solver states `σ`. -/
structure SolverImpl (σ : Type) where
  isClp : Bool
  isOptimal : σ → Bool
  isPrimalInf : σ → Bool
  isDualInf : σ → Bool
  isIterLimit : σ → Bool
  hitTime : σ → Bool
  objValue : σ → ℚ
  secondary : σ → ℕ
  sumPrimal : σ → ℚ
  sumDual : σ → ℚ
  /-- `setNumberIterations(0)` and `setMaximumSeconds(timeLimit)` with the time limit of the call -/
  timed : σ → σ
  resolve : σ → σ
  initialSolve : σ → σ
  cleanup : ℕ → σ → σ
  dualValuesPass : σ → σ
  setStatus2 : σ → σ
  enableFact : σ → σ
  disableFact : σ → σ
  /-- hot starts: `marked` says whether a hot start is in place -/
  marked : σ → Bool
  markHot : σ → σ
  unmarkHot : σ → σ
  solveHot : σ → σ
  colLower : σ → ℕ → ℚ
  colUpper : σ → ℕ → ℚ
  setColLower : ℕ → ℚ → σ → σ
  setColUpper : ℕ → ℚ → σ → σ
  rows : σ → List RowCut
  applyCuts : List RowCut → σ → σ
  applyRowCuts : List RowCut → σ → σ
  restoreBase : ℕ → σ → σ

variable {σ : Type} (I : SolverImpl σ)

/-- `solver->solveFromHotStart()`: without a marked hot start Clp dereferences its missing small
model, which is undefined behaviour. -/
def hotSolve (s : σ) : Res σ := if I.marked s then .ok (I.solveHot s) else .undef

/-- Change one bound (src/utility/SolverHelper.cpp:303-307, 310-314). -/
def setBound (isUB : Bool) (col : ℕ) (v : ℚ) (s : σ) : σ :=
  if isUB then I.setColUpper col v s else I.setColLower col v s

/-- The retry after a hot start that hit the iteration limit
(src/utility/SolverHelper.cpp:299-318). -/
def hotRetry (col : ℕ) (isUB : Bool) (orig new : ℚ) (viol : ℤ) (s : σ) : Res (σ × ℤ) :=
  let s := I.resolve (I.unmarkHot s)
  let s := I.markHot (I.resolve (setBound I isUB col orig s))
  let s := setBound I isUB col new s
  (hotSolve I s).bind fun s => .ok (s, if I.isIterLimit s then viol + 1 else viol)

/-- `solveFromHotStart` (src/utility/SolverHelper.cpp:276-333): result, solver state and the number
of violations. -/
def solveFromHotStart (col : ℕ) (isUB : Bool) (orig new : ℚ) (viol max : ℤ) (s : σ) :
    Res (Bool × σ × ℤ) :=
  if max < 0 then (hotSolve I s).bind fun s => .ok (I.isOptimal s, s, viol)
  else
    (if viol < max then
      (hotSolve I s).bind fun s =>
        if I.isIterLimit s then hotRetry I col isUB orig new (viol + 1) s else .ok (s, viol)
     else .ok (s, viol)).bind fun r =>
      let s := if r.2 ≥ max then
          (if max = 0 then I.markHot (I.initialSolve (I.unmarkHot r.1)) else I.resolve r.1)
        else r.1
      .ok (I.isOptimal s, s, r.2)

/-- The cleanup decision (src/utility/SolverHelper.cpp:372-383 and :431-444): `none` when nothing
is cleaned. -/
def cleanStep (s : σ) : Option σ :=
  if I.secondary s = 2 || !(isZero (I.sumPrimal s)) then some (I.cleanup 1 s)
  else if I.secondary s = 3 || I.secondary s = 9 || !(isZero (I.sumDual s)) then
    some (I.cleanup 2 s)
  else if I.secondary s = 4 then some (I.cleanup 1 s)
  else none

/-- The loop src/utility/SolverHelper.cpp:396-410; `infeas` is the value of the last iteration
(initially the largest double). -/
def resolveLoop (max : ℕ) (count : ℕ) (infeas : ℚ) (s : σ) : σ × ℕ :=
  if h : count < max then
    let curr := I.sumPrimal s + I.sumDual s
    if (!(isZero curr) && (decide (count = 0) || decide (curr < infeas))) || decide (count = 0) then
      resolveLoop max (count + 1) curr (I.resolve (I.timed s))
    else (s, count)
  else (s, count)
termination_by max - count

/-- End of `checkSolverOptimality` (src/utility/SolverHelper.cpp:453-475). -/
def checkTail (exitOnDual : Bool) (max count : ℕ) (s : σ) : Res (Bool × σ) :=
  if I.isPrimalInf s then .ok (false, s)
  else if !(I.isOptimal s) then
    let s := if count < max then I.resolve s else s
    if I.isPrimalInf s then .ok (false, s)
    else if I.isDualInf s then (if exitOnDual then .exit else .ok (false, s))
    else if !(I.isOptimal s) then .ok (false, s)
    else .ok (true, s)
  else .ok (true, s)

/-- The resolves of the Clp part after the first cleanup test
(src/utility/SolverHelper.cpp:389-428). -/
def checkResolves (max count : ℕ) (s : σ) : σ × ℕ :=
  let oldDual := I.isDualInf s
  let oldOpt := I.isOptimal s
  let (s, count) := resolveLoop I max count dblMax s
  let (s, count) :=
    if oldDual && I.isPrimalInf s then
      let s := I.dualValuesPass s
      if !(I.isDualInf s) && !(I.isOptimal s) then (I.setStatus2 s, max) else (s, count)
    else (s, count)
  if oldOpt && I.isPrimalInf s then
    (I.disableFact (I.resolve (I.timed (I.enableFact s))), count + 1)
  else (s, count)

/-- `checkSolverOptimality` (src/utility/SolverHelper.cpp:349-476). The recursive calls have
`maxNumResolves = 0`, for which only `checkTail` runs. `timeLimit` is used by `timed` only. -/
def checkSolverOptimality (exitOnDual : Bool) (max : ℕ) (s : σ) : Res (Bool × σ) :=
  if I.isClp && decide (max > 0) then
    let (s, count) := if I.isPrimalInf s then (I.resolve (I.timed s), 1) else (s, 0)
    if count < max then
      match cleanStep I s with
      | some s => checkTail I exitOnDual 0 0 s
      | none =>
        let (s, count) := checkResolves I max count s
        match cleanStep I s with
        | some s => checkTail I exitOnDual 0 0 s
        | none => checkTail I exitOnDual max count s
    else checkTail I exitOnDual max count s
  else checkTail I exitOnDual max 0 s

/-- `enableFactorization` (src/utility/SolverHelper.cpp:484-512); `flag = 1` re-solves from scratch,
other positive values re-solve. -/
def enableFactorization (EPS : ℚ) (flag : ℤ) (s : σ) : Bool × σ :=
  let s := I.enableFact s
  let s := if flag > 0 && (decide (I.sumPrimal s > EPS) || decide (I.sumDual s > EPS)) then
      I.enableFact (I.disableFact (if flag = 1 then I.initialSolve s else I.resolve s))
    else s
  (I.isOptimal s, s)

/-! ## Applying cuts -/

/-- The cuts `cs.rowCut(i)` for `i` in `start .. start+num-1`
(src/utility/SolverHelper.cpp:550-559); `none` when an index is out of range. -/
def cutRange (cs : List RowCut) (start : ℤ) (num : ℕ) : Option (List RowCut) :=
  if 0 ≤ start ∧ start + num ≤ cs.length then some ((cs.drop start.toNat).take num) else none

/-- The statements that add the cuts (src/utility/SolverHelper.cpp:534-569). -/
def addCuts (cs : List RowCut) (start num : ℤ) (s : σ) : Res σ :=
  if num > 0 then
    if start = 0 ∧ num = cs.length then .ok (I.applyCuts cs s)
    else match cutRange cs start num.toNat with
      | none => .undef
      | some l => .ok (I.applyRowCuts l s)
  else .ok s

/-- `checkSolverOptimality(solver, false)` with default arguments, keeping only the solver state
(include/common/SolverHelper.hpp:106-109: at most 2 resolves). -/
def recheck (s : σ) : Res σ := (checkSolverOptimality I false 2 s).bind fun r => .ok r.2

/-- After the cuts are added (src/utility/SolverHelper.cpp:571-610). -/
def afterCuts (compareObj : ℚ) (s : σ) : Res (ℚ × σ) :=
  (recheck I (if I.isOptimal s then I.resolve s else I.initialSolve s)).bind fun s =>
  if !(I.isOptimal s) && !(I.hitTime s) && !(I.isIterLimit s) then .exit
  else
    (if I.isOptimal s && decide (I.objValue s < compareObj) then recheck I (I.resolve s)
      else .ok s).bind fun s =>
    .ok (if I.isOptimal s then I.objValue s else dblMax, s)

/-- `applyCutsCustom` with a start index (src/utility/SolverHelper.cpp:517-611). A null solver is
dereferenced on line 525. Collections contain row cuts only (the code never creates column cuts). -/
def applyCutsFrom (solver : Option σ) (cs : List RowCut) (start overload : ℤ) (compareObj : ℚ) :
    Res (ℚ × σ) :=
  let num : ℤ := if overload ≥ 0 then overload else cs.length
  match solver with
  | none => .undef
  | some s =>
    (if !(I.isOptimal s) then recheck I (I.resolve s) else .ok s).bind fun s =>
    if !(I.isOptimal s) then .ok (dblMax, s)
    else
      (addCuts I cs start num s).bind
        (afterCuts I (if isNegInfinity compareObj then I.objValue s else compareObj))

/-- `applyCutsCustom` without a start index (src/utility/SolverHelper.cpp:618-622). -/
def applyCutsCustom (solver : Option σ) (cs : List RowCut) (overload : ℤ) (compareObj : ℚ) :
    Res (ℚ × σ) :=
  let num : ℤ := if overload ≥ 0 then overload else cs.length
  applyCutsFrom I solver cs 0 num compareObj

/-- `getObjValue` (src/utility/SolverHelper.cpp:627-644). -/
def getObjValue (s : σ) (cuts : Option (List RowCut)) : Res (ℚ × σ) :=
  match cuts with
  | some (c :: cs) =>
    (applyCutsCustom I (some s) (c :: cs) (-1) (-dblMax)).bind fun r =>
      .ok (r.1, I.restoreBase (I.rows s).length r.2)
  | _ =>
    if I.isOptimal s then .ok (I.objValue s, s)
    else if I.isPrimalInf s then .ok (dblMax, s)
    else .ok (-1 * dblMax, s)

/-- `VPCSolverInterface::applyCuts` (src/utility/VPCSolverInterface.cpp:233-272): returns the number
applied, the solver and the remaining collection. `mask` is `cutsToAdd` (`none` for null); reading
past its end is undefined. -/
def maskedApply : List Bool → List RowCut → σ → Res σ
  | _, [], s => .ok s
  | [], _ :: _, _ => .undef
  | b :: bs, c :: cs, s => maskedApply bs cs (if b then I.applyRowCuts [c] s else s)

/-- See `maskedApply`. `numApplied` is what Osi's `ApplyCutsReturnCode` reports. -/
def vpcApplyCuts (numApplied : List RowCut → σ → ℕ) (mask : Option (List Bool)) (clear : Bool)
    (cs : List RowCut) (s : σ) : Res (ℤ × σ × List RowCut) :=
  match mask with
  | some bs => (maskedApply I bs cs s).bind fun s' =>
      .ok (((I.rows s').length : ℤ) - (I.rows s).length, s', if clear then [] else cs)
  | none => .ok ((numApplied cs s : ℤ), I.applyCuts cs s, if clear then [] else cs)

end VPC
