import Verif.Model.Clean
import Verif.Model.BBTests

/-!
# The preprocessing mode (`performCleaning`, src/utility/preprocess.cpp:42-270)

The presolvers of Gurobi and CPLEX, the LP solver and the branch-and-bound tests are external
(`PrepWorld`). File names are not modelled: what is read back is what the presolver wrote, or what happens
to be there.
-/
namespace VPC

/-- An instance as an `OsiSolverInterface` holds it. -/
structure Inst where
  relax : Relax
  cost : List ℚ
  offset : ℚ := 0
  sense : ℚ := 1
  isInt : ℕ → Bool

/-- A solver into which nothing could be read: `readMps` of a missing file only returns an error code,
which is not looked at (src/utility/preprocess.cpp:118). -/
def Inst.empty : Inst := ⟨⟨[], [], []⟩, [], 0, 1, fun _ => false⟩

/-- `getMatrixByRow()->getNumElements()`. -/
def Inst.nnz (I : Inst) : ℕ := (I.relax.rows.map (·.coeffs.length)).sum

/-- The change to a minimization problem (src/utility/preprocess.cpp:145-160). -/
def Inst.minimise (I : Inst) : Inst :=
  if I.sense < 1 / 1000 then { I with sense := 1, cost := I.cost.map (-1 * ·), offset := -1 * I.offset }
  else I

/-- `getRightHandSide()[row]`. -/
def MRow.rightHandSide (r : MRow) : ℚ := r.ub.getD (r.lb.getD 0)

/-- `isVal` of two bounds that may be infinite. -/
def sameBound : Option ℚ → Option ℚ → Bool
  | none, none => true
  | some a, some b => isVal a b
  | _, _ => false

/-- Positions in which two lists of equal length differ; lists of different length are not compared
(src/utility/preprocess.cpp:124-143). -/
def countDiff {α : Type} (same : α → α → Bool) (a b : List α) : ℕ :=
  if a.length = b.length then (a.zip b).countP fun p => !(same p.1 p.2) else 0

/-- The changes noticed after presolving (src/utility/preprocess.cpp:120-143): right-hand sides and bounds
of columns, nothing else. -/
def presolveDiff (I J : Inst) : ℕ :=
  countDiff (fun r s => isVal (MRow.rightHandSide r) (MRow.rightHandSide s)) I.relax.rows J.relax.rows
  + countDiff sameBound I.relax.lo J.relax.lo + countDiff sameBound I.relax.hi J.relax.hi

/-- The loop of calls of `cleanProblem` (src/utility/preprocess.cpp:176-182); `k` is the number of the next
call, `w k` what the solvers answer in it. The LP is not solved again between two calls. The first argument
is the number of calls still allowed. -/
def cleanLoop (I : Inst) (w : ℕ → CleanEnv) : ℕ → ℕ → Relax → ℕ → ℕ → Res (Relax × ℕ × ℕ)
  | 0, _, P, nb, sb => .ok (P, nb, sb)
  | f + 1, k, P, nb, sb =>
    (cleanProblem P { w k with sense := I.sense, isInt := I.isInt }).bind fun s =>
    if s.clean then .ok (s.bs, nb + s.numBounds, sb + s.numSB)
    else cleanLoop I w f (k + 1) s.bs (nb + s.numBounds) (sb + s.numSB)

/-- What is outside. `presolved`: what the presolver writes (`none`: it ends the process), `leftover`: what is
in the file if no presolver is run, `lp`: value of the LP relaxation if the solver finds it, `bb`: the
branch-and-bound tests (`runBBTests`, see C82-C85). -/
structure PrepWorld where
  hasGurobi : Bool
  hasCplex : Bool
  presolved : Option Inst
  leftover : Option Inst
  clean : ℕ → CleanEnv
  lp : Inst → Option ℚ
  bb : Inst → Res SummaryBB

/-- The instance that is read back (src/utility/preprocess.cpp:92-118): with mode 2 and no presolver the name
of the file is empty. -/
def readBack (strategy : BitVec 32) (mode : ℤ) (w : PrepWorld) : Res Inst :=
  if useBB strategy .gurobi && !w.hasGurobi then .exit
  else if useBB strategy .cplex && !w.hasCplex then .exit
  else if useBB strategy .gurobi || useBB strategy .cplex then
    match w.presolved with
    | none => .exit
    | some I => .ok I
  else if mode ≤ 1 then .ok (w.leftover.getD Inst.empty)
  else .ok Inst.empty

/-- `was_cleaned` (src/utility/preprocess.cpp:203-205). -/
def wasCleaned (orig cleaned : Inst) (nb sb : ℕ) : Bool :=
  decide (sb > 0) || decide (nb > 0) || decide (cleaned.relax.lo.length ≠ orig.relax.lo.length)
    || decide (cleaned.relax.rows.length ≠ orig.relax.rows.length) || decide (cleaned.nnz ≠ orig.nnz)

/-- What is printed and saved. -/
structure PrepOut where
  cleaned : Inst
  cleanedLp : ℚ
  origBB : SummaryBB
  cleanedBB : SummaryBB
  boundsChanged : ℕ
  sbFixed : ℕ

/-- The custom cleaning (src/utility/preprocess.cpp:172-193): the instance, the two counters and the LP
value. -/
def customClean (mode : ℤ) (w : PrepWorld) (I : Inst) (nb : ℕ) (lp : ℚ) : Res (Inst × ℕ × ℕ × ℚ) :=
  if mode > 1 then
    (cleanLoop I w.clean 5 0 I.relax nb 0).bind fun r =>
    if r.2.1 > 0 ∨ r.2.2 > 0 then
      match w.lp { I with relax := r.1 } with
      | none => .exit
      | some v => .ok ({ I with relax := r.1 }, r.2.1, r.2.2, v)
    else .ok ({ I with relax := r.1 }, r.2.1, r.2.2, lp)
  else .ok (I, nb, 0, lp)

/-- The branch-and-bound tests for the cleaned instance (src/utility/preprocess.cpp:201-247). -/
def cleanedTests (w : PrepWorld) (orig cleaned : Inst) (nb sb : ℕ) (origBB : SummaryBB) : Res SummaryBB :=
  if cleaned.nnz > 0 && wasCleaned orig cleaned nb sb then w.bb cleaned
  else if cleaned.nnz = 0 then .ok {}
  else .ok origBB

/-- `performCleaning` (src/utility/preprocess.cpp:42-270). -/
def performCleaning (strategy : BitVec 32) (mode : ℤ) (ipObj : ℚ) (w : PrepWorld) (orig : Inst) : Res PrepOut :=
  (w.bb orig).bind fun origBB =>
  (readBack strategy mode w).bind fun I0 =>
  match w.lp I0.minimise with
  | none => .exit
  | some v0 =>
    (customClean mode w I0.minimise (presolveDiff orig I0) v0).bind fun c =>
    (cleanedTests w orig c.1 c.2.1 c.2.2.1 origBB).bind fun cb =>
    .ok ⟨c.1, if c.1.nnz > 0 then c.2.2.2 else ipObj, origBB, cb, c.2.1, c.2.2.1⟩

end VPC
