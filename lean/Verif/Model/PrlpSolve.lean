import Verif.Model.SolverOps
import Verif.Model.GenCut

/-!
# Solving the point-ray LP for one objective (src/cut/PRLP.cpp:512-569) and the settings of LP solvers
(src/utility/SolverHelper.cpp:106-175)

The LP solver is external: `SolverImpl` with the additional queries used here.
-/
namespace VPC

/-- What `resolvePRLP` uses besides the operations of `SolverImpl`: `isAbandoned()`, whether the objective
value is NaN, `setNumberIterations(0)` and `setMaximumSeconds`. -/
structure PrlpImpl (σ : Type) where
  base : SolverImpl σ
  abandoned : σ → Bool
  nanObj : σ → Bool
  resetIter : σ → σ
  setSeconds : ℚ → σ → σ

variable {σ : Type} (p : PrlpImpl σ)

/-- The operations as used by `checkSolverOptimality(this, false, timeLimit)`:
src/utility/SolverHelper.cpp:364-365, 404-405, 423-424. -/
def PrlpImpl.within (t : ℚ) : SolverImpl σ :=
  { p.base with timed := fun s => p.setSeconds t (p.resetIter s) }

/-- `checkSolverOptimality(this, false, timeLimit)` (src/cut/PRLP.cpp:529, 541, 550), with at most two resolves
(include/common/SolverHelper.hpp:109). Its result is not used. -/
def prlpCheck (t : ℚ) (s : σ) : Res σ := recheck (p.within t) s

/-- The retry after a NaN objective value (src/cut/PRLP.cpp:531-542). -/
def prlpNanRetry (t : ℚ) (s : σ) : Res σ :=
  if !(p.base.isPrimalInf s) && p.nanObj s then
    prlpCheck p t (p.base.initialSolve (p.setSeconds t (p.resetIter s)))
  else .ok s

/-- The retry after an objective value of minus infinity (src/cut/PRLP.cpp:544-551); the number of iterations is not
reset. A comparison with NaN is false. -/
def prlpInfRetry (INF t : ℚ) (s : σ) : Res σ :=
  if p.base.isOptimal s && (!(p.nanObj s) && isNegInfinity (p.base.objValue s) (-INF)) then
    prlpCheck p t (p.base.initialSolve (p.setSeconds t s))
  else .ok s

/-- `resolvePRLP` up to its return value (src/cut/PRLP.cpp:512-551); `t` is the time limit: TIMELIMIT if
`tryExtraHard`, otherwise PRLP_TIMELIMIT. -/
def prlpResolve (INF t : ℚ) (s : σ) : Res σ :=
  (prlpCheck p t (p.base.resolve (p.setSeconds t (p.resetIter s)))).bind fun s =>
  (prlpNanRetry p t s).bind fun s => prlpInfRetry p INF t s

/-- The return value (src/cut/PRLP.cpp:553-569): `none` is 0, `some f` is `-(f+1)`. -/
def prlpCode (s : σ) : Option Fail :=
  if p.base.isOptimal s then none
  else if p.base.isDualInf s then some .DUAL_INFEASIBLE
  else if p.base.isIterLimit s then some .ITERATION_LIMIT
  else if p.base.hitTime s then some .TIME_LIMIT
  else if p.abandoned s then some .ABANDONED
  else some .UNKNOWN

/-- The status in the form used by `genCut` (Model/GenCut.lean), with the solution `sol s`. -/
def prlpStatus (sol : σ → List ℚ) (s : σ) : Solve :=
  if p.base.isOptimal s then .optimal (sol s)
  else if p.base.isDualInf s then .dualInfeasible
  else if p.base.isIterLimit s then .iterationLimit
  else if p.base.hitTime s then .timeLimit
  else if p.abandoned s then .abandoned
  else .other

/-! ## Settings -/

/-- The settings of an `OsiClpSolverInterface` that are changed: log level of the interface and of the model,
`maximumSeconds`, the two presolve hints, `OsiMaxNumIterationHotStart`, `specialOptions` and the model's
`moreSpecialOptions`. -/
structure ClpSettings where
  osiLog : ℤ
  clpLog : ℤ
  seconds : ℚ
  presolveInitial : Bool
  presolveResolve : Bool
  hotIter : ℤ
  special : ℤ
  moreSpecial : ℤ
deriving DecidableEq, Repr

/-- Any solver: an `OsiClpSolverInterface`, or another class (with its log level and presolve hints). -/
inductive AnySolver
  | clp (c : ClpSettings)
  | other (osiLog : ℤ) (presolveInitial presolveResolve : Bool)
deriving DecidableEq, Repr

/-- `setTimeLimit` (src/utility/SolverHelper.cpp:123-131). For a pointer, a failed `dynamic_cast` gives a null
pointer, not an exception: it is dereferenced. -/
def setTimeLimit (t : ℚ) : AnySolver → Res AnySolver
  | .clp c => .ok (.clp { c with seconds := t })
  | .other .. => .undef

/-- `hitTimeLimit` (src/utility/SolverHelper.cpp:133-143); `hit` is `hitMaximumIterations()`. -/
def hitTimeLimit (hit : ClpSettings → Bool) : AnySolver → Res Bool
  | .clp c => .ok (hit c)
  | .other .. => .undef

/-- `setLPSolverParameters` (src/utility/SolverHelper.cpp:106-121). -/
def setLPSolverParameters (verbosity : ℤ) (t : ℚ) : AnySolver → Res AnySolver
  | .clp c => setTimeLimit t (.clp (if verbosity = 0 then { c with osiLog := 0, clpLog := 0 } else c))
  | .other l a b => if verbosity = 0 then .undef else setTimeLimit t (.other l a b)

/-- `setupClpForStrongBranching` (src/utility/SolverHelper.cpp:151-154). -/
def setupClpForStrongBranching (hot : ℤ) (c : ClpSettings) : ClpSettings :=
  { c with hotIter := hot, special := 16 }

/-- `setupClpForCbc` (src/utility/SolverHelper.cpp:159-175): the option 256 is added, not combined bitwise; an
`int` overflow is undefined. -/
def setupClpForCbc (verbosity : ℤ) (t : ℚ) (hot : ℤ) (s : AnySolver) : Res AnySolver :=
  (setLPSolverParameters verbosity t s).bind fun s => match s with
    | .other .. => .undef
    | .clp c =>
      let c := setupClpForStrongBranching hot { c with presolveInitial := false, presolveResolve := false }
      if c.moreSpecial + 256 > 2 ^ 31 - 1 then .undef
      else .ok (.clp { c with moreSpecial := c.moreSpecial + 256 })

end VPC
