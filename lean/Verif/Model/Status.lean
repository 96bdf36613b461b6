import Verif.Model.SolverOps

/-!
# Status of variables for solvers of any kind (src/utility/SolverHelper.cpp:645-802,
include/common/SolverHelper.hpp:140-361)

Each function has a branch for Clp, compiled with `USE_CLP`, and a branch that asks `getBasisStatus`
(external). The first is inside `try … catch`, but `dynamic_cast` of a pointer returns null instead of throwing,
and using the null pointer is undefined.
-/
namespace VPC

/-- A solver object as these functions see it: whether the program was built with `USE_CLP`, whether the object is an
`OsiClpSolverInterface`, what Clp stores, and what `getBasisStatus` writes. -/
structure StatSolver where
  useClp : Bool
  isClp : Bool
  info : BasisInfo
  cstat : List ℤ
  rstat : List ℤ

/-- The two branches: `clp` is the answer of the first one; `l[i] = k` that of the second one.  `&cstat[0]` and
`&rstat[0]` of an empty vector, and an index out of range, are undefined
(the shape of all functions in src/utility/SolverHelper.cpp:645-802). -/
def StatSolver.ask (s : StatSolver) (clp : Bool) (l : List ℤ) (i : ℕ) (k : ℤ) : Res Bool :=
  if s.useClp then (if s.isClp then .ok clp else .undef)
  else if s.cstat = [] ∨ s.rstat = [] then .undef
  else match l[i]? with
    | some v => .ok (decide (v = k))
    | none => .undef

/-- `isBasicCol(solver, col)` (src/utility/SolverHelper.cpp:647-659, include/common/SolverHelper.hpp:173-179). -/
def StatSolver.basicCol (s : StatSolver) (c : ℕ) : Res Bool := s.ask (isBasicVar (s.info.colStatus c)) s.cstat c 1

/-- `isNonBasicFreeCol` (src/utility/SolverHelper.cpp:661-673). -/
def StatSolver.freeCol (s : StatSolver) (c : ℕ) : Res Bool :=
  s.ask (isNonBasicFreeVar (s.info.colStatus c)) s.cstat c 0

/-- `isNonBasicUBCol` (src/utility/SolverHelper.cpp:675-690, include/common/SolverHelper.hpp:183-189). -/
def StatSolver.ubCol (s : StatSolver) (c : ℕ) : Res Bool :=
  s.ask (isNonBasicUBCol (s.info.colStatus c) (s.info.reducedCost c)) s.cstat c 2

/-- `isNonBasicLBCol` (src/utility/SolverHelper.cpp:692-707, include/common/SolverHelper.hpp:193-199). -/
def StatSolver.lbCol (s : StatSolver) (c : ℕ) : Res Bool :=
  s.ask (isNonBasicLBCol (s.info.colStatus c) (s.info.reducedCost c)) s.cstat c 3

/-- `isNonBasicFixedCol` (src/utility/SolverHelper.cpp:709-721). -/
def StatSolver.fixedCol (s : StatSolver) (c : ℕ) : Res Bool :=
  s.ask (decide (s.info.colStatus c = .isFixed)) s.cstat c 5

/-- `isBasicSlack` (src/utility/SolverHelper.cpp:723-735, include/common/SolverHelper.hpp:204-210). -/
def StatSolver.basicRow (s : StatSolver) (r : ℕ) : Res Bool := s.ask (isBasicVar (s.info.rowStatus r)) s.rstat r 1

/-- `isNonBasicFreeSlack` (src/utility/SolverHelper.cpp:737-749). -/
def StatSolver.freeRow (s : StatSolver) (r : ℕ) : Res Bool :=
  s.ask (isNonBasicFreeVar (s.info.rowStatus r)) s.rstat r 0

/-- `isNonBasicUBSlack` (src/utility/SolverHelper.cpp:751-770, include/common/SolverHelper.hpp:214-220). -/
def StatSolver.ubRow (s : StatSolver) (r : ℕ) : Res Bool :=
  s.ask (isNonBasicUBSlack (s.info.rowStatus r) (s.info.rowPrice r)) s.rstat r 2

/-- `isNonBasicLBSlack` (src/utility/SolverHelper.cpp:772-789, include/common/SolverHelper.hpp:224-230). -/
def StatSolver.lbRow (s : StatSolver) (r : ℕ) : Res Bool :=
  s.ask (isNonBasicLBSlack (s.info.rowStatus r) (s.info.rowPrice r)) s.rstat r 3

/-- `isNonBasicFixedSlack` (src/utility/SolverHelper.cpp:791-802). -/
def StatSolver.fixedRow (s : StatSolver) (r : ℕ) : Res Bool :=
  s.ask (decide (s.info.rowStatus r = .isFixed)) s.rstat r 5

/-- The aliases for a variable that is a column or a slack (include/common/SolverHelper.hpp:293-361). In
`isBasicVar(solver, var)` Clp is asked with `getStatus(var)`, which numbers the rows after the columns. -/
def StatSolver.either (s : StatSolver) (col row : StatSolver → ℕ → Res Bool) (var : ℕ) : Res Bool :=
  if var < s.info.numCols then col s var else row s (var - s.info.numCols)

/-- `isBasicVar(solver, var)` (include/common/SolverHelper.hpp:293-305). -/
def StatSolver.basicVar (s : StatSolver) : ℕ → Res Bool := s.either StatSolver.basicCol StatSolver.basicRow

/-- `isNonBasicLBVar(solver, var)` (include/common/SolverHelper.hpp:312-317). -/
def StatSolver.lbVar (s : StatSolver) : ℕ → Res Bool := s.either StatSolver.lbCol StatSolver.lbRow

/-- `isNonBasicUBVar(solver, var)` (include/common/SolverHelper.hpp:324-329). -/
def StatSolver.ubVar (s : StatSolver) : ℕ → Res Bool := s.either StatSolver.ubCol StatSolver.ubRow

/-- `isNonBasicFreeVar(solver, var)` (include/common/SolverHelper.hpp:336-341). -/
def StatSolver.freeVar (s : StatSolver) : ℕ → Res Bool := s.either StatSolver.freeCol StatSolver.freeRow

/-- `isNonBasicFixedVar(solver, var)` (include/common/SolverHelper.hpp:346-351). -/
def StatSolver.fixedVar (s : StatSolver) : ℕ → Res Bool := s.either StatSolver.fixedCol StatSolver.fixedRow

/-- `isRayVar(solver, var)` (include/common/SolverHelper.hpp:359-361). -/
def StatSolver.rayVar (s : StatSolver) (var : ℕ) : Res Bool := (s.basicVar var).bind fun b => Res.ok (!b)

end VPC
