import Verif.Model.Solver
import Verif.Model.BBTests
import Verif.Model.UserCuts
import Verif.Model.LogTable

/-!
# Objective sense of the problem that is solved in the branch-and-bound tests

The main program turns a maximization problem into a minimization problem when it reads it
(`initializeSolver`, src/utility/SolverHelper.cpp:64-79). Gurobi and CPLEX read the file again
(src/test/BBHelper.cpp:204-282), Cbc gets the solver object (:288-304).  The solvers are external: a run is
the solution it ends with.  Rounding is not modelled.
-/
namespace VPC

/-- The objective of the problem that the test solves: `fullfilename` is given to Gurobi
(src/test/BBHelper.cpp:229-242) and CPLEX (:270-282), `runSolver` to Cbc (:289-304). -/
def solvedObjective (s : BBSolver) (file : Objective) : Objective :=
  match s with
  | .gurobi | .cplex => file
  | .cbc => toMinimization file

/-- The record of a run that ended with the solution `x`: `info.obj` is the objective value that the solver
reports (src/test/GurobiHelper.cpp:420-435, src/test/CplexHelper.cpp:676, :691, src/test/CbcHelper.cpp:281). The other fields do
not matter here. -/
def senseRecord (s : BBSolver) (file : Objective) (x : List ℚ) : BBInfo :=
  { obj := (solvedObjective s file).value x }

/-- The objective value in the summary over the runs with solutions `xs`: `updateBestBBInfo` is called after
every run (src/test/BBHelper.cpp:319-321). -/
def senseBest (s : BBSolver) (file : Objective) (xs : List (List ℚ)) : ℚ :=
  (bestOver {} (xs.map (senseRecord s file))).obj

/-- Does Gurobi stop at the bound `b`, for the calls `l` made on its model?  External: BestBdStop ends the run
as soon as the bound is at least as good as the given value, that is at least as large for minimization and at
least as small for maximization (src/test/GurobiHelper.cpp:91-95 sets it for minimization). -/
def stopsAtBound (file : Objective) (l : List GrbSet) (b : ℚ) : Bool :=
  l.any fun c => match c with
    | .bestBdStop v => if file.sense < 1 / 10 ^ 3 then decide (b ≤ v) else decide (v ≤ b)
    | _ => false

end VPC
