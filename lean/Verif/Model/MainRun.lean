import Verif.Model.DisjOpts
import Verif.Model.Files
import Verif.Model.Prep
import Verif.Model.UserCuts
import Verif.Model.VecOps

/-!
# The main program from the parameters to the rounds of cuts
(src/main.cpp:174-377, :462-839, :999-1037)

The LP solver, Gurobi, the file system and what happens inside the rounds are external (`MainWorld`).
Timers and printing are not part of this file (see `Timer`, `LogTable`, `RoundFile`).
-/
namespace VPC

/-- `boundInfo.ip_obj` after the parameter was looked at (src/main.cpp:1018-1020;
include/test/analysis.hpp:36). -/
def givenOptimum (ipParam : ℚ) : ℚ := if !isInfinity ipParam then ipParam else dblMax

/-- `params.set(doubleParam::IP_OBJ, v)`; a value that is not allowed ends the process
(src/main.cpp:1029, :263, :351). -/
def setIpObj (p : Params) (v : ℚ) : Res Params :=
  match p.setD .IP_OBJ v with
  | none => .exit
  | some q => .ok q

/-- The value of a parameter of text type. -/
def Params.text (p : Params) (i : StrId) : List Char := (p.strs i).2.toList

/-- What was read from the file becomes the optimum (src/main.cpp:1029-1034). `throw;` without an exception
ends in the signal handler (src/main.cpp:156-168). -/
def takeLookup (p : Params) : ObjLookup → Res (ℚ × Params)
  | .value v => (setIpObj p v).bind fun q => .ok (v, q)
  | .lowest => (setIpObj p (-dblMax)).bind fun q => .ok (-dblMax, q)
  | .exit1 => .exit
  | .terminate => .exit

/-- Is the file of known optima read (src/main.cpp:1022-1025)? -/
def readsOptFile (b : ℚ) (optfile : List Char) : Bool :=
  isInfinity b && optfile ≠ [] && hasExt optfile ".csv".toList

/-- The optimum known when the program starts, and the parameters (src/main.cpp:1018-1035). `lines`: the
content of the file OPTFILE. -/
def knownAtStart (stod : List Char → Option ℚ) (lines : Option (List (List Char))) (p : Params) :
    Res (ℚ × Params) :=
  if readsOptFile (givenOptimum (p.dbls .IP_OBJ).val) (p.text .OPTFILE) then
    takeLookup p (getObjValueFromFile stod (p.text .OPTFILE) (p.text .FILENAME) lines)
  else .ok (givenOptimum (p.dbls .IP_OBJ).val, p)

/-- A call of `doBranchAndBoundWithGurobi` (src/main.cpp:331-333). -/
structure GrbCall where
  strategy : BitVec 32
  file : List Char
  best : ℚ
  solfile : List Char

/-- Everything outside. `prob`: the problem after `initializeSolver`; `lp`: value and solution of its LP
relaxation if `checkSolverOptimality` accepts it; `frac`: `getFractionalIndices(AWAY)`; `fexists`;
`gurobi`: the solution that Gurobi leaves (`none` inside: it ends the process), empty if it finds none. -/
structure MainWorld where
  stod : List Char → Option ℚ
  optLines : Option (List (List Char))
  prob : Inst
  lp : Option (ℚ × List ℚ)
  frac : List ℕ
  fexists : List Char → Bool
  hasGurobi : Bool
  gurobi : GrbCall → Res (List ℚ)
  prep : PrepWorld
  logOpen : Bool
  rounds : ℕ → RoundWorld

/-- `dir + "/" + instname + "_gurobi.mst.gz"` (src/main.cpp:321; `dir`, `instname` from
src/main.cpp:1001). -/
def startFile (file : List Char) : List Char :=
  (parseFilename ⟨[], [], []⟩ file).2.dir ++ "/".toList ++ (parseFilename ⟨[], [], []⟩ file).2.inst ++
    "_gurobi.mst.gz".toList

/-- `SOLFILE` as it is when Gurobi is called (src/main.cpp:320-326). -/
def findSolfile (fexists : List Char → Bool) (p : Params) : List Char :=
  if p.text .SOLFILE = [] ∧ fexists (startFile (p.text .FILENAME)) = true then
    startFile (p.text .FILENAME)
  else p.text .SOLFILE

/-- The strategy given to Gurobi (src/main.cpp:318, :328-330). -/
def solutionStrategy (s : BitVec 32) (solfile : List Char) : BitVec 32 :=
  if solfile ≠ [] ∧ useBB s .use_best_bound = false then enableBB s .use_best_bound else s

/-- The call made for the optimal solution (src/main.cpp:318-333). -/
def solutionCall (fexists : List Char → Bool) (p : Params) (best : ℚ) : GrbCall :=
  { strategy := solutionStrategy (BitVec.ofInt 32 (p.ints .BB_STRATEGY).val) (findSolfile fexists p)
    file := p.text .FILENAME
    best := best
    solfile := findSolfile fexists p }

/-- Is a solution looked for (src/main.cpp:314)? The parameter is compared, not tested for the bit. -/
def wantsSolution (temp : ℤ) : Bool := decide (temp = 8)

/-- `ip_solution` (src/main.cpp:310-333). -/
def findSolution (w : MainWorld) (p : Params) (best : ℚ) : Res (List ℚ) :=
  if wantsSolution (p.ints .TEMP).val && w.hasGurobi then w.gurobi (solutionCall w.fexists p best) else .ok []

/-- `dotProduct(ip_solution.data(), solver->getObjCoefficients(), solver->getNumCols())`
(src/main.cpp:350). -/
def solutionValue (I : Inst) (x : List ℚ) : Res ℚ :=
  match dotDense id true x I.cost I.cost.length with
  | none => .undef
  | some v => .ok v

/-- The optimum after the search for a solution (src/main.cpp:348-356); the parameters also keep the name of
the solution file (:324). -/
def afterSolution (I : Inst) (best : ℚ) (p : Params) (x : List ℚ) : Res (ℚ × Params) :=
  if x.length > 0 ∧ isInfinity |best| = true then
    (solutionValue I x).bind fun v => (setIpObj p v).bind fun q => .ok (v, q)
  else .ok (best, p)

/-- `SOLFILE` after the search (src/main.cpp:320-326). -/
def keepSolfile (w : MainWorld) (p : Params) : Params :=
  if wantsSolution (p.ints .TEMP).val && w.hasGurobi then
    p.setS .SOLFILE (String.ofList (findSolfile w.fexists p))
  else p

/-- How the main program ends. -/
inductive MainEnd
  /-- the LP relaxation is integral (src/main.cpp:288-291) -/
  | integral
  /-- preprocessing (src/main.cpp:361-369) -/
  | cleaned (o : PrepOut)
  /-- the options could not be read (src/main.cpp:374-377) -/
  | badOptions
  /-- rounds of cuts (src/main.cpp:462-839) -/
  | cuts (s : MainState) (rounds : ℕ)

/-- Result of a run that reaches `wrapUp`: return code, exit reason, optimum used in all reports, how it
ended, parameters at the end. -/
structure MainOut where
  code : ℤ
  reason : ExitReason
  ipObj : ℚ
  phase : MainEnd
  params : Params

/-- `VPCMode` from the value of the parameter (include/VPCParameters.hpp:198-205). -/
def modeOf (v : ℤ) : Mode :=
  if v = 0 then .PARTIAL_BB else if v = 1 then .SPLITS else if v = 2 then .CROSSES
  else if v = 3 then .CUSTOM else .DISJ_SET_PBB

/-- The configuration of the rounds (src/main.cpp:462-560). -/
def mainCfg (p : Params) (opts : List ℤ) : MainCfg :=
  { gomory := (p.ints .GOMORY).val
    mode := modeOf (p.ints .MODE).val
    disjOptions := opts
    cutLimit := (p.ints .CUTLIMIT).val
    flipBeta := decide ((p.ints .PRLP_FLIP_BETA).val > 0)
    prlpTimeLimit := (p.dbls .PRLP_TIMELIMIT).val }

/-- The rounds of cuts (src/main.cpp:372-377, :462-839). -/
def cutPhase (w : MainWorld) (best : ℚ) (p : Params) : Res MainOut :=
  (mainOptions w.logOpen (p.text .DISJ_OPTIONS) (modeOf (p.ints .MODE).val) (p.ints .ROUNDS).val).bind
    fun a => match a with
    | .stops code => .ok ⟨code, .UNKNOWN, best, .badOptions, p⟩
    | .goesOn opts =>
      (mainRounds (mainCfg p opts) w.rounds (p.ints .ROUNDS).val.toNat (p.ints .DISJ_TERMS).val).bind
        fun r => .ok ⟨0, r.1.reason, best, .cuts r.1 r.2, p⟩

/-- Preprocessing instead of cuts (src/main.cpp:359-369). -/
def prepPhase (w : MainWorld) (best : ℚ) (p : Params) : Res MainOut :=
  match p.setI .BB_MODE 1 with
  | none => .exit
  | some q =>
    (performCleaning (BitVec.ofInt 32 (q.ints .BB_STRATEGY).val) (q.ints .PREPROCESS).val best w.prep
      w.prob).bind fun o => .ok ⟨0, .UNKNOWN, best, .cleaned o, q⟩

/-- After the known optimum (src/main.cpp:359-377, :462-839). -/
def workPhase (w : MainWorld) (best : ℚ) (p : Params) : Res MainOut :=
  if (p.ints .PREPROCESS).val ≠ 0 then prepPhase w best p else cutPhase w best p

/-- From the solved LP relaxation on (src/main.cpp:256-356). -/
def afterLp (w : MainWorld) (lp : ℚ) (best : ℚ) (p : Params) : Res MainOut :=
  if w.frac = [] then
    (setIpObj p lp).bind fun q => .ok ⟨0, .OPTIMAL_SOLUTION_FOUND, lp, .integral, q⟩
  else
    (findSolution w p best).bind fun x =>
    (afterSolution w.prob best (keepSolfile w p) x).bind fun r => workPhase w r.1 r.2

/-- The main program, from the parameters (src/main.cpp:174-894). -/
def mainRun (w : MainWorld) (p : Params) : Res MainOut :=
  (knownAtStart w.stod w.optLines p).bind fun k =>
  match w.lp with
  | none => .exit
  | some l => afterLp w l.1 k.1 k.2

end VPC
