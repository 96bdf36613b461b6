import Verif.Model.Params
import Verif.Model.Disj

/-!
# Branch-and-bound tests (src/test/BBHelper.cpp)

Doubles are rationals without rounding, `long` counters do not overflow. The solver that is run, the
clock and the shuffles are parameters (`BBWorld`).
-/
namespace VPC

/-- `BBInfo` (include/test/BBHelper.hpp:26-38). -/
structure BBInfo where
  obj : ℚ := 0
  bound : ℚ := 0
  iters : ℤ := 0
  nodes : ℤ := 0
  rootPasses : ℤ := 0
  firstCutPass : ℚ := 0
  lastCutPass : ℚ := 0
  rootIters : ℤ := 0
  rootTime : ℚ := 0
  lastSolTime : ℚ := 0
  time : ℚ := 0
deriving DecidableEq, Repr

/-- `CoinMin` / `CoinMax` (external, CoinHelperFunctions.hpp), the first value if `first`
(src/test/BBHelper.cpp:346-356). -/
def bestMin {α : Type} [LT α] [DecidableLT α] (first : Bool) (best cur : α) : α :=
  if first then cur else if best < cur then best else cur

/-- The `CoinMax` counterpart (src/test/BBHelper.cpp:347, :351-352). -/
def bestMax {α : Type} [LT α] [DecidableLT α] (first : Bool) (best cur : α) : α :=
  if first then cur else if cur < best then best else cur

/-- `updateBestBBInfo` (src/test/BBHelper.cpp:345-357). -/
def updateBestBBInfo (b c : BBInfo) (first : Bool) : BBInfo where
  obj := bestMin first b.obj c.obj
  bound := bestMax first b.bound c.bound
  iters := bestMin first b.iters c.iters
  nodes := bestMin first b.nodes c.nodes
  rootPasses := bestMin first b.rootPasses c.rootPasses
  firstCutPass := bestMax first b.firstCutPass c.firstCutPass
  lastCutPass := bestMax first b.lastCutPass c.lastCutPass
  rootIters := bestMin first b.rootIters c.rootIters
  rootTime := bestMin first b.rootTime c.rootTime
  lastSolTime := bestMin first b.lastSolTime c.lastSolTime
  time := bestMin first b.time c.time

/-- The calls of `updateBestBBInfo` in the loop over the runs (src/test/BBHelper.cpp:319-321). -/
def bestOver : BBInfo → List BBInfo → BBInfo
  | b, [] => b
  | b, r :: rs => rs.foldl (fun b r => updateBestBBInfo b r false) (updateBestBBInfo b r true)

/-- One step of the first loop of `averageBBInfo` (src/test/BBHelper.cpp:360-372). -/
def addBBInfo (a c : BBInfo) : BBInfo where
  obj := a.obj + c.obj
  bound := a.bound + c.bound
  iters := a.iters + c.iters
  nodes := a.nodes + c.nodes
  rootPasses := a.rootPasses + c.rootPasses
  firstCutPass := a.firstCutPass + c.firstCutPass
  lastCutPass := a.lastCutPass + c.lastCutPass
  rootIters := a.rootIters + c.rootIters
  rootTime := a.rootTime + c.rootTime
  lastSolTime := a.lastSolTime + c.lastSolTime
  time := a.time + c.time

/-- The divisions of `averageBBInfo` (src/test/BBHelper.cpp:373-384); integers are divided with
truncation. -/
def divBBInfo (a : BBInfo) (n : ℕ) : BBInfo where
  obj := a.obj / n
  bound := a.bound / n
  iters := a.iters.tdiv n
  nodes := a.nodes.tdiv n
  rootPasses := a.rootPasses.tdiv n
  firstCutPass := a.firstCutPass / n
  lastCutPass := a.lastCutPass / n
  rootIters := a.rootIters.tdiv n
  rootTime := a.rootTime / n
  lastSolTime := a.lastSolTime / n
  time := a.time / n

/-- `averageBBInfo` (src/test/BBHelper.cpp:359-385); called with at least one run. -/
def averageBBInfo (avg : BBInfo) (info : List BBInfo) : BBInfo :=
  divBBInfo (info.foldl addBBInfo avg) info.length

/-- `SummaryBBInfo` (include/test/BBHelper.hpp:57-61). -/
structure SummaryBB where
  numCuts : ℕ := 0
  first : BBInfo := {}
  best : BBInfo := {}
  avg : BBInfo := {}
  vec : List BBInfo := []
deriving DecidableEq, Repr

/-- The end of `runBBTests` for one configuration (src/test/BBHelper.cpp:319-341). -/
def summarize (s : SummaryBB) (numCuts : ℕ) (runs : List BBInfo) : SummaryBB where
  numCuts := numCuts
  first := runs.headD {}
  best := bestOver s.best runs
  avg := averageBBInfo s.avg runs
  vec := runs

/-! ## The problem given to the solver -/

/-- A mixed-integer program as an `OsiSolverInterface` holds it: `m` rows, `n` columns; `none` is an
infinite bound. -/
structure Mip where
  m : ℕ
  n : ℕ
  a : ℕ → ℕ → ℚ
  rlo : ℕ → Option ℚ
  rhi : ℕ → Option ℚ
  clo : ℕ → Option ℚ
  chi : ℕ → Option ℚ
  obj : ℕ → ℚ
  int : ℕ → Bool
  offset : ℚ := 0

/-- The identity permutations (src/test/BBHelper.cpp:107-117): the vector for the columns has as many
entries as there are rows; more columns than rows are written past its end. -/
def initPerms (p : Mip) : Res (List ℕ × List ℕ) :=
  if p.m < p.n then .undef
  else .ok (List.range p.m, List.range p.n ++ List.replicate (p.m - p.n) 0)

/-- The permuted problem (src/test/BBHelper.cpp:150-194): row `i` is the old row `rp[i]`, column `j` the
old column `cp[j]`; but the integer columns are marked with their old index (191-192). -/
def permuted (p : Mip) (rp cp : List ℕ) : Mip where
  m := p.m
  n := p.n
  a i j := p.a (rp.getD i 0) (cp.getD j 0)
  rlo i := p.rlo (rp.getD i 0)
  rhi i := p.rhi (rp.getD i 0)
  clo j := p.clo (cp.getD j 0)
  chi j := p.chi (cp.getD j 0)
  obj j := p.obj (cp.getD j 0)
  int j := (List.range p.n).any fun col => cp.getD col 0 == j && p.int (cp.getD col 0)
  offset := p.offset

/-! ## The runs -/

/-- Which solver is used (src/test/BBHelper.cpp:198-316). -/
inductive BBSolver | gurobi | cplex | cbc
deriving DecidableEq, Repr

/-- The parameters read by `runBBTests`, and which solvers the program was built with. -/
structure BBCfg where
  bbRuns : ℤ
  disjTerms : ℤ
  bbMode : ℤ
  strategy : BitVec 32
  temp : BitVec 32
  seed : ℤ
  hasGurobi : Bool
  hasCplex : Bool
  hasCbc : Bool

/-- Everything outside: the clock, the shuffles of each run, and the solver. -/
structure BBWorld where
  clock : ℤ
  shufRows : ℕ → List ℕ → List ℕ
  shufCols : ℕ → List ℕ → List ℕ
  solve : BBSolver → ℤ → Mip → List RowCut → BBInfo

/-- `num_bb_runs` (src/test/BBHelper.cpp:63-64); `abs(INT_MIN)` is undefined. -/
def numBBRuns (c : BBCfg) (numVpcs : ℕ) : Res ℕ :=
  if c.bbRuns = intMin then .undef
  else .ok (c.bbRuns.natAbs * (if c.disjTerms = 0 ∨ 0 < numVpcs then 1 else 0))

/-- The digits of `BB_MODE` (src/test/BBHelper.cpp:75-78). -/
def bbDigits (mode : ℤ) : ℤ × ℤ × ℤ :=
  (mode.tmod 10, (mode.tmod 100 - mode.tmod 10).tdiv 10, (mode.tmod 1000 - mode.tmod 100).tdiv 100)

/-- `branch_with_no_cuts`, `branch_with_vpcs`, `branch_with_gmics` (src/test/BBHelper.cpp:79-81). -/
def bbBranch (mode : ℤ) (numVpcs numGmics : ℕ) : Bool × Bool × Bool :=
  let d := bbDigits mode
  (decide (d.1 > 0), decide (d.2.1 > 0) && decide (numVpcs > 0), decide (d.2.2 > 0) && decide (numGmics > 0))

/-- `should_permute_rows_and_cols` (src/test/BBHelper.cpp:85-87). -/
def shouldPermute (c : BBCfg) (runs : ℕ) : Bool :=
  decide (runs ≥ 2) && !useBB c.strategy .gurobi && !useBB c.strategy .cplex

/-- `initial_random_seed` (src/test/BBHelper.cpp:126-127), of type `long`. -/
def initialSeed (c : BBCfg) (w : BBWorld) : ℤ := if c.seed > 0 then c.seed else w.clock

/-- The seed of one run (src/test/BBHelper.cpp:132-133): a product of type `long`, converted to `int`,
and rejected by the parameter object if it is below -1. -/
def runSeed (initial : ℤ) (run : ℕ) : Res ℤ :=
  if initial * (run + 1) < -2 ^ 63 ∨ 2 ^ 63 ≤ initial * (run + 1) then .undef
  else match (IntP.mk "RANDOM_SEED" 628 (-1) intMax []).set (Int.bmod (initial * (run + 1)) (2 ^ 32)) with
    | some q => .ok q.val
    | none => .exit

/-- The solver that does the work (src/test/BBHelper.cpp:198-316); `none` if the strategy names no solver
or one the program was built without: then nothing is run. -/
def pickSolver (c : BBCfg) : Option BBSolver :=
  if useBB c.strategy .gurobi then (if c.hasGurobi then some .gurobi else none)
  else if useBB c.strategy .cplex then (if c.hasCplex then some .cplex else none)
  else if useBB c.strategy .cbc then (if c.hasCbc then some .cbc else none)
  else none

/-- One call of a solver; without a solver the record stays as it was created. -/
def oneSolve (w : BBWorld) (s : Option BBSolver) (seed : ℤ) (p : Mip) (cuts : List RowCut) : BBInfo :=
  match s with
  | some s => w.solve s seed p cuts
  | none => {}

/-- The test against a known solution before the runs with Gurobi (src/test/BBHelper.cpp:200-213): a
solution is looked for only if there is one already (`haveSol`), otherwise `exit(1)`. -/
def gurobiCheckExits (c : BBCfg) (numVpcs : ℕ) (haveSol : Bool) : Bool :=
  decide (pickSolver c = some .gurobi) && useTemp c.temp .CHECK_CUTS_AGAINST_BB_OPT
    && decide (numVpcs > 0) && !haveSol

/-- The problem of one run (src/test/BBHelper.cpp:136-195, :289-291). -/
def runProblem (c : BBCfg) (w : BBWorld) (p : Mip) (runs run : ℕ) : Res Mip :=
  if shouldPermute c runs then
    (initPerms p).bind fun q => .ok (permuted p (w.shufRows run q.1) (w.shufCols run q.2))
  else .ok p

/-- Body of the loop over the runs (src/test/BBHelper.cpp:130-321): results without cuts, with the VPCs
and with `GMICsAndVPCs`. -/
def testRun (c : BBCfg) (w : BBWorld) (p : Mip) (vpcs all : List RowCut) (haveSol : Bool) (runs run : ℕ) :
    Res (BBInfo × BBInfo × BBInfo) :=
  (runSeed (initialSeed c w) run).bind fun seed =>
  (runProblem c w p runs run).bind fun q =>
  if gurobiCheckExits c vpcs.length haveSol then .exit
  else .ok (oneSolve w (pickSolver c) seed q [], oneSolve w (pickSolver c) seed q vpcs,
    oneSolve w (pickSolver c) seed q all)

/-- The loop over the runs (src/test/BBHelper.cpp:130-327). -/
def runAll {α : Type} (f : ℕ → Res α) : List ℕ → Res (List α)
  | [] => .ok []
  | k :: ks => (f k).bind fun a => (runAll f ks).bind fun l => .ok (a :: l)

/-- `GMICsAndVPCs` (src/test/BBHelper.cpp:119-124). -/
def allCuts (b : Bool × Bool × Bool) (vpcs gmics : List RowCut) : List RowCut :=
  (if b.2.1 then vpcs else []) ++ (if b.2.2 then gmics else [])

/-- The summaries after all runs (src/test/BBHelper.cpp:91-106, :329-341). -/
def bbFinish (b : Bool × Bool × Bool) (s : SummaryBB × SummaryBB × SummaryBB) (numVpcs numGmics : ℕ)
    (l : List (BBInfo × BBInfo × BBInfo)) : SummaryBB × SummaryBB × SummaryBB :=
  (if b.1 then summarize s.1 s.1.numCuts (l.map (·.1)) else s.1,
   if b.2.1 then summarize s.2.1 numVpcs (l.map (·.2.1)) else s.2.1,
   if b.2.2 then summarize s.2.2 (numVpcs + numGmics) (l.map (·.2.2)) else s.2.2)

/-- `runBBTests` (src/test/BBHelper.cpp:39-342); `vpcs` and `gmics` are `[]` for a null pointer. The
records are never null where they are used by the callers (src/main.cpp:860, src/utility/preprocess.cpp:79,
:220); the entries of the vector of the third record are overwritten by every solver. -/
def runBBTests (c : BBCfg) (w : BBWorld) (p : Mip) (vpcs gmics : List RowCut) (haveSol : Bool)
    (s : SummaryBB × SummaryBB × SummaryBB) : Res (SummaryBB × SummaryBB × SummaryBB) :=
  let b := bbBranch c.bbMode vpcs.length gmics.length
  (numBBRuns c vpcs.length).bind fun runs =>
  if runs = 0 then .ok s
  else if (!b.1 && !b.2.1 && !b.2.2) then .ok s
  else (runAll (testRun c w p vpcs (allCuts b vpcs gmics) haveSol runs) (List.range runs)).bind fun l =>
    .ok (bbFinish b s vpcs.length gmics.length l)

end VPC
