import Verif.Model.BBTests

/-!
# Branch and bound with user cuts (src/test/GurobiHelper.cpp, CplexHelper.cpp, CbcHelper.cpp)

The solvers are external: what they report (events of the callbacks, status and attributes at the end) is a
parameter. Errors returned by calls that set parameters or query a callback, exceptions, the file with the MIP
start (`SAVE_IP_OPT`) and the Concert interface (`USE_CPLEX_CONCERT`, does not compile) are not modelled.
Doubles are rationals, `params.get(INF)` is `dblMax`.
-/
namespace VPC

/-! ## Cuts -/

/-- `OsiRowCut` with both bounds (external, Osi); `none` is an infinite bound. -/
structure OsiRow where
  row : SVec
  lb : Option ℚ
  ub : Option ℚ
deriving DecidableEq, Repr

/-- `OsiRowCut::rhs` (external, Osi/OsiRowCut.cpp): the upper bound unless it is infinite. -/
def OsiRow.rhs (c : OsiRow) : ℚ :=
  match c.ub, c.lb with
  | some u, _ => u
  | none, some l => l
  | none, none => 0

/-- The inequality given to Gurobi and CPLEX: `GRB_GREATER_EQUAL` / sense "G" with `rhs()`
(src/test/GurobiHelper.cpp:273-287, src/test/CplexHelper.cpp:799-810). -/
def OsiRow.asGe (c : OsiRow) : RowCut := ⟨c.row, c.rhs⟩

/-! ## Options: parameters set in the solvers -/

/-- `params` as far as the three `setStrategyForBBTest*` read it. -/
structure StratCfg where
  timeLimit : ℚ
  seed : ℤ
  verbosity : ℤ
  solfile : List Char

/-- `use_bb_option(std::abs(strategy), strong_branching_on)` (src/test/GurobiHelper.cpp:116,
src/test/CplexHelper.cpp:159, src/test/CbcHelper.cpp:75); `abs(INT_MIN)` is undefined. -/
def wantsStrong (s : BitVec 32) : Res Bool :=
  if s.toInt = intMin then .undef
  else .ok (useBB (if s.toInt < 0 then -s else s) .strong_branching_on)

/-- `solfile.size() > ext.size() && solfile.compare(solfile.size() - ext.size(), ext.size(), ext) == 0`
(src/test/GurobiHelper.cpp:105-108, src/test/CplexHelper.cpp:136-137, :149-150). -/
def hasExt (solfile ext : List Char) : Bool :=
  decide (ext.length < solfile.length) && solfile.drop (solfile.length - ext.length) == ext

/-- Calls on the Gurobi model (src/test/GurobiHelper.cpp:45-119). -/
inductive GrbSet
  | timeLimit (v : ℚ) | threads (n : ℤ) | seed (n : ℤ) | outputFlag (n : ℤ) | displayInterval (n : ℤ)
  | preCrush (n : ℤ) | cuts (n : ℤ) | presolve (n : ℤ) | heuristics (v : ℚ) | bestBdStop (v : ℚ)
  | read (f : List Char) | varBranch (n : ℤ)
deriving DecidableEq, Repr

/-- `user_provides_start` for Gurobi (src/test/GurobiHelper.cpp:99-108). -/
def grbStart (f : List Char) : Bool :=
  hasExt f "_gurobi.sol.gz".toList || hasExt f "_gurobi.sol".toList ||
    hasExt f "_gurobi.mst.gz".toList || hasExt f "_gurobi.mst".toList

/-- The block for `use_best_bound` (src/test/GurobiHelper.cpp:88-112). -/
def grbBest (c : StratCfg) (best : ℚ) : List GrbSet :=
  (if !isInfinity |best| then [.bestBdStop (best - 1 / 10 ^ 7)] else []) ++
  (if grbStart c.solfile then [.read c.solfile] else [])

/-- The block for a positive strategy (src/test/GurobiHelper.cpp:63-113). -/
def grbOptions (c : StratCfg) (s : BitVec 32) (best : ℚ) : List GrbSet :=
  (if useBB s .user_cuts then [.preCrush 1] else []) ++
  (if useBB s .all_cuts_off then [.cuts 0] else []) ++
  (if useBB s .presolve_off then [.presolve 0] else []) ++
  (if useBB s .heuristics_off then [.heuristics 0] else []) ++
  (if useBB s .use_best_bound then grbBest c best else [])

/-- The calls made for every strategy (src/test/GurobiHelper.cpp:47-61). -/
def grbAlways (c : StratCfg) : List GrbSet :=
  [.timeLimit c.timeLimit, .threads 1] ++ (if c.seed ≥ 0 then [.seed c.seed] else []) ++
  (if c.verbosity = 0 then [.outputFlag 0] else [.outputFlag 1, .displayInterval 1])

/-- `setStrategyForBBTestGurobi` (src/test/GurobiHelper.cpp:45-119), always called without a seed. -/
def grbSettings (c : StratCfg) (s : BitVec 32) (best : ℚ) : Res (List GrbSet) :=
  (wantsStrong s).bind fun strong =>
  .ok (grbAlways c ++ (if s.toInt ≤ 0 then [] else grbOptions c s best) ++
    (if strong then [.varBranch 3] else []))

/-- Families of CPLEX cuts that are switched off (src/test/CplexHelper.cpp:87-101). -/
inductive CpxCut
  | bqp | cliques | covers | disjunctive | flowCovers | pathCut | gomory | gubCovers | implied
  | localImplied | liftProj | mirCut | mcfCut | rlt | zeroHalf
deriving DecidableEq, Repr

/-- All of them, in the order of the code (src/test/CplexHelper.cpp:87-101). -/
def CpxCut.all : List CpxCut :=
  [.bqp, .cliques, .covers, .disjunctive, .flowCovers, .pathCut, .gomory, .gubCovers, .implied,
    .localImplied, .liftProj, .mirCut, .mcfCut, .rlt, .zeroHalf]

/-- Calls on the CPLEX environment and problem (src/test/CplexHelper.cpp:52-174). -/
inductive CpxSet
  | timeLimit (v : ℚ) | threads (n : ℤ) | seed (n : ℤ) | screen (on : Bool) | display (n : ℤ)
  | interval (n : ℤ) | linear (n : ℤ) | cut (f : CpxCut) (n : ℤ) | presolve (n : ℤ)
  | heurEffort (v : ℚ) | heurFreq (n : ℤ) | fpHeur (n : ℤ) | lbHeur (n : ℤ) | rinsHeur (n : ℤ)
  | upperCutoff (v : ℚ) | advance (n : ℤ) | readSol (f : List Char) | readStarts (f : List Char)
  | strongSelect | strongCandMax | strongItMax | bbInterval (n : ℤ)
deriving DecidableEq, Repr

/-- The block for `use_best_bound` (src/test/CplexHelper.cpp:123-155). -/
def cpxBest (c : StratCfg) (best : ℚ) : List CpxSet :=
  (if !isInfinity |best| then [.upperCutoff (best + 1 / 10 ^ 7)] else []) ++
  (if hasExt c.solfile "_cplex.sol.gz".toList || hasExt c.solfile "_cplex.sol".toList then
    [.advance 1, .readSol c.solfile] else []) ++
  (if hasExt c.solfile "_cplex.mst.gz".toList || hasExt c.solfile "_cplex.mst".toList then
    [.advance 1, .readStarts c.solfile] else [])

/-- The block for a positive strategy (src/test/CplexHelper.cpp:73-156). -/
def cpxOptions (c : StratCfg) (s : BitVec 32) (best : ℚ) : List CpxSet :=
  (if useBB s .user_cuts then [.linear 0] else []) ++
  (if useBB s .all_cuts_off then CpxCut.all.map (.cut · (-1)) else []) ++
  (if useBB s .presolve_off then [.presolve 0] else []) ++
  (if useBB s .heuristics_off then [.heurEffort 0, .heurFreq (-1), .fpHeur (-1), .lbHeur 0, .rinsHeur 0]
    else []) ++
  (if useBB s .use_best_bound then cpxBest c best else [])

/-- The calls made for every strategy (src/test/CplexHelper.cpp:58-71). -/
def cpxAlways (c : StratCfg) : List CpxSet :=
  [.timeLimit c.timeLimit, .threads 1] ++ (if c.seed ≥ 0 then [.seed c.seed] else []) ++
  (if c.verbosity = 0 then [.screen false] else [.screen true, .display 3, .interval 1])

/-- `setStrategyForBBTestCplexCallable` (src/test/CplexHelper.cpp:52-174). -/
def cpxSettings (c : StratCfg) (s : BitVec 32) (best : ℚ) : Res (List CpxSet) :=
  (wantsStrong s).bind fun strong =>
  .ok (cpxAlways c ++ (if s.toInt ≤ 0 then [] else cpxOptions c s best) ++
    (if strong then [.strongSelect, .strongCandMax, .strongItMax, .bbInterval 1] else []))

/-- Calls on the Cbc model (src/test/CbcHelper.cpp:31-83). -/
inductive CbcSet
  | timeLimit (v : ℚ) | seed (n : ℤ) | defaultStrategy | cutPassesRoot (n : ℤ) | cutPasses (n : ℤ)
  | whenCuts (n : ℤ) | presolve (n : ℤ) | strong (n : ℤ)
deriving DecidableEq, Repr

/-- The block for a positive strategy (src/test/CbcHelper.cpp:43-71). -/
def cbcOptions (s : BitVec 32) : List CbcSet :=
  (if useBB s .all_cuts_off then [.cutPassesRoot 0, .cutPasses 0, .whenCuts 0] else []) ++
  (if useBB s .presolve_off then [.presolve 0] else [])

/-- `setStrategyForBBTestCbc` (src/test/CbcHelper.cpp:31-83); `ncols` is the number of columns. -/
def cbcSettings (c : StratCfg) (s : BitVec 32) (ncols : ℤ) : Res (List CbcSet) :=
  (wantsStrong s).bind fun strong =>
  .ok ([.timeLimit c.timeLimit, .seed c.seed] ++
    (if s.toInt ≤ 0 then [.defaultStrategy] else cbcOptions s) ++ (if strong then [.strong ncols] else []))

/-- The strategy used when cuts are given (src/test/GurobiHelper.cpp:500-505,
src/test/CplexHelper.cpp:785-789, src/test/CbcHelper.cpp:305-310). -/
def withUserCuts (s : BitVec 32) : BitVec 32 :=
  if useBB s .user_cuts then s else enableBB s .user_cuts

/-! ## Gurobi: the callback -/

/-- What the callback sees (src/test/GurobiHelper.cpp:176-293): an integer-feasible solution; progress with
node count, iterations and bound; a node with node count, time, whether its relaxation is optimal and the
relaxation values. -/
inductive GrbEvent
  | mipsol (obj time : ℚ)
  | mip (nodes iters : ℤ) (bound : ℚ)
  | mipnode (nodes : ℤ) (time : ℚ) (optimal : Bool) (x : List ℚ)
deriving DecidableEq, Repr

/-- Data of `GurobiUserCutCallback` set by the constructor (src/test/GurobiHelper.cpp:126-142). -/
structure GrbCfg where
  offset : ℚ
  obj : List ℚ
  cuts : Option (List OsiRow)
  lazy : Bool

/-- The other members of `GurobiUserCutCallback` and the cuts handed over by `addCut` so far
(src/test/GurobiHelper.cpp:126-150). -/
structure GrbCb where
  obj : ℚ := dblMax
  firstLp : ℚ := -dblMax
  setFirst : Bool := false
  passes : ℤ := 0
  firstCut : ℚ := -dblMax
  lastCut : ℚ := -dblMax
  rootIters : ℤ := 0
  rootTime : ℚ := 0
  lastSolTime : ℚ := 0
  given : List RowCut := []
deriving DecidableEq, Repr

/-- `getObjValue` (src/test/GurobiHelper.cpp:162-172). -/
def nodeObj (c : GrbCfg) (x : List ℚ) : ℚ :=
  (List.zip x c.obj).foldl (fun v e => v + e.1 * e.2) c.offset

/-- The loop over the cuts (src/test/GurobiHelper.cpp:271-292): `addCut` once per cut, and once more if
`addAsLazy`. -/
def grbAdd (c : GrbCfg) : List RowCut :=
  (c.cuts.getD []).flatMap fun k => if c.lazy then [k.asGe, k.asGe] else [k.asGe]

/-- `where == GRB_CB_MIPSOL` (src/test/GurobiHelper.cpp:176-182). -/
def grbSol (s : GrbCb) (obj time : ℚ) : GrbCb :=
  if obj < s.obj then { s with lastSolTime := time, obj := obj } else s

/-- `where == GRB_CB_MIP` (src/test/GurobiHelper.cpp:183-214). -/
def grbMip (s : GrbCb) (nodes iters : ℤ) (bound : ℚ) : GrbCb :=
  if nodes > 0 then s
  else if s.passes = 0 then
    { s with rootIters := iters, firstLp := bound, firstCut := bound, lastCut := bound }
  else if s.passes = 1 ∧ s.setFirst = false then
    { s with rootIters := iters, firstCut := bound, lastCut := bound, setFirst := true }
  else { s with rootIters := iters }

/-- `where == GRB_CB_MIPNODE` with an optimal relaxation, after the counter was increased
(src/test/GurobiHelper.cpp:235-292). -/
def grbNodeOpt (c : GrbCfg) (s : GrbCb) (v : ℚ) : GrbCb :=
  if s.passes > 1 then
    if s.passes = 2 then { s with lastCut := v, firstCut := v, setFirst := true } else { s with lastCut := v }
  else { s with lastCut := v, firstLp := v, firstCut := v, given := s.given ++ grbAdd c }

/-- `where == GRB_CB_MIPNODE` (src/test/GurobiHelper.cpp:215-293). -/
def grbNode (c : GrbCfg) (s : GrbCb) (nodes : ℤ) (time : ℚ) (optimal : Bool) (x : List ℚ) : GrbCb :=
  if nodes > 0 then s
  else if optimal then grbNodeOpt c { s with passes := s.passes + 1, rootTime := time } (nodeObj c x)
  else { s with passes := s.passes + 1, rootTime := time }

/-- `callback` (src/test/GurobiHelper.cpp:174-311). -/
def grbStep (c : GrbCfg) (s : GrbCb) : GrbEvent → GrbCb
  | .mipsol o t => grbSol s o t
  | .mip n i b => grbMip s n i b
  | .mipnode n t o x => grbNode c s n t o x

/-- The callback over a history of events. -/
def grbEvents (c : GrbCfg) (s : GrbCb) (es : List GrbEvent) : GrbCb := es.foldl (grbStep c) s

/-! ## Gurobi: a run -/

/-- Status values of Gurobi that are told apart (src/test/GurobiHelper.cpp:400-441). -/
inductive GrbStatus
  | optimal | infeasible | infOrUnbd | unbounded | cutoff | iterLimit | nodeLimit | timeLimit
  | userObjLimit | other
deriving DecidableEq, Repr

/-- One call of `optimize`: the events seen by the callback and the attributes afterwards. `sol` is the best
solution if there is one (`SolCount > 0`). -/
structure GrbRun where
  events : List GrbEvent
  status : GrbStatus
  objVal : ℚ
  objBound : ℚ
  iters : ℤ
  nodes : ℤ
  runtime : ℚ
  sol : Option (List ℚ)
deriving DecidableEq, Repr

/-- The runs made (src/test/GurobiHelper.cpp:398-409): a second one without presolve if the first ended with
`INF_OR_UNBD` and presolve was not switched off. -/
def grbRuns (s : BitVec 32) (first again : GrbRun) : List GrbRun :=
  if first.status = .infOrUnbd ∧ ¬ (0 < s.toInt ∧ useBB s .presolve_off = true) then [first, again]
  else [first]

/-- The last of them. -/
def grbLast (s : BitVec 32) (first again : GrbRun) : GrbRun :=
  if first.status = .infOrUnbd ∧ ¬ (0 < s.toInt ∧ useBB s .presolve_off = true) then again else first

/-- Does this status end the process (src/test/GurobiHelper.cpp:411-415, :436-440). -/
def GrbStatus.ends : GrbStatus → Bool
  | .infeasible | .unbounded | .infOrUnbd | .other => true
  | _ => false

/-- The test of the solution that is returned (src/test/GurobiHelper.cpp:454-473). -/
def grbCheck (c : GrbCfg) (want : Bool) (r : GrbRun) : Res (Option (List ℚ)) :=
  match want, r.sol with
  | true, some x => if isVal (nodeObj c x) r.objVal then .ok (some x) else .exit
  | _, _ => .ok none

/-- `doBranchAndBoundWithGurobi` on a model (src/test/GurobiHelper.cpp:388-494); `want` tells whether a vector
for the solution was passed; returned are the record and the solution stored in that vector. -/
def grbBB (c : GrbCfg) (s : BitVec 32) (want : Bool) (info : BBInfo) (first again : GrbRun) :
    Res (BBInfo × Option (List ℚ)) :=
  let r := grbLast s first again
  if r.status.ends then .exit
  else (grbCheck c want r).bind fun x =>
    .ok ({ info with obj := r.objVal, bound := r.objBound, iters := r.iters, nodes := r.nodes,
                     time := r.runtime }, x)

/-- "Save information" (src/test/GurobiHelper.cpp:529-553). -/
def grbReport (info : BBInfo) (cb : GrbCb) : BBInfo :=
  if cb.passes > 0 then
    { info with rootPasses := cb.passes, firstCutPass := cb.firstCut, lastCutPass := cb.lastCut,
                rootIters := cb.rootIters, rootTime := cb.rootTime, lastSolTime := cb.lastSolTime }
  else if info.nodes = 0 then
    { info with rootPasses := cb.passes, firstCutPass := info.obj, lastCutPass := info.obj,
                rootIters := info.iters, rootTime := info.time, lastSolTime := cb.lastSolTime }
  else
    { info with rootPasses := cb.passes, firstCutPass := cb.firstLp, lastCutPass := cb.firstLp,
                rootIters := cb.rootIters, rootTime := cb.rootTime, lastSolTime := cb.lastSolTime }

/-- The callback over all runs: the same object is used for the second run
(src/test/GurobiHelper.cpp:510-513). -/
def grbCbOf (c : GrbCfg) (s : BitVec 32) (first again : GrbRun) : GrbCb :=
  grbEvents c {} ((grbRuns s first again).flatMap (·.events))

/-- `doBranchAndBoundWithUserCutsGurobi` on a model (src/test/GurobiHelper.cpp:496-566): record, solution, cuts
handed over. -/
def grbUser (c : GrbCfg) (s : BitVec 32) (want : Bool) (info : BBInfo) (first again : GrbRun) :
    Res (BBInfo × Option (List ℚ) × List RowCut) :=
  (grbBB c (withUserCuts s) want info first again).bind fun o =>
  .ok (grbReport o.1 (grbCbOf c (withUserCuts s) first again), o.2, (grbCbOf c (withUserCuts s) first again).given)

/-! ## CPLEX -/

/-- The arrays passed to `CPXXaddusercuts`: starts, indices, values, right-hand sides. -/
structure CsrCuts where
  beg : List ℕ := []
  ind : List ℕ := []
  val : List ℚ := []
  rhs : List ℚ := []
deriving DecidableEq, Repr

/-- One iteration of the loop that fills them (src/test/CplexHelper.cpp:799-810). -/
def csrAdd (a : CsrCuts) (k : OsiRow) : CsrCuts where
  beg := a.beg ++ [a.ind.length]
  ind := a.ind ++ k.row.map (·.1)
  val := a.val ++ k.row.map (·.2)
  rhs := a.rhs ++ [k.rhs]

/-- The loop (src/test/CplexHelper.cpp:793-810). -/
def csrOf (cuts : List OsiRow) : CsrCuts := cuts.foldl csrAdd {}

/-- What CPLEX reads from the arrays (external): row `k` has the entries from `beg[k]` up to the next start,
the last one up to the number of nonzeros. -/
def csrRow (a : CsrCuts) (k : ℕ) : RowCut :=
  let b := a.beg.getD k 0
  let e := a.beg.getD (k + 1) a.ind.length
  ⟨((List.zip a.ind a.val).take e).drop b, a.rhs.getD k 0⟩

/-- The rows read by CPLEX. -/
def csrRows (a : CsrCuts) : List RowCut := (List.range a.beg.length).map (csrRow a)

/-- The cuts given to CPLEX: as user cuts, and as lazy constraints (src/test/CplexHelper.cpp:792-828). -/
def cpxGiven (cuts : Option (List OsiRow)) (lazy : Bool) : List RowCut × List RowCut :=
  match cuts with
  | none => ([], [])
  | some l => (csrRows (csrOf l), if lazy then csrRows (csrOf l) else [])

/-- Where the user cut callback is called from (src/test/CplexHelper.cpp:336, :340). -/
inductive CpxWhere | cutLoop | cutLast | elsewhere
deriving DecidableEq, Repr

/-- Events of the two callbacks (src/test/CplexHelper.cpp:229-370): `info` with the incumbent and the time since
the start, `user` with node count, place, bound, time since the start and iterations. -/
inductive CpxEvent
  | info (incumbent : Option ℚ) (elapsed : ℚ)
  | user (nodes : ℤ) (wh : CpxWhere) (bound elapsed : ℚ) (iters : ℤ)
deriving DecidableEq, Repr

/-- `logcallback` (src/test/CplexHelper.cpp:229-300). -/
def cpxLog (i : BBInfo) (incumbent : Option ℚ) (elapsed : ℚ) : BBInfo :=
  match incumbent with
  | none => i
  | some v => if |i.obj - v| > 1 / 10 ^ 7 then { i with obj := v, lastSolTime := elapsed } else i

/-- src/test/CplexHelper.cpp:332-334. -/
def cpxFirst (i : BBInfo) (bound : ℚ) : BBInfo :=
  if i.rootPasses = 1 ∧ isInfinity |i.firstCutPass| = true then { i with firstCutPass := bound } else i

/-- src/test/CplexHelper.cpp:336-338. -/
def cpxCount (i : BBInfo) (nodes : ℤ) (wh : CpxWhere) : BBInfo :=
  if nodes = 0 ∧ wh = .cutLoop then { i with rootPasses := i.rootPasses + 1 } else i

/-- src/test/CplexHelper.cpp:346-348. -/
def cpxLate (i : BBInfo) (bound : ℚ) : BBInfo :=
  if isInfinity |i.firstCutPass| = true then { i with firstCutPass := bound } else i

/-- src/test/CplexHelper.cpp:340-367. -/
def cpxEnd (i : BBInfo) (wh : CpxWhere) (bound elapsed : ℚ) (iters : ℤ) : BBInfo :=
  if wh = .cutLast ∧ isInfinity |i.lastCutPass| = true then
    { cpxLate i bound with lastCutPass := bound, rootTime := elapsed, rootIters := iters }
  else i

/-- `usercutcallback` (src/test/CplexHelper.cpp:302-370). -/
def cpxUserCb (i : BBInfo) (nodes : ℤ) (wh : CpxWhere) (bound elapsed : ℚ) (iters : ℤ) : BBInfo :=
  if nodes > 1 then i else cpxEnd (cpxCount (cpxFirst i bound) nodes wh) wh bound elapsed iters

/-- Both callbacks write into the record of the caller (src/test/CplexHelper.cpp:833-834). -/
def cpxStep (i : BBInfo) : CpxEvent → BBInfo
  | .info v t => cpxLog i v t
  | .user n w b t k => cpxUserCb i n w b t k

/-- Status values of CPLEX that are told apart (src/test/CplexHelper.cpp:640-702). -/
inductive CpxStatus
  | infOrUnbd | infeasible | unbounded | limitFeas | limitInfeas | optimal | other
deriving DecidableEq, Repr

/-- One call of `CPXXmipopt`; `sol` is the solution if there is one. -/
structure CpxRun where
  events : List CpxEvent
  status : CpxStatus
  objVal : ℚ
  bestBound : ℚ
  iters : ℤ
  nodes : ℤ
  runtime : ℚ
  sol : Option (List ℚ)
deriving DecidableEq, Repr

/-- Is there a second run (src/test/CplexHelper.cpp:640-661). -/
def cpxAgain (s : BitVec 32) (first : CpxRun) : Bool :=
  decide (first.status = .infOrUnbd) && !(decide (0 < s.toInt) && useBB s .presolve_off)

/-- The run whose results are read. -/
def cpxLast (s : BitVec 32) (first again : CpxRun) : CpxRun := if cpxAgain s first then again else first

/-- The events of the runs made. -/
def cpxEventsOf (s : BitVec 32) (first again : CpxRun) : List CpxEvent :=
  if cpxAgain s first then first.events ++ again.events else first.events

/-- The switch over the status (src/test/CplexHelper.cpp:663-702). -/
def cpxValues (i : BBInfo) (r : CpxRun) : Res BBInfo :=
  match r.status with
  | .limitFeas | .optimal => .ok { i with obj := r.objVal, bound := r.bestBound }
  | .limitInfeas => .ok { i with bound := r.bestBound }
  | _ => .exit

/-- The solution (src/test/CplexHelper.cpp:723-733): `CPXXgetx` fails without a solution. -/
def cpxSol (want : Bool) (r : CpxRun) : Res (Option (List ℚ)) :=
  match want, r.sol with
  | false, _ => .ok none
  | true, some x => .ok (some x)
  | true, none => .exit

/-- `doBranchAndBoundWithCplexCallable` (src/test/CplexHelper.cpp:598-779). `cb` tells whether the callbacks are
set. The time is that of the first run only. -/
def cpxBB (s : BitVec 32) (cb want : Bool) (info : BBInfo) (first again : CpxRun) :
    Res (BBInfo × Option (List ℚ)) :=
  let r := cpxLast s first again
  let i := if cb then (cpxEventsOf s first again).foldl cpxStep info else info
  (cpxValues i r).bind fun i =>
  (cpxSol want r).bind fun x =>
  .ok ({ i with iters := r.iters, nodes := r.nodes, time := first.runtime }, x)

/-- src/test/CplexHelper.cpp:845-849. -/
def cpxReport (i : BBInfo) : BBInfo :=
  if i.rootPasses = 0 then { i with firstCutPass := i.obj, lastCutPass := i.obj, rootTime := i.time } else i

/-- `doBranchAndBoundWithUserCutsCplexCallable` (src/test/CplexHelper.cpp:781-857): record, solution, user cuts
and lazy constraints. -/
def cpxUser (cuts : Option (List OsiRow)) (lazy : Bool) (s : BitVec 32) (want : Bool) (info : BBInfo)
    (first again : CpxRun) : Res (BBInfo × Option (List ℚ) × List RowCut × List RowCut) :=
  (cpxBB (withUserCuts s) true want { info with firstCutPass := -dblMax, lastCutPass := -dblMax } first again).bind
    fun o => .ok (cpxReport o.1, o.2, cpxGiven cuts lazy)

/-! ## Cbc -/

/-- Events of Cbc that are told apart (src/test/CbcHelper.cpp:131-172). -/
inductive CbcKind | node | beforeSolution2 | generatedCuts | others
deriving DecidableEq, Repr

/-- An event with what the handler asks the model for: node count, best possible value, whether there are
cuts, iterations, seconds. -/
structure CbcUEvent where
  kind : CbcKind
  nodes : ℤ
  best : ℚ
  hasCuts : Bool
  iters : ℤ
  seconds : ℚ
deriving DecidableEq, Repr

/-- `CbcUserCutEventHandler` as built by the constructor that is used (src/test/CbcHelper.cpp:87-95,
:182-190): `first_lp_opt` is not initialised (`none`) and nothing assigns it; the record starts with the
defaults of `BBInfo`. -/
structure CbcHandler where
  info : BBInfo := {}
  firstLp : Option ℚ := none
deriving DecidableEq, Repr

/-- src/test/CbcHelper.cpp:132-139. -/
def cbcBegin (h : BBInfo) (e : CbcUEvent) : BBInfo :=
  if e.nodes = 0 ∧ h.rootPasses = 1 then { h with bound := e.best, firstCutPass := e.best }
  else { h with bound := e.best }

/-- src/test/CbcHelper.cpp:149-158. -/
def cbcNode (h : BBInfo) (e : CbcUEvent) : BBInfo :=
  if e.nodes ≤ 1 then
    if h.rootPasses = 0 then { h with rootIters := e.iters, firstCutPass := e.best, lastCutPass := e.best }
    else { h with rootIters := e.iters }
  else h

/-- src/test/CbcHelper.cpp:163-169; compiled with Cbc 2.10 or later only. -/
def cbcCuts (v210 : Bool) (h : BBInfo) (e : CbcUEvent) : BBInfo :=
  if v210 = true ∧ e.nodes = 0 then { h with rootPasses := h.rootPasses + 1, lastCutPass := e.best } else h

/-- The event by kind (src/test/CbcHelper.cpp:147-170). -/
def cbcKind (v210 : Bool) (h : BBInfo) (e : CbcUEvent) : BBInfo :=
  match e.kind with
  | .node => cbcNode h e
  | .beforeSolution2 => { h with lastSolTime := e.seconds }
  | .generatedCuts => cbcCuts v210 h e
  | .others => h

/-- `event` (src/test/CbcHelper.cpp:131-172): the process ends if the model has any cut. -/
def cbcStep (v210 : Bool) (h : CbcHandler) (e : CbcUEvent) : Res CbcHandler :=
  if e.hasCuts then .exit else .ok { h with info := cbcKind v210 (cbcBegin h.info e) e }

/-- The handler over a history. -/
def cbcEvents (v210 : Bool) : CbcHandler → List CbcUEvent → Res CbcHandler
  | h, [] => .ok h
  | h, e :: es => (cbcStep v210 h e).bind fun h => cbcEvents v210 h es

/-- A run of `branchAndBound` with what is asked afterwards; `fails`: proven infeasible, unbounded or dual
infeasible (the status is always 0, 1 or 2; -1 and 5 cannot occur after a run). -/
structure CbcRun where
  events : List CbcUEvent
  fails : Bool
  objVal : ℚ
  best : ℚ
  iters : ℤ
  nodes : ℤ
  seconds : ℚ
deriving DecidableEq, Repr

/-- `doBranchAndBoundWithCbc` (src/test/CbcHelper.cpp:256-294); a vector for the solution is ignored. -/
def cbcBB (info : BBInfo) (r : CbcRun) : Res BBInfo :=
  if r.fails then .exit
  else .ok { info with time := r.seconds, obj := r.objVal, bound := r.best, iters := r.iters, nodes := r.nodes }

/-- "Save information" (src/test/CbcHelper.cpp:349-374). -/
def cbcReport (i : BBInfo) (h : CbcHandler) : Res BBInfo :=
  if h.info.rootPasses > 0 then
    .ok { i with rootPasses := h.info.rootPasses, firstCutPass := h.info.firstCutPass,
                 lastCutPass := h.info.lastCutPass, rootIters := h.info.rootIters,
                 rootTime := h.info.rootTime, lastSolTime := h.info.lastSolTime }
  else if i.nodes = 0 then
    .ok { i with rootPasses := h.info.rootPasses, firstCutPass := i.obj, lastCutPass := i.obj,
                 rootIters := i.iters, rootTime := i.time, lastSolTime := h.info.lastSolTime }
  else match h.firstLp with
    | none => .undef
    | some v => .ok { i with rootPasses := h.info.rootPasses, firstCutPass := v, lastCutPass := v,
                             rootIters := h.info.rootIters, rootTime := h.info.rootTime,
                             lastSolTime := h.info.lastSolTime }

/-- `doBranchAndBoundWithUserCutsCbc` (src/test/CbcHelper.cpp:296-375). The cuts are rows of the problem that
is solved (`OsiSolverInterface::applyCuts`, external), with both bounds; `addAsLazy` is not used. -/
def cbcUser (v210 : Bool) (info : BBInfo) (r : CbcRun) : Res BBInfo :=
  (cbcEvents v210 {} r.events).bind fun h => (cbcBB info r).bind fun i => cbcReport i h

end VPC
