import Verif.Model.CutInfo
import Verif.Model.BBTests
import Verif.Model.Split
import Verif.Model.Timer

/-!
# The log file (src/test/analysis.cpp:26-796, src/main.cpp:1006-1131, src/utility/preprocess.cpp)

A line of the log is a list of fields, each followed by a comma. A field is kept as what is printed
(`Cell`); how `printf` writes a number is a parameter of the rendering (`Cell.render`), so the number
of digits is not part of the model. Doubles are rationals without rounding, with `±DBL_MAX` as
infinities. A failing `assert` raises `SIGABRT`, whose handler calls `exit(1)` (src/main.cpp:156-168),
so it is `Res.exit`.
-/
namespace VPC

/-- A number as it is printed. -/
inductive Val
  | int (v : ℤ)
  | num (v : ℚ)
  | inf
  | ninf
deriving DecidableEq

/-- A field of the log. -/
inductive Cell
  | blank
  | val (v : Val)
  | text (s : String)
  | join (l : List Val)
deriving DecidableEq

/-- `stringValue` of a `double` (include/common/utility.hpp:294-333): `'inf'`, `'-inf'` or the number. -/
def sv (v : ℚ) : Val :=
  if isInfinity v then .inf else if isNegInfinity v (-dblMax) then .ninf else .num v

/-- `stringValue` of a `double` that may be NaN (`none`): `isInfinity(NaN)` is true because it is
`!(NaN <= ..)` (include/common/utility.hpp:219-221, :245-247). -/
def svN : Option ℚ → Val
  | none => .inf
  | some v => sv v

/-- `stringValue` of an `int` (include/common/utility.hpp:294-333), `INF` is `INT_MAX`. -/
def svI (v : ℤ) : Val := if v ≥ intMax then .inf else if v ≤ -intMax then .ninf else .int v

/-- `SummaryBoundInfo` (include/test/analysis.hpp:31-47). -/
structure BoundInfo where
  lp : ℚ := dblMax
  bestDisj : ℚ := -dblMax
  worstDisj : ℚ := -dblMax
  root : ℚ := -dblMax
  ip : ℚ := dblMax
  lpc : ℚ := dblMax
  unstrGmic : ℚ := dblMax
  gmic : ℚ := dblMax
  vpc : ℚ := dblMax
  gmicVpc : ℚ := dblMax
  allCuts : ℚ := dblMax
  rootChanged : ℤ := 0
  numGmic : ℤ := 0
  numLpc : ℤ := 0
  numVpc : ℤ := 0

/-- A value that is left out when it is infinite (src/test/analysis.cpp:291-295, :297-301, :322-326). -/
def finiteCell (v : ℚ) : Cell := if isInfinity |v| then .blank else .val (sv v)

/-- A value that is left out when there are no cuts of that type (src/test/analysis.cpp:303-321). -/
def ifCuts (n : ℤ) (v : ℚ) : Cell := if n > 0 then .val (sv v) else .blank

/-- The block BOUND INFO of `printBoundAndGapInfo` (src/test/analysis.cpp:286-328). -/
def printBound (b : BoundInfo) : List Cell :=
  [.val (sv b.lp), .val (sv b.bestDisj), .val (sv b.worstDisj), finiteCell b.ip,
   .val (svI b.rootChanged), finiteCell b.root, .val (svI b.numGmic), ifCuts b.numGmic b.unstrGmic,
   ifCuts b.numGmic b.gmic, .val (svI b.numLpc), ifCuts b.numLpc b.lpc, .val (svI b.numVpc),
   ifCuts b.numVpc b.vpc, finiteCell b.gmicVpc]

/-- `100. * (x - lp_obj) / (ip_obj - lp_obj)` as `stringValue` prints it
(src/test/analysis.cpp:334-335): a zero divisor gives an infinity or NaN, both printed. -/
def gapVal (b : BoundInfo) (x : ℚ) : Val :=
  if b.ip - b.lp = 0 then (if 100 * (x - b.lp) < 0 then .ninf else .inf)
  else sv (100 * (x - b.lp) / (b.ip - b.lp))

/-- One gap (src/test/analysis.cpp:333-339). -/
def gapCell (b : BoundInfo) (x : ℚ) : Cell := if isInfinity |x| then .blank else .val (gapVal b x)

/-- The block GAP INFO of `printBoundAndGapInfo` (src/test/analysis.cpp:330-376). -/
def printGap (b : BoundInfo) : List Cell :=
  if isInfinity |b.ip| then List.replicate 5 .blank
  else [gapCell b b.unstrGmic, gapCell b b.gmic, gapCell b b.lpc, gapCell b b.vpc, gapCell b b.gmicVpc]

/-- `assert(count == n)` after a block. -/
def assertCount (n : ℕ) (l : List Cell) : Res (List Cell) := if l.length = n then .ok l else .exit

/-- `printSummaryBBInfo` (src/test/analysis.cpp:380-416). -/
def printSummaryBB (l : List SummaryBB) (blanks : Bool) : Res (List Cell) :=
  let show_ : (SummaryBB → Val) → List Cell := fun f => l.map fun s => if blanks then .blank else .val (f s)
  assertCount (4 * 2) (show_ (fun s => .int s.first.nodes) ++ show_ (fun s => .int s.best.nodes)
    ++ show_ (fun s => .num s.first.time) ++ show_ (fun s => .num s.best.time))

/-- How the members of `BBInfo` are printed by `printFullBBInfo` (src/test/analysis.cpp:430-561), in
that order. -/
def bbPrinters : List (BBInfo → Val) :=
  [fun i => sv i.obj, fun i => sv i.bound, fun i => .int i.iters, fun i => .int i.nodes,
   fun i => .int i.rootPasses, fun i => .num i.firstCutPass, fun i => .num i.lastCutPass,
   fun i => .int i.rootIters, fun i => .num i.rootTime, fun i => .num i.lastSolTime,
   fun i => .num i.time]

/-- `createStringFromBBInfoVec` (src/test/BBHelper.cpp:387-404): one string per member, the values of
all runs separated by `;`. -/
def createStringFromBBInfoVec (v : List BBInfo) : List Cell :=
  bbPrinters.map fun f => .join (v.map f)

/-- `printFullBBInfo` (src/test/analysis.cpp:418-579). -/
def printFullBB (l : List SummaryBB) (blanks : Bool) : Res (List Cell) :=
  assertCount (11 * 4 * 2)
    (if blanks then List.replicate (11 * l.length * 4) .blank
     else (bbPrinters.flatMap fun f =>
        (l.map fun s => Cell.val (f s.first)) ++ (l.map fun s => Cell.val (f s.best))
          ++ l.map fun s => Cell.val (f s.avg))
      ++ l.flatMap fun s => createStringFromBBInfoVec s.vec)

/-! ## Statistics of a problem -/

/-- A row as `printOrigProbInfo` sees it: bounds and number of stored entries. -/
structure StatRow where
  lo : ℚ
  hi : ℚ
  size : ℕ

/-- A column: bounds, `isInteger`, `isBinary` and its value in the solution. -/
structure StatCol where
  lo : ℚ
  hi : ℚ
  isInt : Bool
  isBin : Bool
  val : ℚ

/-- An `OsiSolverInterface` as the statistics see it. -/
structure Prob where
  rows : List StatRow
  cols : List StatCol

/-- The counters of the loop over the rows. -/
structure RowStats where
  eq : ℕ := 0
  bound : ℕ := 0
  assign : ℕ := 0

/-- Body of the loop over the rows (src/test/analysis.cpp:591-602). -/
def rowStep (s : RowStats) (r : StatRow) : RowStats :=
  let e := isVal r.lo r.hi
  { eq := if e then s.eq + 1 else s.eq
    assign := if r.size = 1 && e then s.assign + 1 else s.assign
    bound := if r.size = 1 && !e then s.bound + 1 else s.bound }

/-- `num_frac`, `min_frac`, `max_frac` (src/test/analysis.cpp:604-606). -/
structure FracStats where
  num : ℕ := 0
  mn : ℚ := 1
  mx : ℚ := 0

/-- Update with one integer column (src/test/analysis.cpp:620-630, :670-680). -/
def fracStep (s : FracStats) (v : ℚ) : FracStats :=
  let f := fractionality v
  if isVal f 0 (1 / 10 ^ 5) then s
  else { num := s.num + 1, mn := if f < s.mn then f else s.mn, mx := if f > s.mx then f else s.mx }

/-- The counters of the loop over the columns. -/
structure ColStats where
  fixed : ℕ := 0
  cont : ℕ := 0
  bin : ℕ := 0
  gen : ℕ := 0
  frac : FracStats := {}

/-- Body of the loop over the columns (src/test/analysis.cpp:607-631). -/
def colStep (s : ColStats) (c : StatCol) : ColStats :=
  let s1 := { s with fixed := if isVal c.lo c.hi then s.fixed + 1 else s.fixed }
  if !c.isInt then { s1 with cont := s1.cont + 1 }
  else
    { s1 with
      bin := if c.isBin then s1.bin + 1 else s1.bin
      gen := if c.isBin then s1.gen else s1.gen + 1
      frac := fracStep s1.frac c.val }

/-- `(double) numElements / (num_rows * num_cols)` (src/test/analysis.cpp:646, :687): the product is an
`int`; no rows or columns give `0. / 0`. -/
def density (p : Prob) : Res Cell :=
  if (p.rows.length * p.cols.length : ℤ) > intMax then .undef
  else .ok (.val (svN (fdiv (some ((p.rows.map (·.size)).sum : ℚ)) (p.rows.length * p.cols.length : ℚ))))

/-- `printOrigProbInfo` (src/test/analysis.cpp:581-649). -/
def printOrig (p : Prob) : Res (List Cell) :=
  let r := p.rows.foldl rowStep {}
  let c := p.cols.foldl colStep {}
  (density p).bind fun d => .ok
    [.val (svI p.rows.length), .val (svI p.cols.length), .val (svI c.frac.num), .val (sv c.frac.mn),
     .val (sv c.frac.mx), .val (svI r.eq), .val (svI r.bound), .val (svI r.assign), .val (svI c.fixed),
     .val (svI c.gen), .val (svI c.bin), .val (svI c.cont), d]

/-- `printPostCutProbInfo` (src/test/analysis.cpp:654-696). -/
def printPost (p : Prob) (g v : CutInfo) : Res (List Cell) :=
  let f := (p.cols.filter (·.isInt)).foldl (fun s c => fracStep s c.val) {}
  (density p).bind fun d => .ok
    [.val (svI f.num), .val (sv f.mn), .val (sv f.mx), d, .val (svI g.activeGmic), .val (svI v.activeGmic),
     .val (svI g.activeVpc), .val (svI v.activeVpc), .val (svI g.activeAll), .val (svI v.activeAll)]

/-! ## Disjunctions and cuts -/

/-- `printDisjInfo` (src/test/analysis.cpp:698-718). -/
def printDisj (d : DisjInfo) : List Cell :=
  [.val (sv d.avgTerms), .val (svI d.numIntSol), .val (svI d.numDisj), .val (sv d.avgDensity),
   .val (sv (d.avgOther 0)), .val (sv (d.avgOther 1)), .val (sv (d.avgOther 2)), .val (sv (d.avgOther 3)),
   .val (sv (d.avgOther 4)), .val (sv (d.avgOther 5)), .val (sv (d.avgOther 6)), .val (sv (d.avgOther 7))]

/-- A zero printed with `stringValue(0)`. -/
def zeroCell : Cell := .val (svI 0)

/-- The numbers by type of cut (src/test/analysis.cpp:729-735). -/
def typeCells (c : CutInfo) : Res (List Cell) :=
  if c.numCuts > 0 then
    match c.ofType with
    | some f => .ok [.val (svI (f .ONE_SIDED_CUT)), .val (svI (f .OPTIMALITY_CUT))]
    | none => .undef
  else .ok [zeroCell, zeroCell]

/-- The support of a family of cuts (src/test/analysis.cpp:736-753). -/
def supportCells (c : CutInfo) : List Cell :=
  if c.numCuts > 0 then [.val (svI c.minSupport), .val (svI c.maxSupport), .val (svN c.avgSupport)]
  else [zeroCell, zeroCell, zeroCell]

/-- The four numbers of every objective (src/test/analysis.cpp:759-780). -/
def heurCells (c : CutInfo) : Res (List Cell) :=
  if c.objTried > 0 then
    match c.objHeur, c.cutsHeur, c.failsHeur, c.activeHeur with
    | some o, some k, some f, some a => .ok (ObjType.all.flatMap fun t =>
        [.val (svI (o t)), .val (svI (k t)), .val (svI (f t)), .val (svI (a t))])
    | _, _, _, _ => .undef
  else .ok (ObjType.all.flatMap fun _ => [zeroCell, zeroCell, zeroCell, zeroCell])

/-- The numbers by type of failure (src/test/analysis.cpp:786-792). -/
def failCells (c : CutInfo) : Res (List Cell) :=
  if c.failures > 0 then
    match c.fails with
    | some f => .ok (Fail.all.map fun t => .val (svI (f t)))
    | none => .undef
  else .ok (Fail.all.map fun _ => zeroCell)

/-- `printCutInfo` (src/test/analysis.cpp:720-796): CUT INFO, OBJ INFO and FAIL INFO. -/
def printCut (g c : CutInfo) : Res (List Cell) :=
  (typeCells c).bind fun t => (heurCells c).bind fun h => (failCells c).bind fun f => .ok
    ([.val (svI c.rounds), .val (svI c.numCuts)] ++ t ++ supportCells c ++ supportCells g
      ++ [.val (svI c.objTried)] ++ h ++ [.val (svI c.failures)] ++ f)

/-! ## Names of the columns -/

/-- `CglVPC::ObjectiveTypeName` (src/cut/CglVPC.cpp:75-89). -/
def ObjType.name : ObjType → String
  | .DUMMY_OBJ => "DUMMY_OBJ" | .ALL_ONES => "ALL_ONES" | .CUT_VERTICES => "CUT_VERTICES"
  | .ITER_BILINEAR => "ITER_BILINEAR" | .UNIT_VECTORS => "UNIT_VECTORS" | .DISJ_LB => "DISJ_LB"
  | .TIGHT_POINTS => "TIGHT_POINTS" | .TIGHT_RAYS => "TIGHT_RAYS" | .TIGHT_POINTS2 => "TIGHT_POINTS2"
  | .TIGHT_RAYS2 => "TIGHT_RAYS2" | .USER => "USER" | .OBJ_CUT => "OBJ_CUT" | .ONE_SIDED => "ONE_SIDED"

/-- `CglVPC::FailureTypeName` (src/cut/CglVPC.cpp:90-110). -/
def Fail.name : Fail → String
  | .ABANDONED => "ABANDONED" | .BAD_DYNAMISM => "BAD_DYNAMISM" | .BAD_SUPPORT => "BAD_SUPPORT"
  | .BAD_VIOLATION => "BAD_VIOLATION" | .CUT_LIMIT => "CUT_LIMIT" | .DUAL_INFEASIBLE => "DUAL_INFEASIBLE"
  | .DUPLICATE_SIC => "DUPLICATE_SIC" | .DUPLICATE_VPC => "DUPLICATE_VPC"
  | .ITERATION_LIMIT => "ITERATION_LIMIT" | .ORTHOGONALITY_SIC => "ORTHOGONALITY_SIC"
  | .ORTHOGONALITY_VPC => "ORTHOGONALITY_VPC" | .PRIMAL_INFEASIBLE => "PRIMAL_INFEASIBLE"
  | .TIME_LIMIT => "TIME_LIMIT" | .NUMERICAL_ISSUES_WARNING => "NUMERICAL_ISSUES_WARNING"
  | .DLB_EQUALS_DUB_NO_OBJ => "DLB_EQUALS_DUB_NO_OBJ"
  | .DLB_EQUALS_LPOPT_NO_OBJ => "DLB_EQUALS_LPOPT_NO_OBJ"
  | .PRIMAL_INFEASIBLE_NO_OBJ => "PRIMAL_INFEASIBLE_NO_OBJ"
  | .NUMERICAL_ISSUES_NO_OBJ => "NUMERICAL_ISSUES_NO_OBJ" | .UNKNOWN => "UNKNOWN"

/-- `CglVPC::ExitReasonName` (src/cut/CglVPC.cpp:49-62). -/
def ExitReason.name : ExitReason → String
  | .SUCCESS => "SUCCESS" | .CUT_LIMIT => "CUT_LIMIT" | .FAIL_LIMIT => "FAIL_LIMIT"
  | .OPTIMAL_SOLUTION_FOUND => "OPTIMAL_SOLUTION_FOUND" | .PRLP_INFEASIBLE => "PRLP_INFEASIBLE"
  | .PRLP_NUMERICAL_ISSUES => "PRLP_NUMERICAL_ISSUES" | .PRLP_TIME_LIMIT => "PRLP_TIME_LIMIT"
  | .TIME_LIMIT => "TIME_LIMIT" | .TOO_FEW_TERMS => "TOO_FEW_TERMS" | .NO_CUTS_LIKELY => "NO_CUTS_LIKELY"
  | .NO_DISJUNCTION => "NO_DISJUNCTION" | .UNKNOWN => "UNKNOWN"

/-- `BB_INFO_CONTENTS` (include/test/BBHelper.hpp:52-54). -/
def bbContents : List String :=
  ["OBJ", "BOUND", "ITERS", "NODES", "ROOT_PASSES", "FIRST_CUT_PASS", "LAST_CUT_PASS", "ROOT_ITERS",
   "ROOT_TIME", "LAST_SOL_TIME", "TIME"]

/-- `OverallTimeStatsName` (src/main.cpp:73-89). -/
def timeNames : List String :=
  ["INIT_SOLVE_TIME", "GOMORY_GEN_TIME", "GOMORY_APPLY_TIME", "CUT_TOTAL_TIME", "VPC_GEN_TIME",
   "VPC_APPLY_TIME", "VPC_INIT_SOLVE_TIME", "VPC_DISJ_SETUP_TIME", "VPC_DISJ_GEN_TIME",
   "VPC_PRLP_SETUP_TIME", "VPC_PRLP_SOLVE_TIME", "VPC_GEN_CUTS_TIME", "BB_TIME", "TOTAL_APPLY_TIME",
   "TOTAL_TIME"]

/-- The order in which the three `unordered_map`s of parameters are visited
(include/VPCParameters.hpp:500, :591, :625); the standard does not fix it. -/
structure ParamOrder where
  ints : List IntId
  dbls : List DblId
  strs : List StrId

/-- `lowerCaseString` (src/utility/utility.cpp, declared at include/common/utility.hpp:210). -/
def lowerCase (s : String) : String := String.ofList (s.toList.map Char.toLower)

/-- `printParams(params, logfile, 7)` (include/VPCParameters.hpp:845-902): the names in lower case. -/
def paramNames (p : Params) (o : ParamOrder) : List String :=
  o.ints.map (fun i => lowerCase (p.ints i).name) ++ o.dbls.map (fun i => lowerCase (p.dbls i).name)
    ++ o.strs.map fun i => lowerCase (p.strs i).1

/-- `printParams(params, logfile, 8)` (include/VPCParameters.hpp:845-902): the values. -/
def paramCells (p : Params) (o : ParamOrder) : List Cell :=
  o.ints.map (fun i => Cell.val (svI (p.getI i))) ++ o.dbls.map (fun i => Cell.val (sv (p.getD i)))
    ++ o.strs.map fun i => Cell.text (p.getS i)

/-- The names of BOUND INFO and GAP INFO (src/test/analysis.cpp:104-130). -/
def boundNames : List String :=
  ["LP OBJ", "BEST DISJ OBJ", "WORST DISJ OBJ", "IP OBJ", "NUM CHANGED ROOT BOUNDS", "ROOT OBJ",
   "NUM GMIC", "UNSTR GMIC OBJ", "GMIC OBJ", "NUM L&PC", "L&PC OBJ", "NUM VPC", "VPC OBJ",
   "VPC+GMIC OBJ", "UNSTR GMIC % GAP CLOSED", "GMIC % GAP CLOSED", "L&PC % GAP CLOSED",
   "VPC % GAP CLOSED", "GMIC+VPC % GAP CLOSED"]

/-- The names of BB INFO (src/test/analysis.cpp:131-141; src/utility/preprocess.cpp:470-480): `a` and
`b` are the two families of runs, `pre k` is put before the name of the statistic `k`. -/
def summaryNames (pre : String → Bool → String) : List String :=
  ["NODES", "TIME"].flatMap fun n =>
    [pre "FIRST" false ++ n, pre "FIRST" true ++ n, pre "BEST" false ++ n, pre "BEST" true ++ n]

/-- The names of FULL BB INFO (src/test/analysis.cpp:233-250; src/utility/preprocess.cpp:517-534). -/
def fullNames (pre : String → Bool → String) : List String :=
  (bbContents.flatMap fun n =>
    [pre "FIRST" false ++ n, pre "FIRST" true ++ n, pre "BEST" false ++ n, pre "BEST" true ++ n,
     pre "AVG" false ++ n, pre "AVG" true ++ n])
  ++ (bbContents.map fun n => pre "ALL" false ++ n) ++ bbContents.map fun n => pre "ALL" true ++ n

/-- `"FIRST REF "`, `"FIRST REF+V "`, ... (src/test/analysis.cpp:135-138). -/
def refName (k : String) (cuts : Bool) : String := k ++ if cuts then " REF+V " else " REF "

/-- `"ORIG FIRST GUR "`, `"CLEANED FIRST GUR "`, ... (src/utility/preprocess.cpp:474-477). -/
def gurName (k : String) (cleaned : Bool) : String :=
  (if cleaned then "CLEANED " else "ORIG ") ++ k ++ " GUR "

/-- The names of the statistics of a problem (src/test/analysis.cpp:142-158). -/
def probNames : List String :=
  ["ROWS", "COLS", "NUM FRAC", "MIN FRACTIONALITY", "MAX FRACTIONALITY", "EQ ROWS", "BOUND ROWS",
   "ASSIGN ROWS", "FIXED COLS", "GEN INT", "BINARY", "CONTINUOUS", "A-DENSITY"]

/-- POST-CUT PROB, DISJ INFO, CUT INFO (src/test/analysis.cpp:159-212). -/
def cutNames : List String :=
  ["NEW NUM FRAC", "NEW MIN FRACTIONALITY", "NEW MAX FRACTIONALITY", "NEW A-DENSITY",
   "ACTIVE GMIC (gmics)", "ACTIVE VPC (gmics)", "ACTIVE GMIC (vpcs)", "ACTIVE VPC (vpcs)",
   "ACTIVE GMIC (all cuts)", "ACTIVE VPC (all cuts)",
   "NUM DISJ TERMS", "NUM INTEGER SOL", "NUM DISJ", "AVG DENSITY PRLP", "AVG ROWS PRLP",
   "AVG COLS PRLP", "AVG POINTS PRLP", "AVG RAYS PRLP", "AVG PARTIAL BB EXPLORED NODES",
   "AVG PARTIAL BB PRUNED NODES", "AVG PARTIAL BB MIN DEPTH", "AVG PARTIAL BB MAX DEPTH",
   "NUM ROUNDS", "NUM CUTS", "NUM ONE SIDED CUTS", "NUM OPTIMALITY CUTS", "MIN SUPPORT VPC",
   "MAX SUPPORT VPC", "AVG SUPPORT VPC", "MIN SUPPORT GOMORY", "MAX SUPPORT GOMORY",
   "AVG SUPPORT GOMORY"]

/-- OBJ INFO and FAIL INFO (src/test/analysis.cpp:213-232). -/
def objFailNames : List String :=
  "NUM OBJ" :: (ObjType.all.flatMap fun t =>
    ["NUM OBJ " ++ t.name, "NUM CUTS " ++ t.name, "NUM FAILS " ++ t.name, "NUM ACTIVE " ++ t.name])
  ++ "NUM FAILS" :: Fail.all.map Fail.name

/-- VERSION INFO (src/test/analysis.cpp:258-269). -/
def versionNames : List String :=
  ["vpc_version", "cbc_version", "clp_version", "gurobi_version", "cplex_version", "hostname",
   "cpu_model", "cpu_id"]

/-- WRAP UP INFO (src/test/analysis.cpp:270-277). -/
def wrapNames : List String := ["ExitReason", "end_time_string", "time elapsed", "instname"]

/-- The second line of the header (`printHeader`, src/test/analysis.cpp:99-278). -/
def headerNames (p : Params) (o : ParamOrder) : List String :=
  "INSTANCE" :: paramNames p o ++ boundNames ++ summaryNames refName ++ probNames ++ cutNames
    ++ objFailNames ++ fullNames refName ++ timeNames ++ versionNames ++ wrapNames ++ ["end"]

/-- The fields of the first line of the header when `cur` is already in the current field: a title
followed by `n` commas for each block (src/test/analysis.cpp:51-97). -/
def titleFrom (cur : String) : List (String × ℕ) → List String
  | [] => [cur ++ "END"]
  | b :: bs =>
    if b.2 = 0 then titleFrom (cur ++ b.1) bs
    else (cur ++ b.1) :: (List.replicate (b.2 - 1) "" ++ titleFrom "" bs)

/-- The fields of the first line of the header (src/test/analysis.cpp:51-97). -/
def titleFields (blocks : List (String × ℕ)) : List String := titleFrom "" blocks

/-- The counts of src/test/analysis.cpp:27-40 with the titles of :51-96; one comma stands for the
instance. `NUM_INT_PARAMS` is 24, `NUM_DOUBLE_PARAMS` 10, `NUM_STRING_PARAMS` 5. -/
def titleBlocks : List (String × ℕ) :=
  [("", 1), ("PARAM INFO", 24 + 10 + 5), ("BOUND INFO", 14), ("GAP INFO", 5), ("BB INFO", 4 * 2),
   ("ORIG PROB", 13), ("POST-CUT PROB", 10), ("DISJ INFO", 12), ("CUT INFO", 10),
   ("OBJ INFO", 1 + 4 * 13), ("FAIL INFO", 1 + 19), ("FULL BB INFO", 11 * 4 * 2),
   ("TIME INFO", timeNames.length), ("VERSION INFO", 8), ("WRAP UP INFO", 4)]

/-- The second line of the header when preprocessing (`printPreprocessingHeader`,
src/utility/preprocess.cpp:462-548). -/
def prepHeader : List String :=
  ["INSTANCE", "STRATEGY", "ORIG LP OBJ", "CLEANED LP OBJ"] ++ summaryNames gurName
    ++ probNames.map ("ORIG " ++ ·) ++ probNames.map ("CLEANED " ++ ·)
    ++ ["CLEANED BOUNDS CHANGED", "CLEANED NUM SB FIXED"] ++ fullNames gurName
    ++ ["vpc_version", "cbc_version", "clp_version", "gurobi_version", "cplex_version"]
    ++ wrapNames ++ [""]

/-- The counts of src/utility/preprocess.cpp:33-39 with the titles of :435-459. -/
def prepBlocks : List (String × ℕ) :=
  [("", 1), ("", 1), ("BOUND INFO", 2), ("BB INFO", 4 * 2), ("ORIG PROB INFO", 13),
   ("CLEANED PROB INFO", 15), ("FULL BB INFO", 11 * 4 * 2), ("VERSION INFO", 4), ("WRAP UP INFO", 4)]

/-! ## The line of a run -/

/-- What is printed at the end of every line (`wrapUp`, src/main.cpp:1093-1128): versions, host, exit
reason, time and instance. -/
structure WrapData where
  inst : String
  vpcVersion : String
  cbcVersion : String
  clpVersion : String
  gurobiVersion : String
  cplexVersion : String
  host : String
  cpuModel : String
  cpuId : ℤ
  reason : ExitReason
  endTime : String
  elapsed : ℚ

/-- The end of a line (src/main.cpp:1093-1128); a version that is not compiled in is empty. -/
def wrapCells (w : WrapData) : List Cell :=
  [.text w.vpcVersion, .text w.cbcVersion, .text w.clpVersion, .text w.gurobiVersion,
   .text w.cplexVersion, .text w.host, .text w.cpuModel, .val (.int w.cpuId),
   .text w.reason.name, .text w.endTime, .val (.num w.elapsed), .text w.inst, .text "DONE"]

/-- Everything that is printed about a run that generates cuts. `params` are the parameters when
`startUp` prints them, `bbRuns` is `BB_RUNS` at the end. -/
structure RunData where
  wrap : WrapData
  params : Params
  order : ParamOrder
  bbRuns : ℤ
  bound : BoundInfo
  noCuts : SummaryBB
  myCuts : SummaryBB
  orig : Prob
  post : Prob
  disj : DisjInfo
  gmics : CutInfo
  vpcs : CutInfo
  timer : TimeStats

/-- `get_time(id)` (include/common/TimeStats.hpp:199-205): the time of a timer that is still running is
not in it. -/
def TimeStats.getTimeId (t : TimeStats) (id : ℕ) : ℚ :=
  match t.tmrs[id]? with
  | some x => (x.value : ℚ) / clocksPerSec
  | none => -1

/-- `timer.print(logfile, 2)` (include/common/TimeStats.hpp:259-288). -/
def timeCells (t : TimeStats) : List Cell :=
  (List.range t.names.length).map fun id => .val (.num (t.getTimeId id))

/-- The line of a run with `PREPROCESS = 0`: `startUp` (src/main.cpp:1046-1050), then `wrapUp`
(src/main.cpp:1067-1087). -/
def logRow (d : RunData) : Res (List Cell) :=
  (printSummaryBB [d.noCuts, d.myCuts] (d.bbRuns == 0)).bind fun s =>
  (printOrig d.orig).bind fun og =>
  (printPost d.post d.gmics d.vpcs).bind fun pc =>
  (printCut d.gmics d.vpcs).bind fun ct =>
  (printFullBB [d.noCuts, d.myCuts] (d.bbRuns == 0)).bind fun f =>
  .ok (.text d.wrap.inst :: paramCells d.params d.order ++ printBound d.bound ++ printGap d.bound ++ s
    ++ og ++ pc ++ printDisj d.disj ++ ct ++ f ++ timeCells d.timer ++ wrapCells d.wrap)

/-- What `performCleaning` prints (src/utility/preprocess.cpp:255-267). -/
structure PrepData where
  strategy : ℤ
  origLp : ℚ
  cleanedLp : ℚ
  origBB : SummaryBB
  cleanedBB : SummaryBB
  orig : Prob
  cleaned : Prob
  boundsChanged : ℤ
  sbFixed : ℤ

/-- The line of a run with `PREPROCESS ≠ 0` (src/main.cpp:1046-1050, :286-291, :360-369, :1088-1128).
`none`: the first LP solution is integral, so that the program leaves before `performCleaning`. -/
def prepRow (w : WrapData) (d : Option PrepData) : Res (List Cell) :=
  match d with
  | none => .ok (.text w.inst :: wrapCells w)
  | some d =>
    (printSummaryBB [d.origBB, d.cleanedBB] false).bind fun s =>
    (printOrig d.orig).bind fun og =>
    (printOrig d.cleaned).bind fun cl =>
    (printFullBB [d.origBB, d.cleanedBB] false).bind fun f =>
    .ok ([.text w.inst, .val (.int d.strategy), .val (sv d.origLp), .val (sv d.cleanedLp)] ++ s ++ og ++ cl
      ++ [.val (.int d.boundsChanged), .val (.int d.sbFixed)] ++ f ++ wrapCells w)

/-! ## Characters -/

/-- The `;`-separated string built by `createStringFromBBInfoVec` (src/test/BBHelper.cpp:391-401). -/
def joinChars (fmt : Val → List Char) (l : List Val) : List Char :=
  l.foldl (fun acc v => acc ++ (if acc.isEmpty then [] else [';']) ++ fmt v) []

/-- The characters of a field; `fmt` is how numbers are printed. -/
def Cell.render (fmt : Val → List Char) : Cell → List Char
  | .blank => []
  | .val v => fmt v
  | .text s => s.toList
  | .join l => joinChars fmt l

/-- Fields separated by commas, closed by a newline: every field but the last is followed by `SEP`
(src/main.cpp:1046, :1093-1128). -/
def lineChars (fields : List (List Char)) : List Char := [','].intercalate fields ++ ['\n']

end VPC
