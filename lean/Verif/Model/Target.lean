import Verif.Model.Rounds
import Verif.Model.PRLP

/-!
# Which objectives are tried on the point-ray LP
(src/cut/PRLP.cpp:494-518, :817-890, :940-1326, :1328-1701, :1703-1990)

`targetStrongAndDifferentCuts` with everything it calls. The LP solver, the clock, the order produced by
`std::sort` and the LP with Gomory cuts come from `TWorld`; nothing is assumed about them here. The
point-ray LP itself (bounds, rows, objective) is part of the state, because the code changes it.

Two parameters are constants in the code (lower bound = default = upper bound,
include/VPCParameters.hpp): `MODE_OBJ_PER_POINT = 121`, so only the branch `mode_ones = 1` with points
and variables is modelled, and `NUM_OBJ_PER_POINT = -2`. The space is the nonbasic one.
-/
namespace VPC

/-- The LP held by the solver: what `PRLP::setup` loaded, the row of a point that is temporarily an
equation (src/cut/PRLP.cpp:1038-1040), and the objective (minimized). -/
structure PLP where
  base : BuiltLP
  eqRow : Option ℕ
  obj : List ℚ
deriving DecidableEq

/-- `getNumCols()`. -/
def PLP.cols (p : PLP) : ℕ := p.base.nz.length

/-- Row `k`: its coefficients. -/
def BuiltLP.vec (L : BuiltLP) (k : ℕ) : SVec := (L.rows.getD k ([], 0)).1

/-- `getRightHandSide()[k]`. -/
def BuiltLP.rhs (L : BuiltLP) (k : ℕ) : ℚ := (L.rows.getD k ([], 0)).2

/-- `getRowActivity()[k]` at the solution `x`. -/
def BuiltLP.act (L : BuiltLP) (k : ℕ) (x : List ℚ) : ℚ := sdot (L.vec k) (fun t => x.getD t 0)

/-- `addToObjectiveFromPackedVector(solver, vec, false, 1., NULL, false)`,
src/utility/SolverHelper.cpp:181-235. -/
def addObj (obj : List ℚ) (v : SVec) : List ℚ :=
  v.foldl (fun o e => o.set e.1 (o.getD e.1 0 + e.2)) obj

/-- `setConstantObjectiveFromPackedVector(solver, val)`, src/utility/SolverHelper.cpp:253-257. -/
def constObj (n : ℕ) (val : ℚ) : List ℚ := List.replicate n val

/-- `setConstantObjectiveFromPackedVector(solver, 0., numIndices, indices)`,
src/utility/SolverHelper.cpp:249-258: without indices all coefficients are set. -/
def clearObj (obj : List ℚ) (v : SVec) : List ℚ :=
  match v with
  | [] => constObj obj.length 0
  | e :: v => (e :: v).foldl (fun o e => o.set e.1 0) obj

/-- What the Gomory part of `iterateDeepestCutPostGomory` answers (src/cut/PRLP.cpp:1729-1759): the time
or iteration limit was hit; the LP is not optimal (`exit(1)`); or the objective for the point-ray LP
computed from the optimal point. -/
inductive GomoryStart
  | limit
  | notOptimal
  | point (obj : List ℚ)

/-- One pass of the loop of `iterateDeepestCutPostGomory`, steps 1-3 (src/cut/PRLP.cpp:1783-1964):
numerical trouble (return), neither optimal nor unbounded (`exit(1)`), the same point as before, or
the next objective. -/
inductive GomoryStep
  | abandon
  | notSolved
  | stationary
  | point (obj : List ℚ)

/-- A constraint used as an objective in `findCutsTightOnPoint`: a row, a lower bound or an upper bound
(src/cut/PRLP.cpp:1043, "index order is first rows, then col lb, then col ub"). -/
inductive PCand
  | row (k : ℕ)
  | lb (j : ℕ)
  | ub (j : ℕ)
deriving DecidableEq, Repr

/-- The outside world and the parameters: `solve n p` is the answer of the `n`-th solve, `timeUp n` the
answer of the `n`-th test of the time limit and `time n` the total PRLP solve time then, `basics` the
result of `getBasics`, `order` and `unitOrder` the orders made by `std::sort`. -/
structure TWorld where
  env : GenEnv
  solve : ℕ → PLP → Solve
  timeUp : ℕ → Bool
  time : ℕ → ℚ
  basics : ℕ → PLP → List ℕ
  order : ℕ → List PCand → List PCand
  unitOrder : List ℕ
  gomory : GomoryStart
  gomoryStep : ℕ → GomoryStep
  prlpTimeLimit : ℚ
  numCols : ℕ
  useAllOnes : ℤ
  useIterBilinear : ℤ
  useDisjLB : ℤ
  useTightPoints : ℤ
  useTightRays : ℤ
  useUnitVectors : ℤ

/-- One call of `genCut`: the heuristic it is charged to, the LP that was solved, and the operation on
the counters. Only kept to state theorems. -/
structure Attempt where
  heur : ObjType
  lp : PLP
  op : Op

/-- State: counters and cuts, LP, solution of the last solve if it was optimal, the PRLP's own `num_cuts`
and `num_failures`, number of solves and of limit tests so far, `numTimesTightRow`,
`numTimesTightColLB`, `numTimesTightColUB`, the variable `return_code` (0 initially), the log. -/
structure TSt where
  g : Gen
  lp : PLP
  cur : Option (List ℚ)
  pCuts : ℕ
  pFails : ℕ
  n : ℕ
  tick : ℕ
  tr : List ℤ
  tl : List ℤ
  tu : List ℤ
  rc : Ret
  log : List Attempt

/-- The solution if the solve was optimal. -/
def Solve.sol? : Solve → Option (List ℚ)
  | .optimal s => some s
  | _ => none

/-- `BAD_RETURN_CODE` (src/cut/PRLP.cpp:958, :1353). -/
def badRet (r : Ret) : Bool := decide (r = .fail .PRIMAL_INFEASIBLE)

/-- `this->num_cuts++` (src/cut/PRLP.cpp:736). -/
def Ret.cuts : Ret → ℕ
  | .num n => n
  | .fail _ => 0

/-- `this->num_failures++` (src/cut/PRLP.cpp:803-812). -/
def Ret.fails : Ret → ℕ
  | .num (_ + 1) => 0
  | _ => 1

/-- The state after a call of `genCut` with answer `s` and result `g'`, `r`. If the cut limit was reached
before the call nothing is solved (src/cut/PRLP.cpp:581-586). -/
def TSt.after (st : TSt) (e : GenEnv) (s : Solve) (heur : ObjType) (g' : Gen) (r : Ret) : TSt :=
  { st with
    g := g'
    cur := if st.g.reachedCutLimit then st.cur else s.sol?
    n := if st.g.reachedCutLimit then st.n else st.n + 1
    pCuts := st.pCuts + r.cuts
    pFails := st.pFails + r.fails
    log := st.log ++ [⟨heur, st.lp, .tryObj e st.cur s heur⟩] }

/-- `genCut` on the current LP, src/cut/PRLP.cpp:577-636. (`tryExtraHard` only changes the time limit of
the solve.) -/
def attempt (W : TWorld) (heur : ObjType) (st : TSt) : Res (TSt × Ret) :=
  match genCut W.env st.g st.cur (W.solve st.n st.lp) heur with
  | none => .exit
  | some (g', r) => .ok (st.after W.env (W.solve st.n st.lp) heur g' r, r)

/-- Count one more time tight; negative counters go down (src/cut/PRLP.cpp:859-863). -/
def bumpTight (t : ℤ) : ℤ := if t ≥ 0 then t + 1 else t - 1

/-- One counter of `updateStepForTargetedCutGeneration`. -/
def tightStep (tight : Bool) (t : ℤ) : ℤ := if tight then bumpTight t else t

/-- Is row `k` tight at `x`? src/cut/PRLP.cpp:853-855. -/
def rowTight (L : BuiltLP) (x : List ℚ) (k : ℕ) : Bool := isVal (L.act k x) (L.rhs k)

/-- Is the lower bound of column `j` tight? src/cut/PRLP.cpp:872. The default of `isNegInfinity` is the
smallest positive number. -/
def lbTight (L : BuiltLP) (x : List ℚ) (j : ℕ) : Bool :=
  !(isNegInfinity (L.lb.getD j 0)) && isVal (x.getD j 0) (L.lb.getD j 0)

/-- Is the upper bound of column `j` tight? src/cut/PRLP.cpp:882. -/
def ubTight (L : BuiltLP) (x : List ℚ) (j : ℕ) : Bool :=
  !(isInfinity (L.ub.getD j 0)) && isVal (x.getD j 0) (L.ub.getD j 0)

/-- `updateStepForTargetedCutGeneration`, src/cut/PRLP.cpp:844-893. -/
def updateTight (st : TSt) : TSt :=
  match st.cur with
  | none => st
  | some x =>
    { st with
      tr := st.tr.mapIdx fun k t => tightStep (rowTight st.lp.base x k) t
      tl := st.tl.mapIdx fun j t => tightStep (lbTight st.lp.base x j) t
      tu := st.tu.mapIdx fun j t => tightStep (ubTight st.lp.base x j) t }

/-- `tryOneObjective`, src/cut/PRLP.cpp:494-510. -/
def tryOne (W : TWorld) (heur : ObjType) (st : TSt) : Res (TSt × Ret) :=
  (attempt W heur st).bind fun p => .ok (updateTight p.1, p.2)

/-- `reachedCutLimit || reachedTimeLimit || reachedFailureLimit(num_cuts, num_failures)` (for example
src/cut/PRLP.cpp:1385-1388). -/
def limits (W : TWorld) (st : TSt) : Bool :=
  st.g.reachedCutLimit || W.timeUp st.tick ||
    reachedFailureLimit st.g.cutLimit (W.time st.tick) W.prlpTimeLimit st.pCuts st.pFails

/-- A limit test was made. -/
def TSt.ticked (st : TSt) : TSt := { st with tick := st.tick + 1 }

/-- Change the objective. -/
def TSt.setObj (st : TSt) (obj : List ℚ) : TSt := { st with lp := { st.lp with obj := obj } }

/-- Set the upper bound of a row to its lower bound, or restore it (src/cut/PRLP.cpp:1040, :1316). -/
def TSt.setEq (st : TSt) (k : Option ℕ) : TSt := { st with lp := { st.lp with eqRow := k } }

/-! ## `findCutsTightOnPoint` -/

/-- The bound objectives of a basic column, src/cut/PRLP.cpp:1057-1091. -/
def colCands (st : TSt) (x : List ℚ) (j : ℕ) : List PCand :=
  (if !(isNegInfinity (st.lp.base.lb.getD j 0)) && decide (st.tl.getD j 0 ≥ 0)
      && !(isZero (x.getD j 0 - st.lp.base.lb.getD j 0)) then [.lb j] else []) ++
  (if !(isInfinity (st.lp.base.ub.getD j 0)) && decide (st.tu.getD j 0 ≥ 0)
      && !(isZero (x.getD j 0 - st.lp.base.ub.getD j 0)) then [.ub j] else [])

/-- The objective of a row whose slack is basic, src/cut/PRLP.cpp:1092-1101: the slack must not be zero.
With points in use (mode 121) the counter of the row is not looked at. -/
def rowCands (st : TSt) (x : List ℚ) (k : ℕ) : List PCand :=
  if !(isZero (st.lp.base.act k x - st.lp.base.rhs k)) then [.row k] else []

/-- `indexToCheck`, src/cut/PRLP.cpp:1053-1124. -/
def candidates (st : TSt) (x : List ℚ) (basics : List ℕ) : List PCand :=
  basics.flatMap fun v =>
    if v < st.lp.cols then colCands st x v else rowCands st x (v - st.lp.cols)

/-- The vector added to the objective, src/cut/PRLP.cpp:1151-1166, :1224-1256. -/
def candVec (L : BuiltLP) : PCand → SVec
  | .row k => L.vec k
  | .lb j => [(j, 1)]
  | .ub j => [(j, -1)]

/-- Has the counter of the candidate changed since `saved`? src/cut/PRLP.cpp:1228-1250. -/
def changed (st saved : TSt) : PCand → Bool
  | .row k => decide (st.tr.getD k 0 ≠ saved.tr.getD k 0)
  | .lb j => decide (st.tl.getD j 0 ≠ saved.tl.getD j 0)
  | .ub j => decide (st.tu.getD j 0 ≠ saved.tu.getD j 0)

/-- Add the next candidate to the objective, if there is one. -/
def addCand (st : TSt) : List PCand → TSt
  | [] => st
  | c :: _ => st.setObj (addObj st.lp.obj (candVec st.lp.base c))

/-- The loop over candidates, src/cut/PRLP.cpp:1189-1314, `k` passes left. The list starts with the
candidate in the objective; `check_ind >= numToCheck - 1` means that it has at most one element. -/
def candLoop (W : TWorld) (heur : ObjType) (saved : TSt) : ℕ → List PCand → Ret → TSt → Res TSt
  | 0, _, _, st => .ok st
  | k + 1, cs, r, st =>
    if badRet r || limits W st then .ok st.ticked
    else match cs with
      | [] => .ok st.ticked
      | [_] => .ok st.ticked
      | c :: rest => (tryOne W heur st.ticked).bind fun p =>
          if k = 0 then .ok p.1
          else
            let st' := p.1.setObj (clearObj p.1.lp.obj (candVec p.1.lp.base c))
            let rest' := rest.dropWhile (changed st' saved)
            candLoop W heur saved k rest' p.2 (addCand st' rest')

/-- The objective is zeroed and the row restored (src/cut/PRLP.cpp:1176-1177, :1315-1316). -/
def TSt.restore (st : TSt) : TSt := (st.setObj (constObj st.lp.cols 0)).setEq none

/-- `findCutsTightOnPoint` after the first objective, src/cut/PRLP.cpp:1037-1325. -/
def findMore (W : TWorld) (heur : ObjType) (row : ℕ) (maxObj : ℤ) (x : List ℚ) (r : Ret) (st : TSt) :
    Res TSt :=
  let st := st.setEq (some row)
  let cs := W.order st.n (candidates st x (W.basics st.n st.lp))
  let st1 := addCand st cs
  if cs.length ≤ 1 then .ok st1.restore
  else (candLoop W heur st (maxObj - 1).toNat cs r st1).bind fun st => .ok st.restore

/-- After the first objective: stop, or continue with the row as an equation
(src/cut/PRLP.cpp:993-1015). -/
def findCont (W : TWorld) (heur : ObjType) (row : ℕ) (maxObj : ℤ) (r : Ret) (st : TSt) :
    Res TSt :=
  if badRet r || limits W st then .ok st.ticked
  else match st.ticked.cur with
    | none => .ok st.ticked
    | some x =>
      if !(rowTight st.lp.base x row) || decide (maxObj ≤ 1) then .ok st.ticked
      else findMore W heur row maxObj x r st.ticked

/-- `findCutsTightOnPoint`, src/cut/PRLP.cpp:947-1326. Its return value (1 unless the last return code
was `BAD_RETURN_CODE`) and the tests of it by the callers are omitted: `genCut_never_bad` shows that it is
always 1. -/
def findCuts (W : TWorld) (heur : ObjType) (row : ℕ) (maxObj : ℤ) (st : TSt) : Res TSt :=
  let v := st.lp.base.vec row
  (tryOne W heur (st.setObj (addObj st.lp.obj v))).bind fun p =>
    findCont W heur row maxObj p.2 (p.1.setObj (clearObj p.1.lp.obj v))

/-! ## `iterateDeepestCutPostGomory` -/

/-- The loop, src/cut/PRLP.cpp:1776-1976, `k` passes left, `j` the number of the pass. Its limit test has
no time limit. -/
def gomoryLoop (W : TWorld) : ℕ → ℕ → TSt → Res TSt
  | 0, _, st => .ok st
  | k + 1, j, st =>
    if st.g.reachedCutLimit ||
        reachedFailureLimit st.g.cutLimit (W.time st.tick) W.prlpTimeLimit st.pCuts st.pFails then
      .ok st.ticked
    else match W.gomoryStep j with
      | .abandon => .ok st.ticked
      | .notSolved => .exit
      | .stationary => .ok st.ticked
      | .point obj =>
        let st := st.ticked.setObj obj
        let s := W.solve st.n st.lp
        let st := { st with n := st.n + 1, cur := s.sol? }
        match resolvePRLP s with
        | some _ => .ok st
        | none => (attempt W .ITER_BILINEAR st).bind fun p =>
            match p.2 with
            | .fail _ => .ok p.1
            | .num _ => gomoryLoop W k (j + 1) p.1

/-- `iterateDeepestCutPostGomory`, src/cut/PRLP.cpp:1711-1979. -/
def iterate (W : TWorld) (st : TSt) : Res TSt :=
  if st.g.reachedCutLimit || decide (W.useIterBilinear ≤ 0) then .ok st
  else match W.gomory with
    | .limit => .ok st
    | .notOptimal => .exit
    | .point obj => (attempt W .ITER_BILINEAR (st.setObj obj)).bind fun p =>
        match p.2 with
        | .fail _ => .ok p.1
        | .num _ =>
          if W.useIterBilinear = 1 then .ok p.1
          else gomoryLoop W (W.useIterBilinear - 1).toNat 1 p.1

/-! ## `targetStrongAndDifferentCuts` -/

/-- `setupForTargetedCutGeneration`, src/cut/PRLP.cpp:823-837: the rows of the points. -/
def pointRows (L : BuiltLP) : List ℕ :=
  (List.range L.rows.length).filter fun k => !(isZero (L.rhs k))

/-- `setupForTargetedCutGeneration`: the rows of the rays. -/
def rayRows (L : BuiltLP) : List ℕ :=
  (List.range L.rows.length).filter fun k => isZero (L.rhs k)

/-- `ceil(sqrt(n))`. -/
def ceilSqrt (n : ℕ) : ℕ := if Nat.sqrt n * Nat.sqrt n = n then Nat.sqrt n else Nat.sqrt n + 1

/-- `MAX_NUM_OBJ_PER_POINT`, src/cut/PRLP.cpp:1355-1358, with `NUM_OBJ_PER_POINT = -2`. -/
def maxObjPerPoint (cutLimit : ℤ) : ℤ := -1 * (-2) * cutLimit

/-- `MAX_NUM_RAYS_TO_TRY`, src/cut/PRLP.cpp:1359-1362. -/
def maxRays (W : TWorld) (L : BuiltLP) : ℤ :=
  if W.useTightRays < 0 then -1 * W.useTightRays * ceilSqrt (rayRows L).length else W.useTightRays

/-- `MAX_NUM_UNIT_VECTORS_TO_TRY`, src/cut/PRLP.cpp:1363-1366. -/
def maxUnits (W : TWorld) (L : BuiltLP) : ℤ :=
  if W.useUnitVectors < 0 then -1 * W.useUnitVectors * ceilSqrt W.numCols
  else min L.nz.length W.useUnitVectors

/-- What a phase hands on: the state, and whether the function returns ("abandon"). -/
abbrev Phase := Res (TSt × Bool)

/-- Go on unless the function has returned. -/
def Phase.next (p : Phase) (f : TSt → Phase) : Phase :=
  p.bind fun q => if q.2 then .ok q else f q.1

/-- The test after a phase (for example src/cut/PRLP.cpp:1385-1390). -/
def abandonTest (W : TWorld) (st : TSt) : Phase := .ok (st.ticked, badRet st.rc || limits W st)

/-- All ones, src/cut/PRLP.cpp:1370-1391. -/
def phaseAllOnes (W : TWorld) (st : TSt) : Phase :=
  if W.useAllOnes = 1 then
    (tryOne W .ALL_ONES (st.setObj (constObj st.lp.cols 1))).bind fun p =>
      abandonTest W { p.1.setObj (constObj p.1.lp.cols 0) with rc := p.2 }
  else .ok (st, false)

/-- The post-Gomory point, src/cut/PRLP.cpp:1394-1418. -/
def phaseGomory (W : TWorld) (st : TSt) : Phase :=
  if W.useIterBilinear ≥ 1 then
    (iterate W st).bind fun st => abandonTest W (st.setObj (constObj st.lp.cols 0))
  else .ok (st, false)

/-- The solver is reset, src/cut/PRLP.cpp:1426-1431: the solution becomes the zero vector. -/
def resetSolver (W : TWorld) (st : TSt) : TSt :=
  { st with
    n := st.n + 1
    cur := (W.solve st.n st.lp).sol?.map fun _ => constObj st.lp.cols 0 }

/-- The point with the lowest objective value, src/cut/PRLP.cpp:1436-1460. -/
def phaseDisjLB (W : TWorld) (first : ℕ) (maxObj : ℤ) (st : TSt) : Phase :=
  if W.useDisjLB > 0 then
    (findCuts W .DISJ_LB first maxObj st).bind fun st => abandonTest W st
  else .ok (st, false)

/-- The loop over points, src/cut/PRLP.cpp:1473-1494; `tried` is `num_points_tried`. Returns also
`tried`. (The marks in `pointIndex` are only read back by code that removes them again.) -/
def pointsLoop (W : TWorld) (maxObj : ℤ) : List ℕ → ℕ → TSt → Res (TSt × Bool × ℕ)
  | [], tried, st => .ok (st, false, tried)
  | k :: ks, tried, st =>
    if badRet st.rc || limits W st then .ok (st.ticked, true, tried)
    else if (tried : ℤ) ≥ W.useTightPoints then .ok (st.ticked, false, tried)
    else if st.tr.getD k 0 ≠ 0 then pointsLoop W maxObj ks tried st.ticked
    else (findCuts W .TIGHT_POINTS k maxObj st.ticked).bind fun st =>
      pointsLoop W maxObj ks (tried + 1) st

/-- Indices `1, ..., size - 2` of `pointIndex`, src/cut/PRLP.cpp:1473. -/
def middlePoints (ps : List ℕ) : List ℕ := (ps.drop 1).dropLast

/-- Points that are not tight yet, src/cut/PRLP.cpp:1463-1496. -/
def phasePoints (W : TWorld) (ps : List ℕ) (maxObj : ℤ) (st : TSt) : Res (TSt × Bool × ℕ) :=
  (if W.useTightPoints > 0 then pointsLoop W maxObj (middlePoints ps) 0 st
    else .ok (st, false, 0)).bind fun q =>
      if q.2.1 then .ok q else
        (abandonTest W q.1).bind fun p => .ok (p.1, p.2, q.2.2)

/-- The bound of a column after its unit vector was minimized, src/cut/PRLP.cpp:1545-1550. The objective
value is `obj · x`. -/
def newLower (p : PLP) (x : List ℚ) (j : ℕ) : ℚ :=
  if greaterThanVal (x.getD j 0) (p.base.lb.getD j 0) then (List.zipWith (· * ·) p.obj x).sum
  else p.base.lb.getD j 0

/-- `setColLower` after a unit vector, src/cut/PRLP.cpp:1545-1550. -/
def raiseLower (j : ℕ) (st : TSt) : TSt :=
  match st.cur with
  | none => st
  | some x =>
    { st with lp := { st.lp with base :=
      { st.lp.base with lb := st.lp.base.lb.set j (newLower st.lp x j) } } }

/-- One unit vector, src/cut/PRLP.cpp:1540-1551. -/
def tryUnit (W : TWorld) (j : ℕ) (st : TSt) : Res TSt :=
  (tryOne W .UNIT_VECTORS (st.setObj (st.lp.obj.set j 1))).bind fun p =>
    let st := raiseLower j { p.1 with rc := p.2 }
    .ok (st.setObj (st.lp.obj.set j 0))

/-- The loop over unit vectors, src/cut/PRLP.cpp:1525-1552. -/
def unitsLoop (W : TWorld) (max : ℤ) : List ℕ → ℕ → TSt → Phase
  | [], _, st => .ok (st, false)
  | j :: js, tried, st =>
    if (tried : ℤ) ≥ max then .ok (st, false)
    else if badRet st.rc || limits W st then .ok (st.ticked, true)
    else if st.tl.getD j 0 ≠ 0 then unitsLoop W max js tried st.ticked
    else (tryUnit W j st.ticked).bind fun st => unitsLoop W max js (tried + 1) st

/-- Unit vectors, src/cut/PRLP.cpp:1506-1561. -/
def phaseUnits (W : TWorld) (max : ℤ) (st : TSt) : Phase :=
  Phase.next (if max > 0 then unitsLoop W max W.unitOrder 0 st else .ok (st, false)) (abandonTest W)

/-- A ray that failed is marked, src/cut/PRLP.cpp:1597-1600. -/
def markRay (k : ℕ) (r : Ret) (tr : List ℤ) : List ℤ :=
  match r with
  | .fail _ => tr.set k ((tr.getD k 0 + 1) * -1)
  | .num _ => tr

/-- One ray as objective, src/cut/PRLP.cpp:1590-1601, :1689-1695. -/
def tryRay (W : TWorld) (heur : ObjType) (mark : Bool) (k : ℕ) (st : TSt) : Res TSt :=
  (tryOne W heur (st.setObj (addObj st.lp.obj (st.lp.base.vec k)))).bind fun p =>
    let st := { p.1 with rc := p.2, tr := if mark then markRay k p.2 p.1.tr else p.1.tr }
    .ok (st.setObj (clearObj st.lp.obj (st.lp.base.vec k)))

/-- The loop over rays, src/cut/PRLP.cpp:1574-1602. -/
def raysLoop (W : TWorld) (max : ℤ) : List ℕ → ℕ → TSt → Res (TSt × Bool × ℕ)
  | [], tried, st => .ok (st, false, tried)
  | k :: ks, tried, st =>
    if (tried : ℤ) ≥ max then .ok (st, false, tried)
    else if badRet st.rc || limits W st then .ok (st.ticked, true, tried)
    else if st.tr.getD k 0 ≠ 0 then raysLoop W max ks tried st.ticked
    else (tryRay W .TIGHT_RAYS true k st.ticked).bind fun st => raysLoop W max ks (tried + 1) st

/-- Rays that are not tight yet, src/cut/PRLP.cpp:1564-1611. -/
def phaseRays (W : TWorld) (rs : List ℕ) (max : ℤ) (st : TSt) : Res (TSt × Bool × ℕ) :=
  (if max > 0 then raysLoop W max rs 0 st else .ok (st, false, 0)).bind fun q =>
    if q.2.1 then .ok q else
      (abandonTest W q.1).bind fun p => .ok (p.1, p.2, q.2.2)

/-- The loop over points, second time, src/cut/PRLP.cpp:1627-1651. -/
def points2Loop (W : TWorld) (first : ℕ) (maxObj : ℤ) : List ℕ → ℕ → TSt → Phase
  | [], _, st => .ok (st, false)
  | k :: ks, tried, st =>
    if badRet st.rc || limits W st then .ok (st.ticked, true)
    else if (tried : ℤ) ≥ W.useTightPoints then .ok (st.ticked, false)
    else if st.tr.getD k 0 < 0 then points2Loop W first maxObj ks tried st.ticked
    else if k = first then points2Loop W first maxObj ks tried st.ticked
    else (findCuts W .TIGHT_POINTS2 k maxObj st.ticked).bind fun st =>
      points2Loop W first maxObj ks (tried + 1) st

/-- Points again, src/cut/PRLP.cpp:1613-1660. -/
def phasePoints2 (W : TWorld) (ps : List ℕ) (first : ℕ) (maxObj : ℤ) (tried : ℕ) (st : TSt) : Phase :=
  Phase.next
    (if (tried : ℤ) < W.useTightPoints then points2Loop W first maxObj ps tried st else .ok (st, false))
    (abandonTest W)

/-- The loop over rays, second time, src/cut/PRLP.cpp:1672-1696. -/
def rays2Loop (W : TWorld) (max : ℤ) : List ℕ → ℕ → TSt → Phase
  | [], _, st => .ok (st, false)
  | k :: ks, tried, st =>
    if badRet st.rc || limits W st then .ok (st.ticked, true)
    else if (tried : ℤ) ≥ max then .ok (st.ticked, false)
    else if st.tr.getD k 0 < 0 then rays2Loop W max ks tried st.ticked
    else (tryRay W .TIGHT_RAYS2 false k st.ticked).bind fun st => rays2Loop W max ks (tried + 1) st

/-- Rays again, src/cut/PRLP.cpp:1662-1698. -/
def phaseRays2 (W : TWorld) (rs : List ℕ) (max : ℤ) (tried : ℕ) (st : TSt) : Phase :=
  if (tried : ℤ) < max then rays2Loop W max rs tried st else .ok (st, false)

/-- From the unit vectors on, src/cut/PRLP.cpp:1505-1700. -/
def phasesLate (W : TWorld) (L : BuiltLP) (first : ℕ) (maxObj : ℤ) (tried : ℕ) (st : TSt) : Phase :=
  Phase.next (phaseUnits W (maxUnits W L) st) fun st =>
    (phaseRays W (rayRows L) (maxRays W L) st).bind fun q =>
      if q.2.1 then .ok (q.1, true) else
        Phase.next (phasePoints2 W (pointRows L) first maxObj tried q.1) fun st =>
          phaseRays2 W (rayRows L) (maxRays W L) q.2.2 st

/-- From the point with the lowest objective value on, src/cut/PRLP.cpp:1433-1700. `pointIndex[0]` is
read even if there is no point. -/
def phasesPoints (W : TWorld) (L : BuiltLP) (maxObj : ℤ) (st : TSt) : Phase :=
  match pointRows L with
  | [] => .undef
  | first :: ps =>
    Phase.next (phaseDisjLB W first maxObj st) fun st =>
      (phasePoints W (first :: ps) maxObj st).bind fun q =>
        if q.2.1 then .ok (q.1, true) else phasesLate W L first maxObj q.2.2 q.1

/-- `targetStrongAndDifferentCuts`, src/cut/PRLP.cpp:1332-1701, on the LP `L` loaded by `PRLP::setup` (with
zero objective) with the solution `cur` of the solves made there. The number returned is `pCuts` (0 on
the first exit, when it is 0). -/
def targetCuts (W : TWorld) (L : BuiltLP) (cur : Option (List ℚ)) (g : Gen) : Res TSt :=
  let st : TSt :=
    { g := g, lp := ⟨L, none, constObj L.nz.length 0⟩, cur := cur, pCuts := 0, pFails := 0, n := 0,
      tick := 0, tr := L.rows.map fun _ => 0, tl := L.nz.map fun _ => 0, tu := L.nz.map fun _ => 0,
      rc := .num 0, log := [] }
  if g.reachedCutLimit || W.timeUp 0 then .ok st
  else
    (Phase.next (phaseAllOnes W st.ticked) fun st =>
      Phase.next (phaseGomory W st) fun st =>
        phasesPoints W L (maxObjPerPoint g.cutLimit) (resetSolver W st)).bind fun q => .ok q.1

end VPC
