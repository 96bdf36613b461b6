import Verif.Model.Rounds
import Verif.Model.Params

/-!
# Statistics reported about cuts and disjunctions (src/test/analysis.cpp:799-1419)

A `double` that may be NaN or infinite because of a division by zero is `none`. A counter vector of
`SummaryCutInfo` (include/test/analysis.hpp:66-80) is `none` while it is empty; reading it then is
undefined behaviour. `int` overflow is not modelled.
-/
namespace VPC

/-- `SummaryCutInfo` with its default member values (include/test/analysis.hpp:66-80);
`num_active_lpc` is never used. -/
structure CutInfo where
  numCuts : ℕ := 0
  activeGmic : ℤ := 0
  activeVpc : ℤ := 0
  activeAll : ℤ := 0
  objTried : ℤ := 0
  failures : ℤ := 0
  rounds : ℤ := 0
  minSupport : ℤ := 2 ^ 31 - 1
  maxSupport : ℤ := 0
  avgSupport : Option ℚ := some 0
  cutType : List CutType := []
  objType : List ObjType := []
  ofType : Option (CutType → ℤ) := none
  cutsHeur : Option (ObjType → ℤ) := none
  objHeur : Option (ObjType → ℤ) := none
  failsHeur : Option (ObjType → ℤ) := none
  activeHeur : Option (ObjType → ℤ) := none
  fails : Option (Fail → ℤ) := none

/-- Division of doubles: a zero divisor gives NaN or an infinity. -/
def fdiv (a : Option ℚ) (b : ℚ) : Option ℚ :=
  a.bind fun a => if b = 0 then none else some (a / b)

/-- `checkCutDensity` (src/test/analysis.cpp:799-818): entries that are not zero up to `eps`; the
lines that would update `min_support` and `max_support` (813-816) are commented out, so the record is
not changed. -/
def checkCutDensity (eps : ℚ) (c : RowCut) : ℕ :=
  c.row.length - c.row.countP fun e : ℕ × ℚ => isZero e.2 eps

/-- Sum of the supports (the loops of src/test/analysis.cpp:1252-1256, :1335-1342). -/
def totalSupport (eps : ℚ) (cs : List RowCut) : ℕ := (cs.map (checkCutDensity eps)).sum

/-- `(avg_support * old_num_cuts + 1. * total_support) / (old_num_cuts + cuts->sizeCuts())`
(src/test/analysis.cpp:1258, :1344). -/
def newAvg (avg : Option ℚ) (old total size : ℕ) : Option ℚ :=
  fdiv (avg.map fun a => a * old + total) ((old + size : ℕ) : ℚ)

/-- `updateGMICInfo` (src/test/analysis.cpp:1241-1260). The pointer `cuts` is dereferenced at line 1249
before it is tested at line 1252. -/
def updateGMICInfo (ci : CutInfo) (cuts : Option (List RowCut)) (eps : ℚ) : Res CutInfo :=
  match cuts with
  | none => .undef
  | some cs => .ok { ci with
      numCuts := ci.numCuts + cs.length
      cutType := ci.cutType ++ List.replicate cs.length CutType.GMIC
      avgSupport := newAvg ci.avgSupport ci.numCuts (totalSupport eps cs) cs.length }

/-- Merge one counter vector: add if there is one, copy otherwise (src/test/analysis.cpp:1292-1298). -/
def mergeCounts {κ : Type} (a : Option (κ → ℤ)) (b : κ → ℤ) : κ → ℤ :=
  match a with
  | some f => fun k => f k + b k
  | none => b

/-- The counters per objective (src/test/analysis.cpp:1300-1310): the test is on `numCutsFromHeur`
only. -/
def mergeHeur (ci : CutInfo) (g : Gen) : Res CutInfo :=
  match ci.cutsHeur, ci.objHeur, ci.failsHeur with
  | none, _, _ => .ok { ci with
      cutsHeur := some g.numCutsFromHeur
      objHeur := some g.numObjFromHeur
      failsHeur := some g.numFailsFromHeur }
  | some a, some b, some c => .ok { ci with
      cutsHeur := some fun k => a k + g.numCutsFromHeur k
      objHeur := some fun k => b k + g.numObjFromHeur k
      failsHeur := some fun k => c k + g.numFailsFromHeur k }
  | some _, _, _ => .undef

/-- `cutType` and `objType` (src/test/analysis.cpp:1283-1290). -/
def mergeTypes (ci : CutInfo) (g : Gen) : CutInfo :=
  if g.repeatedUse then { ci with cutType := g.cutType, objType := g.objType }
  else { ci with cutType := ci.cutType ++ g.cutType, objType := ci.objType ++ g.objType }

/-- The part of `updateCutInfo` about the collection (src/test/analysis.cpp:1320-1345); `old` is
`old_num_cuts`. -/
def mergeSupport (ci : CutInfo) (old num : ℕ) (cuts : Option (List RowCut)) (eps : ℚ) : Res CutInfo :=
  match cuts with
  | none => .ok ci
  | some cs =>
    if cs.length < num then .exit
    else if num < cs.length ∧ cs.length ≠ old + num then .exit
    else .ok { ci with
      avgSupport := newAvg ci.avgSupport old (totalSupport eps (cs.drop (cs.length - num))) cs.length }

/-- `updateCutInfo` (src/test/analysis.cpp:1268-1346). -/
def updateCutInfo (ci : CutInfo) (g : Gen) (cuts : Option (List RowCut)) (eps : ℚ) : Res CutInfo :=
  let c1 := mergeTypes { ci with
    numCuts := ci.numCuts + g.numCuts
    objTried := ci.objTried + g.numObj
    failures := ci.failures + g.numFailures } g
  let c2 := { c1 with ofType := some (mergeCounts c1.ofType g.numCutsOfType) }
  (mergeHeur c2 g).bind fun c3 =>
    mergeSupport { c3 with fails := some (mergeCounts c3.fails g.numFails) } ci.numCuts g.numCuts cuts eps

/-- The record after the reset at the top of `setCutInfo` (src/test/analysis.cpp:1357-1377). -/
def resetCutInfo (ci : CutInfo) (numRounds : ℕ) : CutInfo :=
  { ci with
    numCuts := 0, activeGmic := 0, activeVpc := 0, activeAll := 0, objTried := 0, failures := 0
    rounds := numRounds, cutType := [], objType := []
    ofType := some fun _ => 0, cutsHeur := some fun _ => 0, objHeur := some fun _ => 0
    failsHeur := some fun _ => 0, activeHeur := some fun _ => 0, fails := some fun _ => 0 }

/-- `v[i] += w[i]` for all `i`; one of the vectors may be empty (undefined behaviour). -/
def addCounts {κ : Type} (a b : Option (κ → ℤ)) : Res (Option (κ → ℤ)) :=
  match a, b with
  | some f, some h => .ok (some fun k => f k + h k)
  | _, _ => .undef

/-- `numActiveFromHeur` is added only if it is there (src/test/analysis.cpp:1399-1403). -/
def addActive (a b : Option (ObjType → ℤ)) : Res (Option (ObjType → ℤ)) :=
  match b with
  | none => .ok a
  | some h => addCounts a (some h)

/-- Body of the first loop of `setCutInfo` (src/test/analysis.cpp:1384-1406). -/
def addRound (ci r : CutInfo) : Res CutInfo :=
  (addCounts ci.ofType r.ofType).bind fun a =>
  (addCounts ci.cutsHeur r.cutsHeur).bind fun b =>
  (addCounts ci.objHeur r.objHeur).bind fun c =>
  (addCounts ci.failsHeur r.failsHeur).bind fun d =>
  (addActive ci.activeHeur r.activeHeur).bind fun e =>
  (addCounts ci.fails r.fails).bind fun f =>
  .ok { ci with
    numCuts := ci.numCuts + r.numCuts
    activeGmic := ci.activeGmic + r.activeGmic
    activeVpc := ci.activeVpc + r.activeVpc
    activeAll := ci.activeAll + r.activeAll
    objTried := ci.objTried + r.objTried
    failures := ci.failures + r.failures
    ofType := a, cutsHeur := b, objHeur := c, failsHeur := d, activeHeur := e, fails := f }

/-- The first loop of `setCutInfo` (src/test/analysis.cpp:1383-1407). -/
def addRounds : List CutInfo → CutInfo → Res CutInfo
  | [], ci => .ok ci
  | r :: rs, ci => (addRound ci r).bind (addRounds rs)

/-- The second loop of `setCutInfo` (src/test/analysis.cpp:1411-1418): the first `num_cuts` entries of
`cutType` and `objType` of every round. -/
def copyTypes : List CutInfo → Res (List CutType × List ObjType)
  | [] => .ok ([], [])
  | r :: rs =>
    if r.numCuts ≤ r.cutType.length ∧ r.numCuts ≤ r.objType.length then
      (copyTypes rs).bind fun t =>
        .ok (r.cutType.take r.numCuts ++ t.1, r.objType.take r.numCuts ++ t.2)
    else .undef

/-- `setCutInfo(cutInfo, num_rounds, oldCutInfos)` (src/test/analysis.cpp:1351-1419); `none` is a null
pointer, otherwise the list is the first `num_rounds` records. -/
def setCutInfo (ci : CutInfo) (old : Option (List CutInfo)) : Res CutInfo :=
  match old with
  | none => .ok (resetCutInfo ci 0)
  | some rs =>
    (addRounds rs (resetCutInfo ci rs.length)).bind fun c =>
    (copyTypes rs).bind fun t =>
    .ok { c with cutType := t.1, objType := t.2 }

/-! ## Activity of the cuts -/

/-- A solver as `checkCutActivity` sees it: `none` if the pointer is null or the LP is not proven
optimal, otherwise the solution. -/
abbrev LpPoint := Option Vec

/-- `checkCutActivity` (src/test/analysis.cpp:821-830). -/
def checkCutActivity (s : LpPoint) (c : RowCut) : Bool :=
  match s with
  | some x => isVal (sdot c.row x) c.lb
  | none => false

/-- `b ? 1 : 0`, the increments of src/test/analysis.cpp:880-889. -/
def one (b : Bool) : ℤ := if b then 1 else 0

/-- `numActiveFromHeur[objType[cut_ind]]++` (src/test/analysis.cpp:885). -/
def activateHeur (ci : CutInfo) (i : ℕ) (active : Bool) : Res CutInfo :=
  if active then
    match ci.objType[i]?, ci.activeHeur with
    | some h, some f => .ok { ci with activeHeur := some (bump f h 1) }
    | _, _ => .undef
  else .ok ci

/-- The loop over the VPCs in `analyzeStrength` (src/test/analysis.cpp:878-891); `i` is `cut_ind`. -/
def activityLoop (sg sv sa : LpPoint) : List RowCut → ℕ → CutInfo → Res CutInfo
  | [], _, ci => .ok ci
  | c :: cs, i, ci =>
    (activateHeur { ci with
        activeGmic := ci.activeGmic + one (checkCutActivity sg c)
        activeVpc := ci.activeVpc + one (checkCutActivity sv c) } i (checkCutActivity sv c)).bind fun c1 =>
    activityLoop sg sv sa cs (i + 1) { c1 with activeAll := c1.activeAll + one (checkCutActivity sa c) }

/-- `numActiveFromHeur.resize(NUM_OBJECTIVE_TYPES, 0)` (src/test/analysis.cpp:874): entries that are
already there are kept. -/
def resizeActive (a : Option (ObjType → ℤ)) : Option (ObjType → ℤ) :=
  match a with
  | some f => some f
  | none => some fun _ => 0

/-- `analyzeStrength`, the part about the VPCs (src/test/analysis.cpp:868-893). -/
def analyzeVpcs (sg sv sa : LpPoint) (ci : CutInfo) (vpcs : List RowCut) (eps : ℚ) : Res CutInfo :=
  (activityLoop sg sv sa vpcs 0 { ci with
      activeGmic := 0, activeVpc := 0, activeAll := 0, activeHeur := resizeActive ci.activeHeur }).bind
    fun c => .ok { c with avgSupport := fdiv (some (totalSupport eps vpcs : ℚ)) (vpcs.length : ℚ) }

/-! ## Averages over the disjunctions -/

/-- What `updateDisjInfo` reads of a disjunction and its `PRLP`: number of terms and density, whether
there is an integer solution, and the other eight quantities (rows, columns, points, rays of the
`PRLP`; explored and pruned nodes, minimum and maximum depth of the tree), indexed by `Fin 8`. -/
structure DisjData where
  terms : ℚ
  density : ℚ
  hasIntSol : Bool
  other : Fin 8 → ℚ

/-- `SummaryDisjunctionInfo` (include/test/analysis.hpp:50-63). -/
structure DisjInfo where
  numDisj : ℤ := 0
  numIntSol : ℤ := 0
  avgTerms : ℚ := 0
  avgDensity : ℚ := 0
  avgOther : Fin 8 → ℚ := fun _ => 0

/-- `(avg * (num_disj - 1) + val) / num_disj`, with `num_disj > 0`. -/
def runAvg (avg val : ℚ) (n : ℤ) : ℚ := (avg * (n - 1) + val) / n

/-- Body of the loop of `updateDisjInfo` (src/test/analysis.cpp:1213-1230): two of the averages are
assigned (`=`), the others are increased (`+=`). -/
def updateDisj1 (n : ℤ) (di : DisjInfo) (d : DisjData) : DisjInfo :=
  { di with
    numIntSol := di.numIntSol + one d.hasIntSol
    avgTerms := runAvg di.avgTerms d.terms n
    avgDensity := runAvg di.avgDensity d.density n
    avgOther := fun k => di.avgOther k + runAvg (di.avgOther k) (d.other k) n }

/-- `updateDisjInfo` (src/test/analysis.cpp:1201-1232) for tree disjunctions; `ds` are the disjunctions
checked (one unless there is a set), `havePrlp` whether `gen.getPRLP()` is not null. Every disjunction
of a set is combined with the one `PRLP` kept by the generator, which is part of `DisjData`. -/
def updateDisjInfo (di : DisjInfo) (numDisj : ℤ) (havePrlp : Bool) (ds : List DisjData) : DisjInfo :=
  if numDisj ≤ 0 then di
  else if !havePrlp then di
  else ds.foldl (updateDisj1 numDisj) { di with numDisj := numDisj }

/-! ## Checking the cuts against a known solution -/

/-- `checkCutsAgainstFeasibleSolution` (src/test/analysis.cpp:833-852). -/
def checkCutsAgainstFeasibleSolution : List RowCut → Vec → ℕ
  | [], _ => 0
  | c :: cs, x => checkCutsAgainstFeasibleSolution cs x + if lessThanVal (sdot c.row x) c.lb then 1 else 0

/-- The check of one round in the main program (src/main.cpp:314, :648-651): what is printed, if anything.
The value of `TEMP` is compared with the option, its bits are not tested; `sol` is the solution found
before (empty if none), which is looked for under the same condition. -/
def roundCheck (temp : BitVec 32) (sol : Option Vec) (cs : List RowCut) : Option ℕ :=
  if temp = TempOpt.CHECK_CUTS_AGAINST_BB_OPT.val then sol.map (checkCutsAgainstFeasibleSolution cs)
  else none

end VPC
