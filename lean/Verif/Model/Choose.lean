import Verif.Model.SolverOps

/-!
# Choosing nodes and branching variables
(src/branch/CbcCompareBFS.cpp, src/branch/CbcBranchStrongDecision.cpp,
src/branch/OsiChooseStrongCustom.cpp)
-/
namespace VPC

/-! ## Node comparison -/

/-- What the comparison reads of a node: its depth and the key used by `equalityTest` (external:
`CbcCompareBase::equalityTest`, include Cbc/CbcCompareBase.hpp: sequence numbers of the nodes). -/
structure CmpNode where
  depth : ℤ
  seq : ℕ
deriving DecidableEq, Repr

/-- `CbcCompareBFS::test(x, y)`: is `y` better than `x`? (src/branch/CbcCompareBFS.cpp:65-75).
`eq` is `equalityTest`. -/
def bfsTest (eq : CmpNode → CmpNode → Bool) (x y : CmpNode) : Bool :=
  if x.depth ≠ y.depth then decide (x.depth > y.depth) else eq x y

/-! ## `CbcBranchStrongDecision` -/

/-- A pair of objective changes. -/
structure Change where
  up : ℚ
  down : ℚ
deriving DecidableEq, Repr

/-- State of the loop of `bestBranch`: `bestCriterion`, `whichObject`, `bestWay`. -/
structure BestBr where
  crit : ℚ := -(10 : ℚ) ^ 50
  which : ℤ := -1
  way : ℤ := 0
deriving DecidableEq, Repr

/-- One iteration of the loop of `bestBranch`; `method` is forced to 1
(src/branch/CbcBranchStrongDecision.cpp:247, :310-326). -/
def bestBranchStep (s : BestBr) (i : ℕ) (c : Change) : BestBr :=
  let better : ℤ := if c.up ≤ c.down then (if c.up > s.crit then 1 else 0)
    else (if c.down > s.crit then -1 else 0)
  if better ≠ 0 then { crit := min c.up c.down, which := i, way := better } else s

/-- The loop. -/
def bestBranchFrom : ℕ → List Change → BestBr → BestBr
  | _, [], s => s
  | i, c :: cs, s => bestBranchFrom (i + 1) cs (bestBranchStep s i c)

/-- `CbcBranchStrongDecision::bestBranch` with method 1
(src/branch/CbcBranchStrongDecision.cpp:186-326): index (−1 if none) and way, before the preferred way of
the object is looked at. -/
def bestBranch (cs : List Change) : BestBr := bestBranchFrom 0 cs {}

/-- The end of `bestBranch` (src/branch/CbcBranchStrongDecision.cpp:442-452): the index returned and what is
written to the chosen object with `way(..)`: its own preferred way if it has an object with a nonzero one.
`pref i` is `objects[i]->object()->preferredWay()`, 0 if `object()` is null. Nothing is written if no
object is chosen. -/
def bestBranchEnd (cs : List Change) (pref : ℕ → ℤ) : ℤ × Option (ℕ × ℤ) :=
  let s := bestBranch cs
  if s.which ≥ 0 then
    (s.which, some (s.which.toNat, if pref s.which.toNat ≠ 0 then pref s.which.toNat else s.way))
  else (s.which, none)

/-! ## `OsiChooseStrongCustom` -/

/-- `SAVED_MAXMIN_CRITERION_` (include/OsiChooseStrongCustom.hpp:190). -/
def maxminCriterion : ℚ := 85 / 100

/-- `calculateValue` (src/branch/OsiChooseStrongCustom.cpp:464-495): `second` is `whichCriterion`. -/
def calcValue (chosen : ℤ) (col : ℕ) (down up : ℚ) (second : Bool) : ℚ :=
  if chosen = 6 then -1 * col
  else
    let mult : ℚ := if chosen < 0 then -1 else 1
    let method := if chosen < 0 then -1 * (chosen + 1) else chosen
    let coeff : ℚ := if method = 2 ∨ method = 4 then 1 else if method = 5 then 0 else maxminCriterion
    let coeff := if second then 1 - coeff else coeff
    mult * (coeff * min up down + (1 - coeff) * max up down)

/-- A candidate with its estimates: object index, column, estimates, `preferredWay()`,
`infeasibility() != 0`. -/
structure Cand where
  obj : ℕ
  col : ℕ
  down : ℚ
  up : ℚ
  pref : ℤ := -1
  infeas : Bool := true
deriving DecidableEq, Repr

/-- Way of branching for a candidate (src/branch/OsiChooseStrongCustom.cpp:516-520). -/
def Cand.way (c : Cand) : ℤ :=
  if c.pref ≥ 0 ∧ c.infeas then c.pref else if c.up > c.down then 0 else 1

/-- Best and second best so far: values of both criteria, `bestObjectIndex_`, `bestWhichWay_` and
their second-best counterparts. -/
structure ChSt where
  best : ℚ := -dblMax
  best2 : ℚ := -dblMax
  idx : ℤ := -1
  way : ℤ := -1
  sec : ℚ := -dblMax
  sec2 : ℚ := -dblMax
  secIdx : ℤ := -1
  secWay : ℤ := 0
deriving DecidableEq, Repr

/-- `processObject` (src/branch/OsiChooseStrongCustom.cpp:497-562); the second component is
`returnCode`. -/
def processObject (m : ℤ) (c : Cand) (s : ChSt) (rc : ℤ) : ChSt × ℤ :=
  let v1 := calcValue m c.col c.down c.up false
  let v2 := calcValue m c.col c.down c.up true
  let rc' := if rc ≠ 0 then 2 else rc
  if v1 > s.best then
    ({ best := v1, best2 := v2, idx := c.obj, way := c.way
       sec := s.best, sec2 := s.best2, secIdx := s.idx, secWay := s.way }, rc')
  else if m ≠ 0 ∧ v1 = s.best ∧ v2 > s.best2 then
    ({ best := v1, best2 := v2, idx := c.obj, way := c.way
       sec := s.best, sec2 := s.best2, secIdx := s.idx, secWay := s.way }, rc')
  else if v1 > s.sec then
    ({ s with sec := v1, sec2 := v2, secIdx := c.obj, secWay := c.way }, rc')
  else if m ≠ 0 ∧ v1 = s.sec ∧ v2 > s.sec2 then
    ({ s with sec := v1, sec2 := v2, secIdx := c.obj, secWay := c.way }, rc')
  else (s, rc)

/-- The loops calling `processObject` (src/branch/OsiChooseStrongCustom.cpp:687-704, :714-764). -/
def processAll (m : ℤ) : List Cand → ChSt → ℤ → ChSt × ℤ
  | [], s, rc => (s, rc)
  | c :: cs, s, rc => let r := processObject m c s rc; processAll m cs r.1 r.2

/-- Outcome of strong branching on one candidate: the two objective changes, which sides are
infeasible (or above the cutoff), whether the first side tried is the up side, whether time is up
afterwards. -/
structure SBOut where
  cand : Cand
  upInf : Bool
  downInf : Bool
  firstUp : Bool
  timeUp : Bool
deriving DecidableEq, Repr

/-- `doStrongBranching` with `returnCriterion = 1` (src/branch/OsiChooseStrongCustom.cpp:34-172):
return code, number of results, and the index and way it writes to `bestObjectIndex_`,
`bestWhichWay_`, if any. -/
def doStrong : List SBOut → ℤ × ℕ × Option (ℤ × ℤ)
  | [] => (0, 0, none)
  | r :: rs =>
    if r.upInf && r.downInf then (-1, 1, some (r.cand.obj, -1))
    else if r.upInf || r.downInf then
      let first := if r.firstUp then r.upInf else r.downInf
      (2, 1, some (r.cand.obj, if first then 0 else 1))
    else if r.timeUp then (3, 1, none)
    else let t := doStrong rs; (t.1, t.2.1 + 1, t.2.2)

/-- Estimate for an infeasible side, "just say expensive"
(src/branch/OsiChooseStrongCustom.cpp:721-725). -/
def expensive (cutoff obj : ℚ) : ℚ := if cutoff < 10 ^ 50 then 2 * (cutoff - obj) else 2 * |obj|

/-- The candidate made from the outcome of strong branching
(src/branch/OsiChooseStrongCustom.cpp:716-757). -/
def SBOut.toCand (cutoff obj : ℚ) (r : SBOut) : Cand :=
  { r.cand with up := if r.upInf then expensive cutoff obj else r.cand.up
                down := if r.downInf then expensive cutoff obj else r.cand.down }

/-- Number of infeasible sides among the results (`numberFixed`,
src/branch/OsiChooseStrongCustom.cpp:730, :752). -/
def fixedSides (rs : List SBOut) : ℤ :=
  (rs.map fun r => (if r.upInf then (1 : ℤ) else 0) + if r.downInf then 1 else 0).sum

/-- `firstForcedObjectIndex_`, `firstForcedWhichWay_` after the loop over the results
(src/branch/OsiChooseStrongCustom.cpp:681-682, :726-729, :748-751): way 0 is down, 1 is up. -/
def forcedBranch : List SBOut → ℤ × ℤ
  | [] => (-1, -1)
  | r :: rs =>
    if r.upInf then (r.cand.obj, 0)
    else if r.downInf then (r.cand.obj, 1)
    else forcedBranch rs

/-- A candidate on `list_`: trusted pseudo-costs, or to be strong branched on. -/
inductive LItem
  | trusted (c : Cand)
  | todo (r : SBOut)
deriving DecidableEq, Repr

/-- The object. -/
def LItem.obj : LItem → ℕ
  | .trusted c => c.obj
  | .todo r => r.cand.obj

/-- Candidates with trusted pseudo-costs, in the order of the list. -/
def trustedOf (l : List LItem) : List Cand :=
  l.filterMap fun i => match i with
    | .trusted c => some c
    | .todo _ => none

/-- Candidates for strong branching, in the order of the list. -/
def todoOf (l : List LItem) : List SBOut :=
  l.filterMap fun i => match i with
    | .trusted _ => none
    | .todo r => some r

/-- "just choose one" (src/branch/OsiChooseStrongCustom.cpp:766-772, :776-781); `lst` is `list_`,
`onList` is `numberOnList_`. -/
def takeFirst (lst : List LItem) (onList : ℕ) (s : ChSt) : ChSt :=
  let s := { s with idx := ((lst[0]?.map LItem.obj).getD 0 : ℕ), way := 0 }
  if onList > 1 then { s with secIdx := ((lst[1]?.map LItem.obj).getD 0 : ℕ), secWay := 0 } else s

/-- The end of `chooseVariable` (src/branch/OsiChooseStrongCustom.cpp:783-798). -/
def chooseFinish (m : ℤ) (s : ChSt) (rc fixed unsat : ℤ) : ChSt × ℤ :=
  let method := if m < 0 then -1 * (m + 1) else m
  let s := if (method = 3 ∨ method = 4) ∧ s.secIdx ≥ 0 then { s with idx := s.secIdx, way := s.secWay }
    else s
  let s := if m = 6 then { s with way := 0 } else s
  (s, if fixed = unsat ∧ fixed ≠ 0 then 4 else rc)

/-- `chooseVariable` for all methods but 7 (src/branch/OsiChooseStrongCustom.cpp:662-801), with
`numberUnsatisfied_ = lst.length` objects on `list_`, of which the first `left` are looked at. `s0` is
the state of the object before the call: only the second best index and way survive
(:678-686). The bounds changed on the solver when `fixVariables` is set are left out. -/
def chooseVariable (m : ℤ) (lst : List LItem) (left onList : ℕ) (cutoff obj : ℚ) (s0 : ChSt) :
    ChSt × ℤ :=
  if lst = [] then (s0, 1)
  else
    let s : ChSt := { secIdx := s0.secIdx, secWay := s0.secWay }
    let look := lst.take left
    let s := (processAll m (trustedOf look) s 0).1
    let todo := todoOf look
    if todo ≠ [] then
      let d := doStrong todo
      let s := match d.2.2 with
        | some (i, w) => { s with idx := i, way := w }
        | none => s
      if 0 ≤ d.1 ∧ d.1 ≤ 2 then
        let rc : ℤ := if d.1 ≠ 0 then (if s.idx ≥ 0 then 3 else 4) else 0
        let res := todo.take d.2.1
        let r := processAll m (res.map (SBOut.toCand cutoff obj)) s rc
        chooseFinish m r.1 r.2 (fixedSides res) lst.length
      else if d.1 = 3 then chooseFinish m (takeFirst lst onList s) 0 0 lst.length
      else chooseFinish m s d.1 0 lst.length
    else chooseFinish m (takeFirst lst onList s) 0 0 lst.length

end VPC
