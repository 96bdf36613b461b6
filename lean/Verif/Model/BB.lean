import Verif.Model.Disj
import Mathlib.Data.Rat.Floor

/-!
# The partial branch-and-bound tree recorded by the event handler
(src/branch/VPCEventHandler.cpp) and the disjunction saved from it
(src/disjunction/PartialBBDisjunction.cpp)

Cbc itself is external.  Its part is an arbitrary *history*: which open node is branched on next,
and whether the child is kept (with which, possibly tightened, bounds and with which next branching
object) or dropped.  Everything the event handler records from it, and everything it saves at the
end, is modelled function by function.

The repair of a misplaced node when no branching method with a choose method is set
(src/branch/VPCEventHandler.cpp:500-565) is in `BBRepair`. Not modelled: names and printed statistics, stored warm-start bases.
-/
namespace VPC

/-- A node on Cbc's tree: `CbcNode` with its `CbcNodeInfo` and two-way branching object.
`number` is `nodeInfo()->nodeNumber()`, `branchIndex` the number of branches already taken,
`firstUp` the first direction, `osi` whether the branching object is an
`OsiTwoWayBranchingObject` (directions 0/1) or a `CbcBranchingObject` (directions -1/1),
`prevLB`, `prevUB` the original bounds of the branching object, `lo`, `hi` the column bounds of the
solver at the node, `first` the number the node had when it was created and `parentFirst` that of
its parent. -/
structure CNode where
  number : ℕ
  first : ℕ
  parentFirst : Option ℕ
  branchIndex : ℕ
  var : ℕ
  value : ℚ
  firstUp : Bool
  osi : Bool
  prevLB : ℚ
  prevUB : ℚ
  obj : ℚ
  lo : List (Option ℚ)
  hi : List (Option ℚ)
deriving DecidableEq, Repr

/-- The direction the node branches next. -/
def CNode.nextUp (n : CNode) : Bool := n.firstUp != (n.branchIndex == 1)

/-- `stats.way` (src/branch/VPCEventHandler.cpp:64, :72): "Cbc is not consistent with way; down
could be a 0 or a -1". -/
def CNode.way (n : CNode) : ℤ := if n.nextUp then 1 else if n.osi then 0 else -1

/-- `numberBranchesLeft()` of a two-way branching object (Cbc), read at
src/branch/VPCEventHandler.cpp:464, :836. -/
def CNode.branchesLeft (n : CNode) : ℤ := 2 - n.branchIndex

/-- `NodeStatistics` (include/VPCEventHandler.hpp:26-46), without `number`, `depth`,
`found_integer_solution`, `integer_obj`, `status` and the printed bounds. -/
structure NStat where
  id : ℕ
  orig : ℕ
  parent : ℤ
  bvar : ℕ
  branchIndex : ℕ
  way : ℤ
  obj : ℚ
  value : ℚ
  lb : ℚ
  ub : ℚ
  changes : List BChange
deriving DecidableEq, Repr

/-- `!isVal(a, b)` on bounds, infinite bounds being `none`
(src/branch/VPCEventHandler.cpp:304, :311). -/
def bndDiffers : Option ℚ → Option ℚ → Bool
  | none, none => false
  | some a, some b => !isVal a b
  | _, _ => true

/-- The entries added for column `i` (src/branch/VPCEventHandler.cpp:303-317); an infinite bound is
stored as `∓DBL_MAX`. -/
def changedAt (i : ℕ) (l u ol ou : Option ℚ) : List BChange :=
  (if bndDiffers l ol then [⟨i, 0, l.getD (-dblMax)⟩] else []) ++
  (if bndDiffers u ou then [⟨i, 1, u.getD dblMax⟩] else [])

/-- `changedBounds(stats, solver, originalLB, originalUB)`
(src/branch/VPCEventHandler.cpp:289-319). -/
def changedBounds (lo hi oLo oHi : List (Option ℚ)) : List BChange :=
  (List.range oLo.length).flatMap fun i =>
    changedAt i (lo.getD i none) (hi.getD i none) (oLo.getD i none) (oHi.getD i none)

/-- `setNodeStatistics` (src/branch/VPCEventHandler.cpp:37-139): the fields that do not depend on
the branch index. -/
def nodeStat (n : CNode) (id orig : ℕ) (parent : ℤ) (changes : List BChange) : NStat :=
  { id, orig, parent, bvar := n.var, branchIndex := n.branchIndex, way := n.way, obj := n.obj,
    value := n.value
    lb := if n.way > 0 then (⌈n.value⌉ : ℤ) else n.prevLB
    ub := if n.way > 0 then n.prevUB else (⌊n.value⌋ : ℤ)
    changes }

/-- State of Cbc's tree and of the event handler. `cur[k]` is the present `nodeNumber` of the node
created with number `k`. -/
structure BB where
  tree : List CNode
  count2 : ℕ
  cur : List ℕ
  stats : List NStat
  pruned : List NStat
  oLo : List (Option ℚ)
  oHi : List (Option ℚ)
deriving DecidableEq, Repr

/-- `stats_.push_back(setNodeStatistics(...))` with its assertion on consecutive ids
(src/branch/VPCEventHandler.cpp:134-136). -/
def pushStat (stats : List NStat) (st : NStat) : Res (List NStat) :=
  match stats.getLast? with
  | none => .ok (stats ++ [st])
  | some l => if st.id = l.id + 1 then .ok (stats ++ [st]) else .exit

/-- The update of `originalLB_`, `originalUB_` from the root's changed bounds
(src/branch/VPCEventHandler.cpp:447-454). -/
def updOrig : List BChange → List (Option ℚ) × List (Option ℚ) → List (Option ℚ) × List (Option ℚ)
  | [], p => p
  | c :: cs, (lo, hi) =>
    if c.bound ≤ 0 then updOrig cs (lo.set c.var (some c.value), hi)
    else updOrig cs (lo, hi.set c.var (some c.value))

/-- A branching object with the data of the node it belongs to, as Cbc creates it. -/
structure NewNode where
  var : ℕ
  value : ℚ
  firstUp : Bool
  osi : Bool
  prevLB : ℚ
  prevUB : ℚ
  obj : ℚ
  lo : List (Option ℚ)
  hi : List (Option ℚ)
deriving DecidableEq, Repr

/-- The Cbc node made from it. -/
def NewNode.node (n : NewNode) (number : ℕ) (parentFirst : Option ℕ) : CNode :=
  { number, first := number, parentFirst, branchIndex := 0, var := n.var, value := n.value,
    firstUp := n.firstUp, osi := n.osi, prevLB := n.prevLB, prevUB := n.prevUB, obj := n.obj,
    lo := n.lo, hi := n.hi }

/-- The first `treeStatus` event, `getNodeCount2() == 1`
(src/branch/VPCEventHandler.cpp:438-455), after `setOriginalSolver` (:1022-1041). -/
def bbInit (P : Relax) (root : NewNode) : BB :=
  let nd := root.node 0 none
  let st := nodeStat nd 0 0 (-1) (changedBounds nd.lo nd.hi P.lo P.hi)
  let o := updOrig st.changes (P.lo, P.hi)
  { tree := [nd], count2 := 1, cur := [0], stats := [st], pruned := [], oLo := o.1, oHi := o.2 }

/-- What happens to the child of a branching step: kept with a new branching object and bounds, or
dropped (infeasible, bound or integrality). -/
inductive Outcome
  | created (n : NewNode)
  | dropped (obj : ℚ)
deriving DecidableEq, Repr

/-- One branching step: position of the node taken from the tree and fate of the child. -/
structure BBStep where
  pick : ℕ
  out : Outcome
deriving DecidableEq, Repr

/-- `parentNodeInfo->nodeNumber()` (src/branch/VPCEventHandler.cpp:46-49): the *present* number of the
parent of a node on the tree. -/
def parentNo (s : BB) (p : CNode) : ℤ :=
  match p.parentFirst with
  | none => -1
  | some k => ((s.cur.getD k 0 : ℕ) : ℤ)

/-- Second half of the `node` event: a parent with a branch left gets a new entry and a new number
(src/branch/VPCEventHandler.cpp:835-846, :95-116); otherwise it leaves the tree.  The number is
assigned by Cbc right after the event. `rest` are the other nodes. -/
def parentAgain (s : BB) (p : CNode) (rest : List CNode) : Res BB :=
  let p' : CNode := { p with branchIndex := p.branchIndex + 1 }
  if (0 : ℤ) < p'.branchesLeft then
    (pushStat s.stats (nodeStat p' s.count2 p.number (parentNo s p) [])).bind fun stats =>
    .ok { s with tree := rest ++ [{ p' with number := s.count2 }], stats := stats
                 count2 := s.count2 + 1
                 cur := (s.cur.set p.first s.count2) ++ [s.count2] }
  else .ok { s with tree := rest }

/-- `setPrunedNodeStatistics` (src/branch/VPCEventHandler.cpp:148-188). The bounds recorded for
nodes pruned by integrality, the variable and the way set at :823-827 are never read again and are
left out. -/
def prunedStat (s : BB) (p : CNode) (obj : ℚ) : NStat :=
  { id := s.count2, orig := s.count2, parent := p.number, bvar := 0, branchIndex := 0, way := -2,
    obj, value := -1, lb := -1, ub := -1, changes := [] }

/-- A branching step of Cbc with the `node` event (src/branch/VPCEventHandler.cpp:567-847).
`.undef` if there is no such node on the tree. -/
def bbStep (s : BB) (e : BBStep) : Res BB :=
  match s.tree[e.pick]? with
  | none => .undef
  | some p =>
    let rest := s.tree.eraseIdx e.pick
    match e.out with
    | .created n =>
      let c := n.node s.count2 (some p.first)
      (pushStat s.stats (nodeStat c s.count2 s.count2 p.number
        (changedBounds c.lo c.hi s.oLo s.oHi))).bind fun stats =>
      parentAgain { s with stats := stats, count2 := s.count2 + 1, cur := s.cur ++ [s.count2] } p
        (rest ++ [c])
    | .dropped o => parentAgain { s with pruned := s.pruned ++ [prunedStat s p o] } p rest

/-- A history. -/
def bbRun : BB → List BBStep → Res BB
  | s, [] => .ok s
  | s, e :: es => (bbStep s e).bind fun s => bbRun s es

/-! ## Saving -/

/-- What is written while saving: the owner's disjunction, `numLeafNodes_`, and the owner's
`root.boundD`, `root.boundU`. -/
structure SaveSt where
  D : Disj
  numLeaf : ℤ
  boundD : ℚ := dblMax
  boundU : ℚ := dblMax
deriving DecidableEq, Repr

/-- Answers of the clock and of the LP solver while saving: `hitTime`; whether the warm start of the
`i`-th node is accepted and its LP solved; `lp i b Q`: objective value if the LP `Q` of branch `b` of
the `i`-th node is proven optimal. -/
structure SaveEnv where
  hitTime : Bool
  warmOk : ℕ → Bool
  parentOptimal : ℕ → Bool
  lp : ℕ → ℕ → Relax → Option ℚ

/-- Changes stored at the first entry of a node; none for the root
(src/branch/VPCEventHandler.cpp:1147-1152, :1327-1328). -/
def origChanges (stats : List NStat) (orig : ℕ) : Option (List BChange) :=
  if orig = 0 then some [] else (stats[orig]?).map (·.changes)

/-- The walk to the root (src/branch/VPCEventHandler.cpp:1207-1226): is the node under the first
child of the root? `none`: it leaves `stats_` or never ends. -/
def rootSide (stats : List NStat) : ℕ → ℕ → Option Bool
  | 0, _ => none
  | f + 1, i =>
    match stats[i]? with
    | none => none
    | some st => if st.parent = -1 then some (i == 0) else rootSide stats f st.parent.toNat

/-- `setupDisjunctiveTermFromStats` (src/branch/VPCEventHandler.cpp:1112-1160): the term that is
appended. -/
def bbTerm (stats : List NStat) (orig var : ℕ) (way : ℤ) (value : ℚ) (ans : Option ℚ) :
    Option Term :=
  match origChanges stats orig, stats[orig]? with
  | some cs, some st0 =>
    some { obj := ans.getD st0.obj
           changes := cs ++ [⟨var, if way = 1 then 0 else 1, value⟩]
           feasible := ans.isSome }
  | _, _ => none

/-- `setupDisjunctiveTerm` (src/branch/VPCEventHandler.cpp:1162-1238). `ans`: objective value of the
child LP if proven optimal. -/
def setupTerm (keep : Bool) (stats : List NStat) (orig var : ℕ) (way : ℤ) (value : ℚ)
    (ans : Option ℚ) (s : SaveSt) : Res SaveSt :=
  if ans.isSome || keep then
    match bbTerm stats orig var way value ans, stats[0]?, rootSide stats (stats.length + 1) orig with
    | some t, some r, some isFirst =>
      let s := { s with D := { s.D with terms := s.D.terms ++ [t], numTerms := s.D.numTerms + 1 } }
      let isDown := if isFirst then decide (r.way ≤ 0) else !decide (r.way ≤ 0)
      if isDown then
        .ok (if lessThanVal t.obj s.boundD then { s with boundD := t.obj } else s)
      else .ok (if lessThanVal t.obj s.boundU then { s with boundU := t.obj } else s)
    | _, _, _ => .undef
  else .ok { s with numLeaf := s.numLeaf - 1 }

/-- The LP of a child: the bound of the branching variable is set in a copy of the node's LP
(src/branch/VPCEventHandler.cpp:1175-1182). -/
def childLP (base : Relax) (var : ℕ) (way : ℤ) (value : ℚ) : Res Relax :=
  applyChange true base ⟨var, if way ≤ 0 then 1 else 0, value⟩

/-- The node's LP: original problem, bounds changed at the root, bounds changed at the node
(src/branch/VPCEventHandler.cpp:1308-1344). -/
def nodeLP (P : Relax) (common cs : List BChange) : Res Relax :=
  (applyChanges true common P).bind fun Q => applyChanges true cs Q

/-- One iteration of the loop of `saveInformation` after the early exit
(src/branch/VPCEventHandler.cpp:1299-1474): the terms of one node. `remaining` is
`numNodesOnTree_ - tmp_ind`; the Boolean is `status`. -/
def saveNode (P : Relax) (maxLeaf : ℤ) (stats : List NStat) (env : SaveEnv) (ind : ℕ)
    (remaining : ℤ) (nd : CNode) (status : Bool) (s : SaveSt) : Res (Bool × SaveSt) :=
  match stats[nd.number]? with
  | none => .undef
  | some e =>
    match stats[e.id]? with
    | none => .undef
    | some st =>
      match origChanges stats st.orig with
      | none => .undef
      | some cs =>
        (nodeLP P s.D.common cs).bind fun base =>
        if !env.warmOk ind then .exit
        else if !env.parentOptimal ind then .exit
        else
          let v1 := if st.way ≤ 0 then st.ub else st.lb
          (childLP base st.bvar st.way v1).bind fun q1 =>
          (setupTerm false stats st.orig st.bvar st.way v1 (env.lp ind 0 q1) s).bind fun s =>
          let status := status ||
            (!env.hitTime && decide (2 * (s.D.numTerms + 2 * remaining - 1) ≤ maxLeaf))
          if !status && st.branchIndex == 0 then
            let way2 : ℤ := if st.way ≤ 0 then 1 else 0
            let v2 := if way2 ≤ 0 then v1 - 1 else v1 + 1
            (childLP base st.bvar way2 v2).bind fun q2 =>
            (setupTerm false stats st.orig st.bvar way2 v2 (env.lp ind 1 q2) s).bind fun s =>
            .ok (status, s)
          else .ok (status, s)

/-- The loop of `saveInformation` (src/branch/VPCEventHandler.cpp:1291-1480). -/
def saveLoop (P : Relax) (maxLeaf : ℤ) (stats : List NStat) (env : SaveEnv) :
    ℕ → List CNode → Bool → SaveSt → Res (Bool × SaveSt)
  | _, [], status, s => .ok (status, s)
  | ind, nd :: rest, status, s =>
    if !env.hitTime && decide (2 * (s.D.numTerms + 2 * (rest.length + 1)) ≤ maxLeaf) then
      .ok (true, s)
    else
      (saveNode P maxLeaf stats env ind (rest.length + 1) nd status s).bind fun r =>
      saveLoop P maxLeaf stats env (ind + 1) rest r.1 r.2

/-- Start of `saveInformation` and `saveInformationFromStats` (src/branch/VPCEventHandler.cpp:1258-1283
and :1518-1536): the owner is reset and gets the root's changes. `root_obj` is set only by the former
(`withObj`). -/
def saveStart (stats : List NStat) (withObj : Bool) : Disj :=
  match stats[0]? with
  | none => Disj.new
  | some r => { Disj.new with common := r.changes, rootObj := if withObj then r.obj else dblMax }

/-- `saveInformation()` (src/branch/VPCEventHandler.cpp:1252-1505): `nodes` is the tree in the order
of the heap, `intSol` is `savedSolution_`. The Boolean is the returned status (`true` = 1). -/
def saveInformation (P : Relax) (maxLeaf : ℤ) (b : BB) (nodes : List CNode) (intSol : List ℚ)
    (numLeaf : ℤ) (env : SaveEnv) : Res (Bool × SaveSt) :=
  let D := saveStart b.stats true
  let D := if intSol ≠ [] then { D with numTerms := D.numTerms + 1, intSol := intSol } else D
  (saveLoop P maxLeaf b.stats env 0 nodes false { D := D, numLeaf := numLeaf }).bind fun r =>
  .ok (if !r.1 && !env.hitTime && decide (2 * r.2.D.numTerms ≤ maxLeaf) then (true, r.2) else r)

/-- The loop over branching ways (src/branch/VPCEventHandler.cpp:1604-1614). -/
def keepBranches (stats : List NStat) (orig var : ℕ) (initWay : ℤ) (initVal : ℚ)
    (base : Relax) (lp : ℕ → Relax → Option ℚ) : List ℕ → SaveSt → Res SaveSt
  | [], s => .ok s
  | b :: bs, s =>
    let way := if b = 0 then initWay else 1 - initWay
    let value := if b = 0 then initVal else if way ≤ 0 then initVal - 1 else initVal + 1
    (childLP base var way value).bind fun q =>
    (setupTerm true stats orig var way value (lp b q) s).bind fun s =>
    keepBranches stats orig var initWay initVal base lp bs s

/-- One active node of `saveInformationFromStats` (src/branch/VPCEventHandler.cpp:1544-1619).
`finalNodeIndices_` is empty before the loop (the only save that can precede it returns 0 and ends
the search), so that `getNodeIndex(tmp_ind)` is the entry just pushed. -/
def keepNode (P : Relax) (stats : List NStat) (env : SaveEnv) (ind : ℕ) (nd : CNode) (s : SaveSt) :
    Res SaveSt :=
  match stats[nd.number]? with
  | none => .undef
  | some e0 =>
    match stats[e0.id]? with
    | none => .undef
    | some e =>
      match stats[e.id]? with
      | none => .undef
      | some st =>
        match stats[st.orig]?, origChanges stats st.orig with
        | some o, some cs =>
          (nodeLP P s.D.common cs).bind fun base =>
          if !env.warmOk ind then .exit
          else
            let initWay : ℤ := if o.way = 1 then 1 else 0
            let initVal := if initWay ≤ 0 then o.ub else o.lb
            keepBranches stats st.orig st.bvar initWay initVal base (env.lp ind)
              ((List.range 2).drop st.branchIndex) s
        | _, _ => .undef

/-- The loop over active nodes (src/branch/VPCEventHandler.cpp:1543-1620). -/
def keepActive (P : Relax) (stats : List NStat) (env : SaveEnv) : ℕ → List CNode → SaveSt → Res SaveSt
  | _, [], s => .ok s
  | ind, nd :: rest, s =>
    (keepNode P stats env ind nd s).bind fun s => keepActive P stats env (ind + 1) rest s

/-- The loop over pruned nodes (src/branch/VPCEventHandler.cpp:1626-1652): the parent's entry gives
the branch. -/
def keepPruned (stats : List NStat) : List NStat → SaveSt → Res SaveSt
  | [], s => .ok s
  | q :: qs, s =>
    if q.parent < 0 then .undef
    else
      match stats[q.parent.toNat]? with
      | none => .undef
      | some st =>
        let way : ℤ := if st.way = 1 then 1 else 0
        let value := if way ≤ 0 then st.ub else st.lb
        (setupTerm true stats st.orig st.bvar way value none s).bind fun s =>
        keepPruned stats qs s

/-- `saveInformationFromStats()` (src/branch/VPCEventHandler.cpp:1512-1660); the status is always
0. -/
def saveFromStats (P : Relax) (b : BB) (nodes : List CNode) (numLeaf : ℤ) (env : SaveEnv) :
    Res SaveSt :=
  (keepActive P b.stats env 0 nodes { D := saveStart b.stats false, numLeaf := numLeaf }).bind fun s =>
  keepPruned b.stats b.pruned s

/-! ## The `treeStatus` event and the end -/

/-- `numLeafNodes_` computed at a `treeStatus` event (src/branch/VPCEventHandler.cpp:457-465). -/
def leafCount (keep : Bool) (b : BB) (nodes : List CNode) (intSol : List ℚ) : ℤ :=
  (if keep then (b.pruned.length : ℤ) else if intSol ≠ [] then 1 else 0) +
    (nodes.map CNode.branchesLeft).sum

/-- A `treeStatus` event (src/branch/VPCEventHandler.cpp:434-493): the Boolean tells whether the
search is stopped; `none` if nothing was saved. -/
def treeStatus (P : Relax) (keep : Bool) (maxLeaf : ℤ) (b : BB) (nodes : List CNode)
    (intSol : List ℚ) (timeUp : Bool) (env : SaveEnv) : Res (Bool × ℤ × Option SaveSt) :=
  let n := leafCount keep b nodes intSol
  if decide (maxLeaf ≤ n) || timeUp then
    if keep then
      (saveFromStats P b nodes n env).bind fun s => .ok (true, s.numLeaf, some s)
    else
      (saveInformation P maxLeaf b nodes intSol n env).bind fun r =>
      .ok (!r.1, r.2.numLeaf, some r.2)
  else .ok (false, n, none)

/-- Model status at the end of `prepareDisjunction`: the fields of `CbcModel` that are read. -/
structure CbcEnd where
  status : ℤ
  provenOptimal : Bool
  obj : ℚ
  sol : List ℚ

/-- `PartialBBDisjunction::prepareDisjunction` after the tree has been generated
(src/disjunction/PartialBBDisjunction.cpp:234-283); `.exit` is `exit(1)`. -/
def pbbFinish (keep : Bool) (D : Disj) (numLeaf : ℤ) (found : Bool) (c : CbcEnd) :
    Res (DisjExit × Disj) :=
  if c.status = 0 ∨ c.status = 1 ∨ c.status = 2 ∨ D.numTerms ≤ 1 then
    if c.provenOptimal then
      .ok (.OPTIMAL_SOLUTION_FOUND,
        { D with bestObj := c.obj, worstObj := c.obj, intObj := c.obj, intSol := c.sol })
    else if D.numTerms ≤ 1 then .ok (.TOO_FEW_TERMS, D)
    else .ok (.UNKNOWN, D)
  else if D.numTerms ≠ numLeaf ∨
      (keep = false ∧ D.numTerms ≠ (D.terms.length : ℤ) + if found then 1 else 0) then .exit
  else .ok (.SUCCESS, D)

end VPC
