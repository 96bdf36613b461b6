import Verif.Model.SolverOps
import Mathlib.Data.Rat.Defs

/-!
# Drawing the tree (src/utility/vpc_debug.cpp:133-555)

What the drawing functions read of `NodeStatistics` and the tree of Cbc as far as it determines these fields.
External: `getNodeCount()` goes up by one with every node taken up (root: 0). The drawing itself is modelled in `TikzDraw`. Not
modelled: caption, objective values shown, `printTree`.
-/
namespace VPC

/-- The fields of `NodeStatistics` that the drawing functions read (include/VPCEventHandler.hpp:26-46). -/
structure PNode where
  id : ℕ
  orig : ℕ
  parent : ℤ
  number : ℕ
  bvar : ℤ
  bi : ℕ
  way : ℤ
  obj : ℚ
  intObj : ℚ
  found : Bool
deriving DecidableEq, Repr

/-- What becomes of the node taken up: it is branched on, or pruned. -/
inductive PFate
  | kept (bvar way : ℤ) (obj intObj : ℚ) (found : Bool)
  | pruned (obj intObj : ℚ) (found : Bool)
deriving DecidableEq, Repr

/-- `stats_`, `pruned_stats_`, the entries of the nodes on the tree, and the number of nodes taken up after the
root. -/
structure PTree where
  stats : List PNode
  pruned : List PNode
  active : List ℕ
  count : ℕ
deriving DecidableEq, Repr

/-- The first `treeStatus` event (src/branch/VPCEventHandler.cpp:438-444). -/
def pInit (bvar way : ℤ) (obj intObj : ℚ) (found : Bool) : PTree :=
  { stats := [⟨0, 0, -1, 0, bvar, 0, way, obj, intObj, found⟩], pruned := [], active := [0], count := 0 }

/-- The `node` event for the node with entry `i` (src/branch/VPCEventHandler.cpp:601-616, :822-846, :92-116,
:161-176): the child gets the next number; a parent with a branch left gets a second entry with the other way. The
parent's parent is copied (it is never read for second entries). -/
def pTake (s : PTree) (rest : List ℕ) (i : ℕ) (p : PNode) (f : PFate) : PTree :=
  let n := s.stats.length
  let s : PTree := match f with
    | .kept b w o io fd =>
      { s with stats := s.stats ++ [⟨n, n, (i : ℤ), s.count + 1, b, 0, w, o, io, fd⟩]
               active := rest ++ [n], count := s.count + 1 }
    | .pruned o io fd =>
      { s with pruned := s.pruned ++ [⟨n, n, (i : ℤ), s.count + 1, -1, 0, -2, o, io, fd⟩]
               active := rest, count := s.count + 1 }
  if p.bi = 0 then
    { s with
        stats := s.stats ++ [{ p with id := s.stats.length, orig := i, bi := 1, way := if p.way ≤ 0 then 1 else 0 }]
        active := s.active ++ [s.stats.length] }
  else s

/-- A step: the node at position `pick` of the tree is taken (src/branch/VPCEventHandler.cpp:567-847). -/
def pStep (s : PTree) (pick : ℕ) (f : PFate) : Res PTree :=
  match s.active[pick]? with
  | none => .undef
  | some i =>
    match s.stats[i]? with
    | none => .undef
    | some p => .ok (pTake s (s.active.eraseIdx pick) i p f)

/-- A history. -/
def pRun : PTree → List (ℕ × PFate) → Res PTree
  | s, [] => .ok s
  | s, e :: es => (pStep s e.1 e.2).bind fun s => pRun s es

/-- An edge of the drawing: explored (0), pruned (1) or unexplored (2) child. -/
structure PEdge where
  src : ℕ
  dst : ℕ
  label : ℤ
  kind : ℕ
deriving DecidableEq, Repr

/-- `stats[k]` for `k` of type `int`; `.undef` outside of the vector. -/
def statAt (stats : List PNode) (k : ℤ) : Res PNode :=
  if k < 0 then .undef else match stats[k.toNat]? with
    | none => .undef
    | some p => .ok p

/-- "First handle the nodes already explored" (src/utility/vpc_debug.cpp:145-158); `all` is `stats`. -/
def exploredEdges (all : List PNode) : List PNode → Res (List PEdge)
  | [] => .ok []
  | e :: l =>
    if e.orig ≠ e.id ∨ e.parent < 0 then exploredEdges all l
    else (statAt all e.parent).bind fun p => (exploredEdges all l).bind fun r =>
      .ok (⟨p.number, e.number, p.bvar, 0⟩ :: r)

/-- "Add the infeasible nodes" (src/utility/vpc_debug.cpp:160-171). -/
def prunedEdges (all : List PNode) : List PNode → Res (List PEdge)
  | [] => .ok []
  | e :: l => (statAt all e.parent).bind fun p => (prunedEdges all l).bind fun r =>
      .ok (⟨p.number, e.number, p.bvar, 1⟩ :: r)

/-- `for (int b = branch; b < 2; b++) { max_node_ind++; ... }` (src/utility/vpc_debug.cpp:177-187): `k` rounds. -/
def openOf (p : PNode) : ℕ → ℕ → List PEdge
  | 0, _ => []
  | k + 1, m => ⟨p.number, m + 1, p.bvar, 2⟩ :: openOf p k (m + 1)

/-- "Now add the leaf nodes" (src/utility/vpc_debug.cpp:173-188); `m` is `max_node_ind`. -/
def openEdges (all : List PNode) : List ℕ → ℕ → Res (List PEdge)
  | [], _ => .ok []
  | i :: l, m => (statAt all i).bind fun p => (openEdges all l (m + (2 - p.bi))).bind fun r =>
      .ok (openOf p (2 - p.bi) m ++ r)

/-- The edges of `generateTreePlotString` (src/utility/vpc_debug.cpp:133-205), in the order written; `onTree` are
the entries of the nodes on the tree at the end (none after `endSearch`, src/branch/VPCEventHandler.cpp:994-1016).
`getNumNodes() - 1` is the highest number (:613-615, :830-832). -/
def plotEdges (s : PTree) (onTree : List ℕ) : Res (List PEdge) :=
  (exploredEdges s.stats s.stats).bind fun a => (prunedEdges s.stats s.pruned).bind fun b =>
  (openEdges s.stats onTree s.count).bind fun c => .ok (a ++ b ++ c)

/-! ## The tikz tree -/

/-- `children`, `locationOfChild` (pairs of a child and a location, -1 if empty), `variable`, and the number of
integer solutions found by strong branching. -/
structure Tikz where
  rows : List (List (ℤ × ℤ))
  vars : List ℤ
  sb : ℕ
deriving DecidableEq, Repr

/-- `setChildForTikzTreeString` (src/utility/vpc_debug.cpp:295-309). -/
def setChild (t : Tikz) (loc : ℤ) (par slot : ℕ) (child : ℤ) : Res Tikz :=
  match t.rows[par]? with
  | none => .undef
  | some row => match row[slot]? with
    | none => .undef
    | some c =>
      if c.2 ≥ 0 then .ok { t with rows := t.rows.set par (row ++ [(child, loc)]) }
      else .ok { t with rows := t.rows.set par (row.set slot (child, loc)) }

/-- `variable[node] = v` (src/utility/vpc_debug.cpp:369, :412). -/
def setVar (t : Tikz) (node : ℕ) (v : ℤ) : Res Tikz :=
  if node < t.vars.length then .ok { t with vars := t.vars.set node v } else .undef

/-- An integer solution found by strong branching at `node` is drawn as a child of its own
(src/utility/vpc_debug.cpp:371-384, :418-431); `n` is `numNodes`. -/
def addSB (n : ℕ) (t : Tikz) (node : ℕ) : Res Tikz :=
  let t := { t with rows := t.rows ++ List.replicate (n + t.sb + 1 - t.rows.length) [(-1, -1), (-1, -1), (-1, -1)] }
  (setChild t 4 node 1 (n + t.sb : ℕ)).bind fun t => .ok { t with vars := t.vars ++ [-1], sb := t.sb + 1 }

/-- `isVal` of two objective values is a parameter (`same`). The explored nodes
(src/utility/vpc_debug.cpp:354-385). -/
def tikzExplored (same : ℚ → ℚ → Bool) (all : List PNode) (n : ℕ) : List PNode → Tikz → Res Tikz
  | [], t => .ok t
  | e :: l, t =>
    if e.orig ≠ e.id ∨ e.parent < 0 then tikzExplored same all n l t
    else (statAt all e.parent).bind fun p =>
      (setChild t (if e.found && same e.obj e.intObj then 1 else 0) p.number (if p.way ≤ 0 then 0 else 2) e.number).bind
      fun t => (setVar t e.number p.bvar).bind fun t =>
      (if e.found && !same e.obj e.intObj then addSB n t e.number else .ok t).bind fun t =>
      tikzExplored same all n l t

/-- The unexplored children of one node (src/utility/vpc_debug.cpp:391-401): `b`, `k` rounds left, `m` is
`numNodesTotal`. -/
def tikzOpenOf (p : PNode) : ℕ → ℕ → ℕ → Tikz → Res Tikz
  | 0, _, _, t => .ok t
  | k + 1, b, m, t =>
    let first := p.way ≤ 0
    let up := if b = 0 then first else ¬ first
    (setChild t 3 p.number (if up then 2 else 0) (m : ℕ)).bind fun t =>
    tikzOpenOf p k (b + 1) (m + 1) { t with vars := t.vars ++ [p.bvar] }

/-- "Add the leaf nodes" (src/utility/vpc_debug.cpp:387-402). -/
def tikzOpen (all : List PNode) : List ℕ → ℕ → Tikz → Res Tikz
  | [], _, t => .ok t
  | i :: l, m, t => (statAt all i).bind fun p =>
      (tikzOpenOf p (2 - p.bi) p.bi m t).bind fun t => tikzOpen all l (m + (2 - p.bi)) t

/-- "Add the pruned nodes" (src/utility/vpc_debug.cpp:404-436) with the assertion at :408. -/
def tikzPruned (all : List PNode) (n : ℕ) : List PNode → Tikz → Res Tikz
  | [], t => .ok t
  | e :: l, t =>
    match t.rows[e.number]? with
    | none => .undef
    | some row =>
      match row[0]?, row[1]? with
      | some c0, some c1 =>
        if c0.1 ≠ -1 ∨ c1.1 ≠ -1 then .exit
        else (statAt all e.parent).bind fun p => (setVar t e.number p.bvar).bind fun t =>
          (setChild t (if e.found then (if e.obj = e.intObj then 1 else 0) else 2) p.number
            (if p.way ≤ 0 then 0 else 2) e.number).bind fun t =>
          (if e.found && !decide (e.obj = e.intObj) then addSB n t e.number else .ok t).bind fun t =>
          tikzPruned all n l t
      | _, _ => .undef

/-- The tables of `generateTikzTreeString` before the string is made (src/utility/vpc_debug.cpp:311-436), without
the correction of locations of dangling nodes (:438-459, `dangle`). -/
def tikzTable (same : ℚ → ℚ → Bool) (s : PTree) (onTree : List ℕ) : Res Tikz :=
  let n := s.count + 1
  let t : Tikz :=
    { rows := List.replicate n [(-1, -1), (-1, -1), (-1, -1)], vars := -1 :: List.replicate s.count 0, sb := 0 }
  (tikzExplored same s.stats n s.stats t).bind fun t => (tikzOpen s.stats onTree n t).bind fun t =>
  tikzPruned s.stats n s.pruned t

/-- The edges drawn: parent, child, location (src/utility/vpc_debug.cpp:264-283): children of the nodes below
`numNodes`, in the order of the table. -/
def Tikz.edges (t : Tikz) (n : ℕ) : List (ℕ × ℤ × ℤ) :=
  t.rows.zipIdx.flatMap fun r =>
    if r.2 < n then (r.1.filter fun c => decide (¬ c.1 < 0 ∧ ¬ c.2 < 0)).map fun c => (r.2, c.1, c.2) else []

end VPC
