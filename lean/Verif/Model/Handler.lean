import Verif.Model.ObjCopy
import Verif.Model.Names

/-!
# The event handler as an object (src/branch/VPCEventHandler.cpp:320-433, 936-1111)

A handler owns a copy of the original solver on the heap and its collection of cuts; everything else is
a plain value (pointers to nodes of the search are copied as they are and never deleted). Reading or
deleting a solver that is not allocated, and calling a method on a null pointer, is `.undef`.
-/
namespace VPC

/-- What a handler reads from a solver: the bounds of the columns; the rest is `extra`. -/
structure HSolver where
  lower : List ℚ
  upper : List ℚ
  extra : ℕ
deriving DecidableEq, Repr

/-- `PruneNodeOption` (include/VPCEventHandler.hpp:84-86). -/
inductive HPrune | no | infeasibility | bound | integrality
deriving DecidableEq, Repr

/-- The plain members of `VPCEventHandler` (include/VPCEventHandler.hpp:171-205). Entries of the
statistics are numbers here; the cuts are owned through a `unique_ptr` that is always copied deeply,
and so are a value. `parent_` is never written or read and is left out. -/
structure HData where
  owner : Option ℕ := none
  maxNumLeafNodes : ℤ := 0
  numCuts : ℤ := 0
  maxTime : ℚ := 0
  keepPrunedNodes : Bool := false
  numNodesOnTree : ℤ := 0
  numLeafNodes : ℤ := 0
  numNodes : ℤ := 0
  obj : ℚ := dblMax
  originalLB : List ℚ := []
  originalUB : List ℚ := []
  stats : List ℕ := []
  prunedStats : List ℕ := []
  finalNodeIndices : List ℤ := []
  savedSolution : List ℚ := []
  cuts : List RowCut := []
  currentNodes : List ℕ := []
  parentInfo : Option ℕ := none
  child : Option ℕ := none
  pruneNode : HPrune := .no
  reachedEnd : Bool := false
  foundSolution : Bool := false
deriving DecidableEq

/-- A handler in memory: plain members and `originalSolver_`. -/
structure HandlerM where
  data : HData
  solver : Option ℕ
deriving DecidableEq

/-- `initialize(NULL)` (src/branch/VPCEventHandler.cpp:1081-1104), hence the default constructor
(:323-325). `originalSolver_` is overwritten without being deleted. -/
def HandlerM.new : HandlerM := ⟨{}, none⟩

/-- The constructor with a disjunction (src/branch/VPCEventHandler.cpp:327-335). -/
def HandlerM.newFor (owner : ℕ) (maxNumLeafNodes : ℤ) (maxTime : ℚ) (keepPrunedNodes : Bool) : HandlerM :=
  { HandlerM.new with
    data := { HandlerM.new.data with
      owner := some owner, maxNumLeafNodes := maxNumLeafNodes, maxTime := maxTime
      keepPrunedNodes := keepPrunedNodes } }

/-- `initialize(source)` (src/branch/VPCEventHandler.cpp:1056-1079), used by the copy constructor
(:337-339), `clone` (:375-377), the constructor from a model whose handler is of this class
(:341-347) and assignment (:367-373; also to itself). The solver of the source is cloned without
testing it for null, and the solver of the target is not deleted. -/
def HandlerM.initFrom (h : BMem HSolver) (src : HandlerM) : Res (BMem HSolver × HandlerM) :=
  match src.solver with
  | none => .undef
  | some a =>
    match h.mem a with
    | none => .undef
    | some s => .ok (h.new s, ⟨
        { owner := src.data.owner
          maxNumLeafNodes := src.data.maxNumLeafNodes
          numCuts := src.data.numCuts
          maxTime := src.data.maxTime
          keepPrunedNodes := src.data.keepPrunedNodes
          numNodesOnTree := src.data.numNodesOnTree
          numLeafNodes := src.data.numLeafNodes
          numNodes := src.data.numNodes
          obj := src.data.obj
          originalLB := src.data.originalLB
          originalUB := src.data.originalUB
          stats := src.data.stats
          prunedStats := src.data.prunedStats
          finalNodeIndices := src.data.finalNodeIndices
          savedSolution := src.data.savedSolution
          cuts := src.data.cuts
          currentNodes := src.data.currentNodes
          parentInfo := src.data.parentInfo
          child := src.data.child
          pruneNode := src.data.pruneNode
          reachedEnd := src.data.reachedEnd
          foundSolution := src.data.foundSolution }, some h.next⟩)

/-- `if (return_old && originalSolver_) tmp = originalSolver_->clone();`
(src/branch/VPCEventHandler.cpp:1024-1027, 1037-1041): a copy for the caller. -/
def HandlerM.oldSolver (h : BMem HSolver) (x : HandlerM) (returnOld : Bool) :
    Res (BMem HSolver × Option ℕ) :=
  if returnOld then h.clone x.solver else .ok (h, none)

/-- `setOriginalSolver` (src/branch/VPCEventHandler.cpp:1022-1042): the clone replaces the pointer
without deleting what it pointed to. `given = none` is a solver that is not of the class
`SolverInterface`: the cast then yields a null pointer, which is dereferenced at once. -/
def HandlerM.setOriginal (h : BMem HSolver) (x : HandlerM) (given : Option HSolver) (returnOld : Bool) :
    Res (BMem HSolver × HandlerM × Option ℕ) :=
  (x.oldSolver h returnOld).bind fun r =>
  match given with
  | none => .undef
  | some s => .ok (r.1.new s,
      ⟨{ x.data with originalLB := s.lower, originalUB := s.upper }, some r.1.next⟩, r.2)

/-- The destructor (src/branch/VPCEventHandler.cpp:349-365). -/
def HandlerM.destroy (h : BMem HSolver) (x : HandlerM) : Res (BMem HSolver) := h.delete x.solver

/-! ## Histories -/

/-- Handlers by name, the solvers on the heap, and the solvers handed to the caller. -/
structure HWorld where
  heap : BMem HSolver
  hs : ℕ → Option HandlerM
  given : List ℕ

/-- Nothing allocated. -/
def HWorld.init : HWorld := ⟨⟨fun _ => none, 0⟩, fun _ => none, []⟩

/-- Operations on handlers; the caller respects that a name stands for an object that exists, and is
free when an object is created. `record` is whatever an event writes into the plain members. -/
inductive HOp
  | new (i : ℕ)
  | newFor (i owner : ℕ) (maxNumLeafNodes : ℤ) (maxTime : ℚ) (keepPrunedNodes : Bool)
  | copy (i j : ℕ)
  | assign (i j : ℕ)
  | setOriginal (i : ℕ) (given : Option HSolver) (returnOld : Bool)
  | record (i : ℕ) (f : HData → HData)
  | destroy (i : ℕ)

/-- One operation (src/branch/VPCEventHandler.cpp:323-377, 1022-1106). -/
def HWorld.step (w : HWorld) : HOp → Res HWorld
  | .new i =>
    if (w.hs i).isSome then .undef
    else .ok { w with hs := Function.update w.hs i (some HandlerM.new) }
  | .newFor i o m t k =>
    if (w.hs i).isSome then .undef
    else .ok { w with hs := Function.update w.hs i (some (HandlerM.newFor o m t k)) }
  | .copy i j =>
    if (w.hs j).isSome then .undef
    else match w.hs i with
      | none => .undef
      | some x => (x.initFrom w.heap).bind fun r =>
          .ok { w with heap := r.1, hs := Function.update w.hs j (some r.2) }
  | .assign i j =>
    match w.hs i, w.hs j with
    | some x, some _ => (x.initFrom w.heap).bind fun r =>
        .ok { w with heap := r.1, hs := Function.update w.hs j (some r.2) }
    | _, _ => .undef
  | .setOriginal i s b =>
    match w.hs i with
    | none => .undef
    | some x => (x.setOriginal w.heap s b).bind fun r =>
        .ok { heap := r.1, hs := Function.update w.hs i (some r.2.1), given := w.given ++ r.2.2.toList }
  | .record i f =>
    match w.hs i with
    | none => .undef
    | some x => .ok { w with hs := Function.update w.hs i (some { x with data := f x.data }) }
  | .destroy i =>
    match w.hs i with
    | none => .undef
    | some x => (x.destroy w.heap).bind fun h =>
        .ok { w with heap := h, hs := Function.update w.hs i none }

/-- A history (any order of the calls of src/branch/VPCEventHandler.cpp:323-377, 1022-1106). -/
def HWorld.run (w : HWorld) : List HOp → Res HWorld
  | [] => .ok w
  | o :: os => (w.step o).bind fun w1 => w1.run os

/-- What `generatePartialBBTree` does with handlers (src/disjunction/PartialBBDisjunction.cpp:433-462):
handler 0 is created and given the solver, `CbcModel::passInEventHandler` (external) clones it to
handler 1, events are recorded there, handler 0 is deleted at the end of the function, and handler 1 with
the `CbcModel` (:279-280). -/
def treeHandlers (owner : ℕ) (maxLeaf : ℤ) (timeLimit : ℚ) (keep : Bool) (s : HSolver)
    (events : List (HData → HData)) : List HOp :=
  [.newFor 0 owner maxLeaf timeLimit keep, .setOriginal 0 (some s) false, .copy 0 1] ++
    events.map (fun f => .record 1 f) ++ [.destroy 0]

/-! ## Getters and the end of the search -/

/-- `getMaxTime` (include/VPCEventHandler.hpp:132-134) is declared `int`. -/
def HData.getMaxTime (d : HData) : Res ℤ := truncInt d.maxTime

/-- `getOriginalLB(col)` (include/VPCEventHandler.hpp:141-143) is declared `int`. -/
def HData.getOriginalLB (d : HData) (col : ℕ) : Res ℤ :=
  match d.originalLB[col]? with
  | none => .undef
  | some q => truncInt q

/-- The events with a branch of their own (src/branch/VPCEventHandler.cpp:434, 567, 848, 958, 989). -/
inductive HEvent | treeStatus | node | beforeSolution2 | generatedCuts | endSearch | other
deriving DecidableEq, Repr

/-- Result of `event`. -/
inductive HAction | stop | noAction
deriving DecidableEq, Repr

/-- `event` (src/branch/VPCEventHandler.cpp:427-433, 989-1020), the parts outside of the branches for
`treeStatus`, `node` and `beforeSolution2`, which are a function `body` here (they are modelled in
`BB`). `status` is `model_->status()`; the assertion is undefined behaviour if it fails. -/
def HData.event (body : HEvent → HData → HData × HAction) (d : HData) (e : HEvent) (status : ℤ) :
    Res (HData × HAction) :=
  if d.reachedEnd || decide (d.numLeafNodes ≥ d.maxNumLeafNodes) then .ok (d, .stop)
  else match e with
    | .treeStatus => .ok (body .treeStatus d)
    | .node => .ok (body .node d)
    | .beforeSolution2 => .ok (body .beforeSolution2 d)
    | .generatedCuts => .ok (d, .noAction)
    | .other => .ok (d, .noAction)
    | .endSearch =>
      if status = 1 then .ok ({ d with numNodesOnTree := 0, numLeafNodes := 0, reachedEnd := true }, .noAction)
      else if status = 2 then
        .ok ({ d with numNodesOnTree := 0, numLeafNodes := 0, reachedEnd := true }, .noAction)
      else if status = 0 then
        .ok ({ d with numNodesOnTree := 0, numLeafNodes := 0, reachedEnd := true }, .noAction)
      else .undef

end VPC
