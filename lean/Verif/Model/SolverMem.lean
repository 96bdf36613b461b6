import Verif.Model.ObjCopy

/-!
# Life of the solver objects (src/cut/CglVPC.cpp, src/cut/PRLP.cpp, src/disjunction/PartialBBDisjunction.cpp,
src/disjunction/SplitDisjunction.cpp, src/disjunction/Disjunction.cpp, src/branch/VPCEventHandler.cpp,
src/branch/OsiChooseStrongCustom.cpp, src/utility/preprocess.cpp, src/test/BBHelper.cpp,
src/test/CbcHelper.cpp, src/test/analysis.cpp, src/main.cpp)

Solver objects are numbered blocks on the heap `BMem σ`; `σ` is whatever a solver holds. What the solver
calls compute is arbitrary: each is a function `σ → σ` given by the world. What is modelled is which object
is copied, changed and deleted, on every path. Using or deleting an object that does not exist is
`undef`, `exit(1)` is `exit`. Simplification: `dynamic_cast<SolverInterface*>` succeeds (all objects are of
the one class the program is built with).
-/
namespace VPC

variable {σ : Type}

/-- Calls of solver methods on one object. -/
def BMem.use (h : BMem σ) (a : ℕ) (f : σ → σ) : Res (BMem σ) :=
  match h.mem a with
  | none => .undef
  | some s => .ok { h with mem := Function.update h.mem a (some (f s)) }

/-- `a->clone()`. -/
def BMem.dup (h : BMem σ) (a : ℕ) : Res (BMem σ × ℕ) :=
  match h.mem a with
  | none => .undef
  | some s => .ok (h.new s, h.next)

/-- `assert` and the tests that end in `exit(1)`. -/
def orExit (h : BMem σ) (bad : Bool) : Res (BMem σ) := if bad then .exit else .ok h

/-- Copy a solver, work on the copy, delete it. The pattern of
src/branch/OsiChooseStrongCustom.cpp:67-88, :106-128 (branches that are not bounds), :587-628 (method 7);
src/branch/VPCEventHandler.cpp:1175-1183, :1235-1236; src/cut/CglVPC.cpp:1093-1225;
src/utility/preprocess.cpp:295-424. `bad`: one of the tests in between ends the process. -/
def scratchMem (f : σ → σ) (bad : Bool) (h : BMem σ) (a : ℕ) : Res (BMem σ) :=
  (h.dup a).bind fun r =>
  (r.1.use r.2 f).bind fun h =>
  (orExit h bad).bind fun h => h.delete (some r.2)

/-- `setupDisjunctiveTerm` (src/branch/VPCEventHandler.cpp:1162-1238): with the solver of the parent node, or
without one for pruned nodes (:1649-1651). `bad`: the term could not be set up (:1192-1199). -/
def termMem (f : σ → σ) (bad : Bool) (h : BMem σ) : Option ℕ → Res (BMem σ)
  | none => orExit h bad
  | some a => scratchMem f bad h a

/-- What happens at one open node: `stop`: exit early before the node is looked at (:1293-1297); `setup`: the
calls on the parent solver (:1310-1395); `bad`: warm start refused or not optimal; the children looked at
with what is done to their solvers. -/
structure NodeMem (σ : Type) where
  stop : Bool := false
  setup : σ → σ
  bad : Bool := false
  children : List ((σ → σ) × Bool)

/-- The children of a node (src/branch/VPCEventHandler.cpp:1443-1465, :1604-1614). -/
def childrenMem (base : ℕ) : List ((σ → σ) × Bool) → BMem σ → Res (BMem σ)
  | [], h => .ok h
  | c :: cs, h => (termMem c.1 c.2 h (some base)).bind fun h => childrenMem base cs h

/-- The solvers in `saveInformation` (src/branch/VPCEventHandler.cpp:1291-1480). -/
def saveMem (orig : ℕ) : List (NodeMem σ) → BMem σ → Res (BMem σ)
  | [], h => .ok h
  | n :: ns, h =>
    if n.stop then .ok h
    else
      (h.dup orig).bind fun r =>
      (r.1.use r.2 n.setup).bind fun h =>
      (orExit h n.bad).bind fun h =>
      (childrenMem r.2 n.children h).bind fun h =>
      (h.delete (some r.2)).bind fun h => saveMem orig ns h

/-- The open nodes in `saveInformationFromStats` (src/branch/VPCEventHandler.cpp:1543-1620): the solver of
the parent node is never deleted. -/
def saveStatsMem (orig : ℕ) : List (NodeMem σ) → BMem σ → Res (BMem σ)
  | [], h => .ok h
  | n :: ns, h =>
      (h.dup orig).bind fun r =>
      (r.1.use r.2 n.setup).bind fun h =>
      (orExit h n.bad).bind fun h =>
      (childrenMem r.2 n.children h).bind fun h => saveStatsMem orig ns h

/-- One step of a search of Cbc, as far as solvers are concerned: it works on its solver, replaces it by a
copy (both external), tries a branching variable on a copy
(src/branch/OsiChooseStrongCustom.cpp:67-128, :587-628), or the event handler saves the tree
(src/branch/VPCEventHandler.cpp:476-481). -/
inductive SearchStep (σ : Type)
  | work (f : σ → σ)
  | replace (f : σ → σ)
  | probe (f : σ → σ) (bad : Bool)
  | save (nodes : List (NodeMem σ))

/-- Does the event handler save the tree? -/
def SearchStep.isSave : SearchStep σ → Bool
  | .save _ => true
  | _ => false

/-- One step; `cur` is the solver of the model, `orig` the `originalSolver_` of its event handler; `keep` is
`PARTIAL_BB_KEEP_PRUNED_NODES`. -/
def stepMem (keep : Bool) (orig : ℕ) (h : BMem σ) (cur : ℕ) : SearchStep σ → Res (BMem σ × ℕ)
  | .work f => (h.use cur f).bind fun h => .ok (h, cur)
  | .replace f =>
    (h.dup cur).bind fun r => (r.1.use r.2 f).bind fun h =>
    (h.delete (some cur)).bind fun h => .ok (h, r.2)
  | .probe f bad => (scratchMem f bad h cur).bind fun h => .ok (h, cur)
  | .save nodes =>
    ((if keep then saveStatsMem orig nodes h else saveMem orig nodes h)).bind fun h => .ok (h, cur)

/-- The search. -/
def searchMem (keep : Bool) (orig : ℕ) : List (SearchStep σ) → BMem σ → ℕ → Res (BMem σ × ℕ)
  | [], h, cur => .ok (h, cur)
  | s :: ss, h, cur => (stepMem keep orig h cur s).bind fun r => searchMem keep orig ss r.1 r.2

/-- `if (BBSolver && !cbc_model->modelOwnsSolver()) { delete BBSolver; } if (cbc_model) { delete cbc_model; }`
(src/disjunction/PartialBBDisjunction.cpp:222-223, :228-229, :245-246, :253-254, :261-262, :279-280;
src/test/CbcHelper.cpp:399-400, :426-427, :448-449, :471-472). The destructor of the model deletes its
solver if it owns it. -/
def freeModel (h : BMem σ) (bb cur : ℕ) (owns : Bool) : Res (BMem σ) :=
  (if !owns then h.delete (some bb) else .ok h).bind fun h =>
  if owns then h.delete (some cur) else .ok h

/-- A call of `PartialBBDisjunction::prepareDisjunction`. -/
structure TreeMem (σ : Type) where
  terms : ℤ
  keep : Bool
  setup : σ → σ
  steps : List (SearchStep σ)
  /-- no event handler, or the number of terms does not match -/
  bad : Bool := false

/-- `PartialBBDisjunction::prepareDisjunction` with `generatePartialBBTree`
(src/disjunction/PartialBBDisjunction.cpp:97-281, :427-460; src/branch/VPCEventHandler.cpp:1022-1042,
:1065, :349-353): the copy given to Cbc, the copy of the event handler, and the copy in the clone of the event
handler that the model keeps. All returns after the search free the model in the same way. -/
def treeMem (t : TreeMem σ) (h : BMem σ) (si : ℕ) : Res (BMem σ) :=
  if t.terms < 2 then .ok h
  else
    (h.dup si).bind fun bb =>
    (bb.1.use bb.2 t.setup).bind fun h =>
    (h.dup si).bind fun ev =>
    (ev.1.dup ev.2).bind fun hd =>
    (searchMem t.keep hd.2 t.steps hd.1 bb.2).bind fun r =>
    (r.1.delete (some ev.2)).bind fun h =>
    (orExit h t.bad).bind fun h =>
    (freeModel h bb.2 r.2 true).bind fun h => h.delete (some hd.2)

/-- A call of `SplitDisjunction::prepareDisjunction`: was a variable chosen before, are there fractional
variables, what is done to the copy (`checkVar`), can it end the process. -/
structure SplitMem (σ : Type) where
  chosen : Bool
  noFrac : Bool
  work : σ → σ
  bad : Bool := false

/-- `SplitDisjunction::prepareDisjunction` (src/disjunction/SplitDisjunction.cpp:86-163). -/
def splitMem (s : SplitMem σ) (h : BMem σ) (si : ℕ) : Res (BMem σ) :=
  (h.dup si).bind fun r =>
  if !s.chosen && s.noFrac then r.1.delete (some r.2)
  else (r.1.use r.2 s.work).bind fun h =>
    (orExit h s.bad).bind fun h => h.delete (some r.2)

/-- `generateSplitDisjunctions` (src/disjunction/SplitDisjunction.cpp:325-460): nothing is copied if no
variable is fractional. -/
def splitsMem (noFrac : Bool) (work : σ → σ) (bad : Bool) (h : BMem σ) (si : ℕ) : Res (BMem σ) :=
  if noFrac then .ok h else scratchMem work bad h si

/-- What prepares the disjunctions of a call (src/cut/CglVPC.cpp:410-424): one tree, the splits of a set or
the trees of a set. -/
inductive PrepMem (σ : Type)
  | tree (t : TreeMem σ)
  | split (s : SplitMem σ)
  | splits (noFrac : Bool) (work : σ → σ) (bad : Bool)

/-- One preparation. -/
def prepMem (h : BMem σ) (si : ℕ) : PrepMem σ → Res (BMem σ)
  | .tree t => treeMem t h si
  | .split s => splitMem s h si
  | .splits n w b => splitsMem n w b h si

/-- All preparations of a call. -/
def prepsMem (si : ℕ) : List (PrepMem σ) → BMem σ → Res (BMem σ)
  | [], h => .ok h
  | p :: ps, h => (prepMem h si p).bind fun h => prepsMem si ps h

/-- One term in `setupConstraints` (src/cut/CglVPC.cpp:1086-1226): terms marked infeasible are skipped. -/
structure TermMem (σ : Type) where
  feasible : Bool
  work : σ → σ
  bad : Bool := false

/-- The loop over the terms (src/cut/CglVPC.cpp:1086-1226). -/
def termsMem (c : ℕ) : List (TermMem σ) → BMem σ → Res (BMem σ)
  | [], h => .ok h
  | t :: ts, h =>
    if !t.feasible then termsMem c ts h
    else (scratchMem t.work t.bad h c).bind fun h => termsMem c ts h

/-- How `iterateDeepestCutPostGomory` ends (src/cut/PRLP.cpp:1711-1995): before a copy is made (:1714-1717),
with the delete of :1755-1758 or through `exitFromIterateDeepestCutPostGomory` (:1984-1986); or the process
ends (:1745-1748, :1868). -/
inductive PostMem (σ : Type) | off | on (work : σ → σ) (bad : Bool)

/-- `iterateDeepestCutPostGomory`. -/
def postMem (h : BMem σ) (c : ℕ) : PostMem σ → Res (BMem σ)
  | .off => .ok h
  | .on f bad => scratchMem f bad h c

/-- What happens for one disjunction in `generateCuts`: a limit stops the loop (src/cut/CglVPC.cpp:518-525), the
setup works on its solver, uses the terms, succeeds or not (:534-538), then the objectives are tried. -/
structure DisjMem (σ : Type) where
  stop : Bool := false
  setup : σ → σ
  terms : List (TermMem σ)
  setupOk : Bool := true
  solve : σ → σ
  post : PostMem σ := .off
  bad : Bool := false

/-- One disjunction: setup, and the objectives if it succeeds. -/
def disjMem (d : DisjMem σ) (h : BMem σ) (c : ℕ) : Res (BMem σ) :=
  (h.use c d.setup).bind fun h =>
  (termsMem c d.terms h).bind fun h =>
  if !d.setupOk then .ok h
  else (postMem h c d.post).bind fun h =>
    (h.use c d.solve).bind fun h => orExit h d.bad

/-- The loop over the disjunctions (src/cut/CglVPC.cpp:516-552): with more than one each gets its own copy. -/
def disjsMem (many : Bool) (v : ℕ) : List (DisjMem σ) → BMem σ → Res (BMem σ)
  | [], h => .ok h
  | d :: ds, h =>
    if d.stop then .ok h
    else
      (if many then h.dup v else .ok (h, v)).bind fun r =>
      (disjMem d r.1 r.2).bind fun h =>
      (if many then h.delete (some r.2) else .ok h).bind fun h =>
      if !d.setupOk then .ok h else disjsMem many v ds h

/-- A call of `generateCuts`: `flip`: the solver given is changed into a minimization problem
(src/cut/CglVPC.cpp:386-402, by `const_cast`); `early`: it returns before or after the preparation
(:246-260, :480-483). -/
structure GenMem (σ : Type) where
  flip : Option (σ → σ) := none
  preps : List (PrepMem σ) := []
  prepOk : Bool := true
  root : σ → σ
  rootOk : Bool := true
  disjs : List (DisjMem σ) := []

/-- `generateCuts` from the cast on (src/cut/CglVPC.cpp:372-556). -/
def genMem (g : GenMem σ) (h : BMem σ) (si : ℕ) : Res (BMem σ) :=
  (match g.flip with | none => Res.ok h | some f => h.use si f).bind fun h =>
  (prepsMem si g.preps h).bind fun h =>
  if !g.prepOk then .ok h
  else
    (h.dup si).bind fun v =>
    (v.1.use v.2 g.root).bind fun h =>
    if !g.rootOk then h.delete (some v.2)
    else (disjsMem (decide (1 < g.disjs.length)) v.2 g.disjs h).bind fun h => h.delete (some v.2)

/-! ## Branch-and-bound tests -/

/-- Cbc on a copy of a solver, with or without user cuts (src/test/CbcHelper.cpp:403-428, :454-473, with
:256-275, :310-330): the search runs without the event handler of the partial tree. `cuts` is what
`applyCuts` does to the copy. -/
def cbcMem (setup : σ → σ) (cuts : Option (σ → σ)) (steps : List (SearchStep σ)) (bad : Bool)
    (h : BMem σ) (solver : ℕ) : Res (BMem σ) :=
  (h.dup solver).bind fun bb =>
  (bb.1.use bb.2 setup).bind fun h =>
  (match cuts with | none => Res.ok h | some f => h.use bb.2 f).bind fun h =>
  (searchMem false 0 (steps.filter fun s => !s.isSave) h bb.2).bind fun r =>
  (orExit r.1 bad).bind fun h => freeModel h bb.2 r.2 true

/-- Cbc on a file (src/test/CbcHelper.cpp:377-401, :430-452): a new solver is read by `initializeSolver`
(`file`: what is read, `none` if that ends the process). -/
def cbcFileMem (file : Option σ) (cuts : Option (σ → σ)) (steps : List (SearchStep σ)) (bad : Bool)
    (h : BMem σ) : Res (BMem σ) :=
  match file with
  | none => .exit
  | some s =>
    (match cuts with | none => Res.ok (h.new s) | some f => (h.new s).use h.next f).bind fun h' =>
    (searchMem false 0 (steps.filter fun s => !s.isSave) h' h.next).bind
      fun r => (orExit r.1 bad).bind fun h' => freeModel h' h.next r.2 true

/-- One call of Cbc in a test. -/
structure CbcMem (σ : Type) where
  setup : σ → σ
  cuts : Option (σ → σ) := none
  steps : List (SearchStep σ) := []
  bad : Bool := false

/-- The calls of a pass (src/test/BBHelper.cpp:287-303). -/
def cbcsMem (solver : ℕ) : List (CbcMem σ) → BMem σ → Res (BMem σ)
  | [], h => .ok h
  | c :: cs, h => (cbcMem c.setup c.cuts c.steps c.bad h solver).bind fun h => cbcsMem solver cs h

/-- One pass of the loop over runs: the permuted problem, if rows and columns are permuted, and the calls. -/
structure BBPass (σ : Type) where
  permuted : Option σ
  calls : List (CbcMem σ)

/-- `runSolver` (src/test/BBHelper.cpp:126, :178, :287-290, :325-327): `cur` is its value before the pass.
Deleted only if it is not the solver given. A pass without a permuted problem uses the solver given, also
after earlier passes (all passes are of one kind). -/
def bbPassMem (solver : ℕ) (p : BBPass σ) (h : BMem σ) (cur : Option ℕ) : Res (BMem σ × Option ℕ) :=
  match p.permuted with
  | some s =>
    (cbcsMem h.next p.calls (h.new s)).bind fun h' =>
    (if h.next ≠ solver then h'.delete (some h.next) else .ok h').bind fun h' => .ok (h', some h.next)
  | none => (cbcsMem (cur.getD solver) p.calls h).bind fun h => .ok (h, some (cur.getD solver))

/-- All passes (src/test/BBHelper.cpp:131-328). -/
def bbPassesMem (solver : ℕ) : List (BBPass σ) → BMem σ → Option ℕ → Res (BMem σ)
  | [], h, _ => .ok h
  | p :: ps, h, cur => (bbPassMem solver p h cur).bind fun r => bbPassesMem solver ps r.1 r.2

/-! ## Analysis, terms, preprocessing, main program -/

/-- `getNumGomoryRounds` (src/test/analysis.cpp:1144-1199): the copy is not deleted. -/
def gomoryRoundsMem (work : σ → σ) (h : BMem σ) (orig : ℕ) : Res (BMem σ) :=
  (h.dup orig).bind fun r => r.1.use r.2 work

/-- `getSolverForTerm` (src/disjunction/Disjunction.cpp:138-258): the caller gets a solver to delete, or a
null pointer if the term is not solved to optimality. -/
def termSolverMem (work : σ → σ) (bad optimal : Bool) (h : BMem σ) (solver : ℕ) :
    Res (BMem σ × Option ℕ) :=
  (h.dup solver).bind fun r =>
  (r.1.use r.2 work).bind fun h =>
  (orExit h bad).bind fun h =>
  if optimal then .ok (h, some r.2) else (h.delete (some r.2)).bind fun h => .ok (h, none)

/-- Repeated cleaning (src/utility/preprocess.cpp:172-182 with :295-424): each pass copies the cleaned
solver, works on both and deletes the copy. -/
def cleansMem (c : ℕ) : List ((σ → σ) × (σ → σ) × Bool) → BMem σ → Res (BMem σ)
  | [], h => .ok h
  | p :: ps, h => (scratchMem p.1 p.2.2 h c).bind fun h => (h.use c p.2.1).bind fun h => cleansMem c ps h

/-- `performCleaning` (src/utility/preprocess.cpp:76-270). -/
def cleaningMem (before : List (BBPass σ)) (empty : σ) (read : σ → σ)
    (cleans : List ((σ → σ) × (σ → σ) × Bool)) (bad : Bool) (after : List (BBPass σ)) (h : BMem σ)
    (solver : ℕ) : Res (BMem σ) :=
  (bbPassesMem solver before h none).bind fun h =>
  ((h.new empty).use h.next read).bind fun h' =>
  (cleansMem h.next cleans h').bind fun h' =>
  (orExit h' bad).bind fun h' =>
  (bbPassesMem h.next after h' none).bind fun h' => h'.delete (some h.next)

/-- The global pointers of the main program (src/main.cpp:92-97). -/
structure MainPtrs where
  solver : Option ℕ := none
  orig : Option ℕ := none
  gmic : Option ℕ := none
  vpc : Option ℕ := none
  all : Option ℕ := none
deriving DecidableEq, Repr

/-- A null pointer used is undefined. -/
def usePtr (h : BMem σ) (p : Option ℕ) (f : σ → σ) : Res (BMem σ) :=
  match p with | none => .undef | some a => h.use a f

/-- A copy of what a pointer points to. -/
def dupPtr (h : BMem σ) (p : Option ℕ) : Res (BMem σ × Option ℕ) :=
  match p with | none => .undef | some a => (h.dup a).bind fun r => .ok (r.1, some r.2)

/-- The copies for the other bounds (src/main.cpp:222-226). -/
def gomoryCopies (gomory : ℤ) (h : BMem σ) (p : MainPtrs) : Res (BMem σ × MainPtrs) :=
  if gomory ≠ 0 then
    (dupPtr h p.solver).bind fun g => (dupPtr g.1 p.solver).bind fun v => (dupPtr v.1 p.solver).bind fun a =>
      .ok (a.1, { p with gmic := g.2, vpc := v.2, all := a.2 })
  else .ok (h, p)

/-- From the file to the copies (src/main.cpp:196-226): `read` is the problem read (`none`: the process ends),
`bad`: the LP relaxation is not solved. -/
def mainSetup (gomory : ℤ) (read : Option σ) (solve : σ → σ) (bad : Bool) (h : BMem σ) :
    Res (BMem σ × MainPtrs) :=
  match read with
  | none => .exit
  | some s =>
    let a := h.next
    ((h.new s).use a solve).bind fun h =>
    (orExit h bad).bind fun h =>
    (dupPtr h (some a)).bind fun o => gomoryCopies gomory o.1 { solver := some a, orig := o.2 }

/-- A round: Gomory cuts go to two or three solvers, cuts are generated from `solver`, then applied
(src/main.cpp:478-560, :563, :656-700). -/
structure RoundMem (σ : Type) where
  gmic : σ → σ
  gen : Option (GenMem σ)
  apply : σ → σ

/-- One round (src/main.cpp:470-720): Gomory cuts for the parameter 1 or -1 (:485-538), the cuts of the
generator, and these applied (:656-700; without cuts nothing is applied, `apply` may be the identity). -/
def roundMem (gomory : ℤ) (p : MainPtrs) (r : RoundMem σ) (h : BMem σ) : Res (BMem σ) :=
  (if gomory = -1 ∨ gomory = 1 then
    (usePtr h p.gmic r.gmic).bind fun h =>
    (if 0 < gomory then usePtr h p.solver r.gmic else .ok h).bind fun h => usePtr h p.all r.gmic
   else .ok h).bind fun h =>
  (match r.gen with
   | none => Res.ok h
   | some g => match p.solver with | none => Res.undef | some a => genMem g h a).bind fun h =>
  if gomory ≠ 0 then
    (usePtr h p.vpc r.apply).bind fun h =>
    (usePtr h p.solver r.apply).bind fun h => usePtr h p.all r.apply
  else usePtr h p.solver r.apply

/-- All rounds (src/main.cpp:466-839). -/
def roundsMem (gomory : ℤ) (p : MainPtrs) : List (RoundMem σ) → BMem σ → Res (BMem σ)
  | [], h => .ok h
  | r :: rs, h => (roundMem gomory p r h).bind fun h => roundsMem gomory p rs h

/-- The end of `wrapUp` (src/main.cpp:1199-1213). -/
def wrapMem (p : MainPtrs) (h : BMem σ) : Res (BMem σ) :=
  (h.delete p.solver).bind fun h => (h.delete p.orig).bind fun h => (h.delete p.gmic).bind fun h =>
  (h.delete p.vpc).bind fun h => h.delete p.all

/-- What the main program does between setup and `wrapUp`: it returns at once (src/main.cpp:288-291, :374-377),
cleans (:361-369), or makes rounds and the branch-and-bound tests on `origSolver` (:842-855). -/
inductive MainMem (σ : Type)
  | stop
  | clean (before : List (BBPass σ)) (empty : σ) (read : σ → σ) (cleans : List ((σ → σ) × (σ → σ) × Bool))
      (bad : Bool) (after : List (BBPass σ))
  | cuts (rounds : List (RoundMem σ)) (tests : List (BBPass σ))

/-- The work. -/
def workMem (gomory : ℤ) (p : MainPtrs) (h : BMem σ) : MainMem σ → Res (BMem σ)
  | .stop => .ok h
  | .clean b e r cs bad a =>
    match p.solver with | none => .undef | some s => cleaningMem b e r cs bad a h s
  | .cuts rs ts =>
    (roundsMem gomory p rs h).bind fun h =>
    match p.orig with | none => .undef | some o => bbPassesMem o ts h none

/-- The main program (src/main.cpp:192-898): a failing `startUp` returns before any solver exists. -/
def mainMem (started : Bool) (gomory : ℤ) (read : Option σ) (solve : σ → σ) (bad : Bool) (m : MainMem σ)
    (h : BMem σ) : Res (BMem σ) :=
  if !started then .ok h
  else
    (mainSetup gomory read solve bad h).bind fun r =>
    (workMem gomory r.2 r.1 m).bind fun h => wrapMem r.2 h

end VPC
