import Verif.Model.SolverOps
import Verif.Model.Files

/-!
# The object `VPCSolverInterface` and the reading of an instance
(src/utility/VPCSolverInterface.cpp:116-300, src/utility/SolverHelper.cpp:8-62)

The cut generator (`CglVPC`), the LP solver and the readers of files are parameters.  Ownership of the
pointers of the object is the subject of `Verif.Model.Own`.
-/
namespace VPC

/-- What the object holds (include/VPCSolverInterface.hpp:48-53): the solver, the collected cuts and
the disjunction of the last generator that had one. The parameters do not change. -/
structure Iface (σ δ : Type) where
  solver : σ
  cuts : List RowCut
  disj : Option δ

/-- The parts outside the object: the LP solver; `flipObj`, which touches the objective only
(src/utility/VPCSolverInterface.cpp:86-109); the number Osi reports for `applyCuts`; and the
generator `gen.generateCuts(*solver, *cuts)` (src/utility/VPCSolverInterface.cpp:226-229), giving the
solver, the collection and `gen.disj()` afterwards. -/
structure IfaceEnv (σ δ : Type) where
  impl : SolverImpl σ
  flip : σ → σ
  numApplied : List RowCut → σ → ℕ
  gen : σ → List RowCut → Res (σ × List RowCut × Option δ)

/-- The calls of a user of the object (include/VPCSolverInterface.hpp:78-112). -/
inductive IfaceOp (σ : Type) where
  | load (si : σ)
  | solve
  | resolve
  | generate
  | apply (mask : Option (List Bool)) (clear : Bool)

/-- What a call answers: nothing, the number of cuts applied, or an exception. -/
inductive Reply where
  | done
  | applied (n : ℤ)
  | threw
deriving DecidableEq, Repr

variable {σ δ : Type}

/-- `load(const OsiSolverInterface*)` (src/utility/VPCSolverInterface.cpp:159-167). -/
def ifaceLoad (E : IfaceEnv σ δ) (si : σ) (o : Iface σ δ) : Iface σ δ :=
  { o with solver := E.flip si }

/-- The end of `generateCuts` (src/utility/VPCSolverInterface.cpp:227-230): the disjunction is
replaced if the generator has one. -/
def keepDisj (new old : Option δ) : Option δ :=
  match new with
  | some d => some d
  | none => old

/-- `generateCuts` (src/utility/VPCSolverInterface.cpp:217-231). User objectives are not modelled
(C49). The exception is a pointer to a local array. -/
def ifaceGenerate (E : IfaceEnv σ δ) (o : Iface σ δ) : Res (Iface σ δ × Reply) :=
  if !(E.impl.isOptimal o.solver) then .ok (o, .threw)
  else (E.gen o.solver o.cuts).bind fun r => .ok (⟨r.1, r.2.1, keepDisj r.2.2 o.disj⟩, .done)

/-- `applyCuts` (src/utility/VPCSolverInterface.cpp:233-272). -/
def ifaceApply (E : IfaceEnv σ δ) (mask : Option (List Bool)) (clear : Bool) (o : Iface σ δ) :
    Res (Iface σ δ × Reply) :=
  (vpcApplyCuts E.impl E.numApplied mask clear o.cuts o.solver).bind fun r =>
    .ok ({ o with solver := r.2.1, cuts := r.2.2 }, .applied r.1)

/-- One call (src/utility/VPCSolverInterface.cpp:159-167, 201-276). -/
def ifaceStep (E : IfaceEnv σ δ) (o : Iface σ δ) : IfaceOp σ → Res (Iface σ δ × Reply)
  | .load si => .ok (ifaceLoad E si o, .done)
  | .solve => .ok ({ o with solver := E.impl.initialSolve o.solver }, .done)
  | .resolve => .ok ({ o with solver := E.impl.resolve o.solver }, .done)
  | .generate => ifaceGenerate E o
  | .apply mask clear => ifaceApply E mask clear o

/-- A history of calls; a caller that catches the exception goes on. -/
def ifaceRun (E : IfaceEnv σ δ) (o : Iface σ δ) : List (IfaceOp σ) → Res (Iface σ δ × List Reply)
  | [] => .ok (o, [])
  | op :: ops => (ifaceStep E o op).bind fun r =>
      (ifaceRun E r.1 ops).bind fun q => .ok (q.1, r.2 :: q.2)

/-! ## Reading an instance -/

/-- What `readLp` / `readMps` do: return a status and leave a solver state, or throw. -/
inductive ReadOut (σ : Type) where
  | status (n : ℤ) (s : σ)
  | exn
deriving DecidableEq, Repr

/-- Outcome of the reading code: a solver, `exit(1)`, or an exception that leaves the function. -/
inductive ReadRes (σ : Type) where
  | read (s : σ)
  | exit
  | thrown
deriving DecidableEq, Repr

/-- The solver's readers on the given file. -/
structure Readers (σ : Type) where
  lp : ReadOut σ
  mps : ReadOut σ

/-- After the reader returned (src/utility/SolverHelper.cpp:57-62,
src/utility/VPCSolverInterface.cpp:147-151). -/
def checkStatus (caught : Bool) : ReadOut σ → ReadRes σ
  | .status n s => if n < 0 then .exit else .read s
  | .exn => if caught then .exit else .thrown

/-- The choice of the reader by the extension (src/utility/SolverHelper.cpp:31-56,
src/utility/VPCSolverInterface.cpp:121-146): only the reader for an unknown extension is guarded. -/
def readByExt (R : Readers σ) (ext : List Char) : ReadRes σ :=
  if ext = "lp".toList then checkStatus false R.lp
  else if ext = "mps".toList then checkStatus false R.mps
  else checkStatus true R.mps

/-- `VPCSolverInterface::load(std::string)` up to the flip of the objective
(src/utility/VPCSolverInterface.cpp:117-151): the result of `parseFilename` is not looked at. -/
def ifaceReadFile (R : Readers σ) (name : List Char) : ReadRes σ :=
  readByExt R (parseFilename ⟨[], [], []⟩ name).2.ext

/-- `initializeSolver` up to the flip of the objective (src/utility/SolverHelper.cpp:8-62);
`exists` tells which files exist. -/
def initReadFile (fexists : List Char → Bool) (R : Readers σ) (name : List Char) : ReadRes σ :=
  if !(fexists name) && !(fexists (name ++ ".gz".toList)) && !(fexists (name ++ ".bz2".toList)) then .exit
  else if (parseFilename ⟨[], [], []⟩ name).1 ≠ 0 then .exit
  else readByExt R (parseFilename ⟨[], [], []⟩ name).2.ext

end VPC
