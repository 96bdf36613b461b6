import Verif.Model.SolverOps
import Mathlib.Logic.Function.Basic

/-!
# Ownership of disjunctions and point-ray LPs (src/cut/CglVPC.cpp,
src/utility/VPCSolverInterface.cpp)

Heap objects are numbered; `live` says which are allocated.  Deleting or using an object that is
not allocated, calling a method on a null pointer and reading an indeterminate pointer are `undef`.
-/
namespace VPC

/-- Allocated objects and the next free number. -/
structure Heap where
  live : ℕ → Bool
  next : ℕ

/-- `new T`. -/
def Heap.alloc (h : Heap) : Heap := ⟨Function.update h.live h.next true, h.next + 1⟩

/-- `delete p` (deleting a null pointer does nothing). -/
def Heap.free (h : Heap) : Option ℕ → Res Heap
  | none => .ok h
  | some id => if h.live id then .ok { h with live := Function.update h.live id false } else .undef

/-- `p->clone()`: needs a live object, allocates a new one (numbered `h.next`). -/
def Heap.clone (h : Heap) : Option ℕ → Res Heap
  | none => .undef
  | some id => if h.live id then .ok h.alloc else .undef

/-- The pointers of a `CglVPC` (include/CglVPC.hpp:193, 212, 359-360). -/
structure Vpc where
  disj : Option ℕ
  dset : Option ℕ
  prlp : Option ℕ
  owns : Bool
deriving DecidableEq, Repr

/-- A default-constructed generator (src/cut/CglVPC.cpp:672-687); a generator under copy
construction has the same null pointers (default member initializers) before `initialize` runs. -/
def Vpc.fresh : Vpc := ⟨none, none, none, false⟩

/-- Which flag is stored (src/cut/CglVPC.cpp:185-187). -/
def ownFlag (g : Vpc) (ownIt : ℤ) : Bool := if ownIt < 0 then g.owns else decide (ownIt ≠ 0)

/-- `CglVPC::setDisjunction` (src/cut/CglVPC.cpp:180-195). -/
def Vpc.setDisjunction (h : Heap) (g : Vpc) (p : Option ℕ) (ownIt : ℤ) : Res (Heap × Vpc) :=
  (if g.owns then h.free g.disj else .ok h).bind fun h' =>
  if ownFlag g ownIt then
    (h'.clone p).bind fun h'' => .ok (h'', { g with owns := true, disj := some h'.next })
  else .ok (h', { g with owns := false, disj := p })

/-- `CglVPC::setDisjunctionSet` (src/cut/CglVPC.cpp:200-215). -/
def Vpc.setDisjunctionSet (h : Heap) (g : Vpc) (p : Option ℕ) (ownIt : ℤ) : Res (Heap × Vpc) :=
  (if g.owns then h.free g.dset else .ok h).bind fun h' =>
  if ownFlag g ownIt then
    (h'.clone p).bind fun h'' => .ok (h'', { g with owns := true, dset := some h'.next })
  else .ok (h', { g with owns := false, dset := p })

/-- The part of `initialize(&source)` that touches pointers (src/cut/CglVPC.cpp:646-653), used by
copy construction and assignment. -/
def Vpc.copyFrom (h : Heap) (g src : Vpc) : Res (Heap × Vpc) :=
  (g.setDisjunction h src.disj (if src.owns then 1 else 0)).bind fun r =>
  (r.2.setDisjunctionSet r.1 src.dset (if src.owns then 1 else 0)).bind fun r =>
  .ok (r.1, { r.2 with prlp := src.prlp })

/-- `~CglVPC` (src/cut/CglVPC.cpp:154-158). -/
def Vpc.destroy (h : Heap) (g : Vpc) : Res Heap :=
  (if g.owns then h.free g.disj else .ok h).bind fun h =>
  (if g.owns then h.free g.dset else .ok h).bind fun h =>
  h.free g.prlp

/-- `new PRLP` once per disjunction, overwriting the pointer (src/cut/CglVPC.cpp:1485). -/
def Vpc.newPrlps : ℕ → Heap → Vpc → Heap × Vpc
  | 0, h, g => (h, g)
  | n + 1, h, g => Vpc.newPrlps n h.alloc { g with prlp := some h.next }

/-- `generateCuts` as far as pointers are concerned, for a run that is not stopped before a
disjunction is set up (src/cut/CglVPC.cpp:291-366, 486-503): if a disjunction (set) is present the
mode becomes CUSTOM, which is "not implemented" and terminates the process; otherwise one is
created (`set` = modes SPLITS and DISJ_SET_PBB) and `n` point-ray LPs are built. -/
def Vpc.generate (h : Heap) (g : Vpc) (set : Bool) (n : ℕ) : Res (Heap × Vpc) :=
  if g.disj.isNone && g.dset.isNone then
    let g := if set then { g with owns := true, dset := some h.next }
      else { g with owns := true, disj := some h.next }
    .ok (Vpc.newPrlps n h.alloc g)
  else .exit

/-- A program state: the heap, the user's own pointers and the generators, by slot. -/
structure World where
  heap : Heap
  user : ℕ → Option ℕ
  gen : ℕ → Option Vpc

/-- What a user program can do with disjunctions and generators. `p` is any pointer value. -/
inductive GOp
  | userNew (k : ℕ)
  | userFree (k : ℕ)
  | create (i : ℕ)
  | copy (i j : ℕ)
  | assign (i j : ℕ)
  | setDisj (i : ℕ) (p : Option ℕ) (own : ℤ)
  | setSet (i : ℕ) (p : Option ℕ) (own : ℤ)
  | generate (i : ℕ) (set : Bool) (n : ℕ)
  | destroy (i : ℕ)

/-- Store the result of an operation on generator `i`. -/
def World.put (w : World) (i : ℕ) (r : Res (Heap × Vpc)) : Res World :=
  r.bind fun r => .ok { w with heap := r.1, gen := Function.update w.gen i (some r.2) }

/-- One operation (src/cut/CglVPC.cpp:138-215 and :235-366). Using a generator that does not exist
is undefined. -/
def World.step (w : World) : GOp → Res World
  | .userNew k => .ok { w with heap := w.heap.alloc, user := Function.update w.user k (some w.heap.next) }
  | .userFree k => (w.heap.free (w.user k)).bind fun h =>
      .ok { w with heap := h, user := Function.update w.user k none }
  | .create i => .ok { w with gen := Function.update w.gen i (some Vpc.fresh) }
  | .copy i j => match w.gen j with
    | none => .undef
    | some src => w.put i (Vpc.fresh.copyFrom w.heap src)
  | .assign i j => match w.gen i, w.gen j with
    | some g, some src => if i = j then .ok w else w.put i (g.copyFrom w.heap src)
    | _, _ => .undef
  | .setDisj i p own => match w.gen i with
    | none => .undef
    | some g => w.put i (g.setDisjunction w.heap p own)
  | .setSet i p own => match w.gen i with
    | none => .undef
    | some g => w.put i (g.setDisjunctionSet w.heap p own)
  | .generate i set n => match w.gen i with
    | none => .undef
    | some g => w.put i (g.generate w.heap set n)
  | .destroy i => match w.gen i with
    | none => .undef
    | some g => (g.destroy w.heap).bind fun h =>
        .ok { w with heap := h, gen := Function.update w.gen i none }

/-- Run a program. -/
def World.run (w : World) : List GOp → Res World
  | [] => .ok w
  | op :: ops => (w.step op).bind fun w => w.run ops

/-- Nothing allocated yet. -/
def World.init : World := ⟨⟨fun _ => false, 0⟩, fun _ => none, fun _ => none⟩

/-! ## VPCSolverInterface -/

/-- The pointers of a `VPCSolverInterface` (include/VPCSolverInterface.hpp:49-53). -/
structure Vsi where
  solver : Option ℕ
  cuts : Option ℕ
  disj : Option ℕ
  params : Option ℕ
deriving DecidableEq, Repr

/-- Default constructor (src/utility/VPCSolverInterface.cpp:57-59, 320-336). -/
def Vsi.create (h : Heap) : Heap × Vsi :=
  (h.alloc.alloc.alloc, ⟨some h.next, some (h.next + 1), none, some (h.next + 2)⟩)

/-- `free()` (src/utility/VPCSolverInterface.cpp:339-358). -/
def Vsi.free (h : Heap) (v : Vsi) : Res Heap :=
  (h.free v.solver).bind fun h => (h.free v.cuts).bind fun h => (h.free v.disj).bind fun h =>
  h.free v.params

/-- Copy constructor (src/utility/VPCSolverInterface.cpp:61-63 and :310-319): `initialize(&source)`
starts with `free()`, which tests and deletes the still indeterminate members. -/
def Vsi.copy (_h : Heap) (_src : Vsi) : Res (Heap × Vsi) := .undef

/-- Assignment from a different object (src/utility/VPCSolverInterface.cpp:69-74, 310-319):
`free()`, then clone everything of the source. -/
def Vsi.assign (h : Heap) (v src : Vsi) : Res (Heap × Vsi) :=
  (v.free h).bind fun h => (h.clone src.solver).bind fun h1 => (h1.clone src.cuts).bind fun h2 =>
  (h2.clone src.disj).bind fun h3 => (h3.clone src.params).bind fun h4 =>
  .ok (h4, ⟨some h.next, some h1.next, some h2.next, some h3.next⟩)

/-- `setDisjunction` (src/utility/VPCSolverInterface.cpp:111-115): deletes its argument, then clones
it. -/
def Vsi.setDisjunction (h : Heap) (v : Vsi) (p : Option ℕ) : Res (Heap × Vsi) :=
  (h.free p).bind fun h1 => (h1.clone p).bind fun h2 => .ok (h2, { v with disj := some h1.next })

/-- `setParams` (src/utility/VPCSolverInterface.cpp:80-84). -/
def Vsi.setParams (h : Heap) (v : Vsi) (p : Option ℕ) : Res (Heap × Vsi) :=
  (h.free v.params).bind fun h1 => (h1.clone p).bind fun h2 =>
  .ok (h2, { v with params := some h1.next })

/-- `load(OsiSolverInterface*)` (src/utility/VPCSolverInterface.cpp:159-167). -/
def Vsi.load (h : Heap) (v : Vsi) (p : Option ℕ) : Res (Heap × Vsi) :=
  (h.free v.solver).bind fun h1 => (h1.clone p).bind fun h2 =>
  .ok (h2, { v with solver := some h1.next })

/-- End of `generateCuts` (src/utility/VPCSolverInterface.cpp:227-230): `d` is the generator's
disjunction. -/
def Vsi.takeDisj (h : Heap) (v : Vsi) (d : Option ℕ) : Res (Heap × Vsi) :=
  match d with
  | none => .ok (h, v)
  | some _ => (h.free v.disj).bind fun h1 => (h1.clone d).bind fun h2 =>
      .ok (h2, { v with disj := some h1.next })

/-- Program state with the user's own pointers and interface objects, by slot. -/
structure VWorld where
  heap : Heap
  user : ℕ → Option ℕ
  obj : ℕ → Option Vsi

/-- What a user program can do with interface objects (`take i d` is the end of `generateCuts` when
the generator's disjunction is `d`). -/
inductive VOp
  | userNew (k : ℕ)
  | userFree (k : ℕ)
  | create (i : ℕ)
  | copy (i j : ℕ)
  | assign (i j : ℕ)
  | setDisj (i : ℕ) (p : Option ℕ)
  | setParams (i : ℕ) (p : Option ℕ)
  | load (i : ℕ) (p : Option ℕ)
  | take (i : ℕ) (d : Option ℕ)
  | destroy (i : ℕ)

/-- Store the result of an operation on object `i`. -/
def VWorld.put (w : VWorld) (i : ℕ) (r : Res (Heap × Vsi)) : Res VWorld :=
  r.bind fun r => .ok { w with heap := r.1, obj := Function.update w.obj i (some r.2) }

/-- One operation (src/utility/VPCSolverInterface.cpp:57-84, 111-115, 159-167, 217-231). -/
def VWorld.step (w : VWorld) : VOp → Res VWorld
  | .userNew k => .ok { w with heap := w.heap.alloc, user := Function.update w.user k (some w.heap.next) }
  | .userFree k => (w.heap.free (w.user k)).bind fun h =>
      .ok { w with heap := h, user := Function.update w.user k none }
  | .create i => w.put i (.ok (Vsi.create w.heap))
  | .copy i j => match w.obj j with
    | none => .undef
    | some src => w.put i (Vsi.copy w.heap src)
  | .assign i j => match w.obj i, w.obj j with
    | some v, some src => if i = j then .ok w else w.put i (v.assign w.heap src)
    | _, _ => .undef
  | .setDisj i p => match w.obj i with
    | none => .undef
    | some v => w.put i (v.setDisjunction w.heap p)
  | .setParams i p => match w.obj i with
    | none => .undef
    | some v => w.put i (v.setParams w.heap p)
  | .load i p => match w.obj i with
    | none => .undef
    | some v => w.put i (v.load w.heap p)
  | .take i d => match w.obj i with
    | none => .undef
    | some v => w.put i (v.takeDisj w.heap d)
  | .destroy i => match w.obj i with
    | none => .undef
    | some v => (v.free w.heap).bind fun h =>
        .ok { w with heap := h, obj := Function.update w.obj i none }

/-- Run a program. -/
def VWorld.run (w : VWorld) : List VOp → Res VWorld
  | [] => .ok w
  | op :: ops => (w.step op).bind fun w => w.run ops

/-- Nothing allocated yet. -/
def VWorld.init : VWorld := ⟨⟨fun _ => false, 0⟩, fun _ => none, fun _ => none⟩

end VPC
