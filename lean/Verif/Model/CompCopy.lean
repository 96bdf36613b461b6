import Verif.Model.ObjCopy

/-!
# Copying the components of the search and point-ray LPs
(src/branch/OsiChooseStrongCustom.cpp:176-235, :448-452; src/cut/PRLP.cpp:23-57, :440-471)

The array of strong-branching results of a chooser is on the heap; its other members are plain values. Cbc clones the
chooser it is given (external). Reading or deleting memory that is not allocated is `.undef`.
-/
namespace VPC

/-- What a chooser was told and has learnt (include/OsiChooseStrongCustom.hpp:150-180): `base` are the members of
`OsiChooseVariable`, copied by its own operations (external), `pseudo` are the pseudocosts. -/
structure ChooserOwn (σ π : Type) where
  base : σ
  method : ℤ
  second : ℤ
  secondWay : ℤ
  shadow : ℤ
  pseudo : π
deriving DecidableEq, Repr

/-- `OsiChooseStrongCustom` in memory (include/OsiChooseStrongCustom.hpp:150-180). -/
structure Chooser (σ π : Type) where
  own : ChooserOwn σ π
  results : Option ℕ
  numResults : ℕ
deriving DecidableEq, Repr

/-- The heap of result arrays, and the choosers alive. -/
structure CWorld (σ π ρ : Type) where
  heap : BMem (List ρ)
  objs : ℕ → Option (Chooser σ π)

variable {σ π ρ : Type}

/-- Nothing allocated. -/
def CWorld.init : CWorld σ π ρ := ⟨⟨fun _ => none, 0⟩, fun _ => none⟩

/-- The constructors from nothing or from a solver (src/branch/OsiChooseStrongCustom.cpp:178-190, :226-235). -/
def Chooser.fresh (base : σ) (pseudo : π) : Chooser σ π := ⟨⟨base, 0, -1, 0, 0, pseudo⟩, none, 0⟩

/-- The copy constructor and `clone` (src/branch/OsiChooseStrongCustom.cpp:192-196, :217-230). -/
def Chooser.copy (src : Chooser σ π) : Chooser σ π := ⟨src.own, none, 0⟩

/-- `operator=` (src/branch/OsiChooseStrongCustom.cpp:198-210). -/
def Chooser.assign (h : BMem (List ρ)) (self : Bool) (dst src : Chooser σ π) :
    Res (BMem (List ρ) × Chooser σ π) :=
  if self then .ok (h, dst)
  else (h.delete dst.results).bind fun h => .ok (h, ⟨src.own, none, 0⟩)

/-- `resetResults(num)` (src/branch/OsiChooseStrongCustom.cpp:448-452); `d` is a default `OsiHotInfo`. -/
def Chooser.reset (d : ρ) (h : BMem (List ρ)) (n : ℕ) (c : Chooser σ π) : Res (BMem (List ρ) × Chooser σ π) :=
  (h.delete c.results).bind fun h => .ok (h.new (List.replicate n d), { c with results := some h.next, numResults := 0 })

/-- The array the chooser points to; `.undef` if it does not exist. -/
def Chooser.array (h : BMem (List ρ)) (c : Chooser σ π) : Res (ℕ × List ρ) :=
  match c.results with
  | none => .undef
  | some a => match h.mem a with
    | none => .undef
    | some arr => .ok (a, arr)

/-- `results_[k] = r` (src/branch/OsiChooseStrongCustom.cpp:50, :691), with the number of results counted or not
(:97 ff.). -/
def Chooser.store (h : BMem (List ρ)) (k : ℕ) (r : ρ) (count : Bool) (c : Chooser σ π) :
    Res (BMem (List ρ) × Chooser σ π) :=
  (c.array h).bind fun x =>
    if k < x.2.length then
      .ok ({ h with mem := Function.update h.mem x.1 (some (x.2.set k r)) },
        { c with numResults := if count then c.numResults + 1 else c.numResults })
    else .undef

/-- `results_[k]` (src/branch/OsiChooseStrongCustom.cpp:715-741). -/
def Chooser.read (h : BMem (List ρ)) (k : ℕ) (c : Chooser σ π) : Res ρ :=
  (c.array h).bind fun x => match x.2[k]? with
    | none => .undef
    | some r => .ok r

/-- Operations of a program on choosers; `learn` stands for any change of the plain members. -/
inductive COp (σ π ρ : Type)
  | make (i : ℕ) (base : σ) (pseudo : π)
  | copy (i j : ℕ)
  | assign (i j : ℕ)
  | learn (i : ℕ) (s : ChooserOwn σ π)
  | reset (i n : ℕ)
  | store (i k : ℕ) (r : ρ) (count : Bool)
  | read (i k : ℕ)
  | destroy (i : ℕ)

/-- A new object; the place must be free. -/
def CWorld.create (w : CWorld σ π ρ) (i : ℕ) (c : Chooser σ π) : Res (CWorld σ π ρ) :=
  match w.objs i with
  | some _ => .undef
  | none => .ok { w with objs := Function.update w.objs i (some c) }

/-- An operation on an object that exists. -/
def CWorld.upd (w : CWorld σ π ρ) (i : ℕ) (f : Chooser σ π → Res (BMem (List ρ) × Chooser σ π)) : Res (CWorld σ π ρ) :=
  match w.objs i with
  | none => .undef
  | some c => (f c).bind fun r => .ok ⟨r.1, Function.update w.objs i (some r.2)⟩

/-- One operation (src/branch/OsiChooseStrongCustom.cpp:176-224, :448-452). -/
def CWorld.step (d : ρ) (w : CWorld σ π ρ) : COp σ π ρ → Res (CWorld σ π ρ)
  | .make i b p => w.create i (Chooser.fresh b p)
  | .copy i j => match w.objs j with
    | none => .undef
    | some c => w.create i c.copy
  | .assign i j => match w.objs j with
    | none => .undef
    | some s => w.upd i (fun c => c.assign w.heap (i = j) s)
  | .learn i s => w.upd i (fun c => .ok (w.heap, { c with own := s }))
  | .reset i n => w.upd i (fun c => c.reset d w.heap n)
  | .store i k r b => w.upd i (fun c => c.store w.heap k r b)
  | .read i k => w.upd i (fun c => (c.read w.heap k).bind fun _ => .ok (w.heap, c))
  | .destroy i => match w.objs i with
    | none => .undef
    | some c => (w.heap.delete c.results).bind fun h => .ok ⟨h, Function.update w.objs i none⟩

/-- A program. -/
def CWorld.run (d : ρ) : CWorld σ π ρ → List (COp σ π ρ) → Res (CWorld σ π ρ)
  | w, [] => .ok w
  | w, o :: os => (w.step d o).bind fun w => CWorld.run d w os

/-! ## Point-ray LPs -/

/-- The members of `PRLP` (include/PRLP.hpp:30-50): `lp` is the base class `OsiClpSolverInterface`; pointers are
numbers. -/
structure PrlpObj (L : Type) where
  lp : L
  owner : Option ℕ := none
  disj : Option ℕ := none
  disjID : ℤ := -1
  data : Option ℕ := none
  nonZeroCol : List ℕ := []
  ortho : List ℚ := []
  numPoints : ℕ := 0
  numRays : ℕ := 0
  density : ℚ := 0
  numObj : ℕ := 0
  numCuts : ℕ := 0
  numFailures : ℕ := 0
deriving DecidableEq, Repr

variable {L : Type}

/-- The constructors (src/cut/PRLP.cpp:23-35, :457-470); `none` is an LP without rows and columns. -/
def PrlpObj.fresh (empty : L) (owner disj : Option ℕ) (id : ℤ) (data : Option ℕ) : PrlpObj L :=
  { lp := empty, owner := owner, disj := disj, disjID := id, data := data }

/-- `initialize(source)` (src/cut/PRLP.cpp:442-456): everything but the base class. -/
def PrlpObj.initialize (p src : PrlpObj L) : PrlpObj L :=
  { p with owner := src.owner, disj := src.disj, disjID := src.disjID, data := src.data, nonZeroCol := src.nonZeroCol
           ortho := src.ortho, numPoints := src.numPoints, numRays := src.numRays, density := src.density
           numObj := src.numObj, numCuts := src.numCuts, numFailures := src.numFailures }

/-- The copy constructor and `clone` (src/cut/PRLP.cpp:37-40, :54-57): the base class is constructed without
argument, its LP is empty. -/
def PrlpObj.copy (empty : L) (src : PrlpObj L) : PrlpObj L := (PrlpObj.fresh empty none none (-1) none).initialize src

/-- `operator=` (src/cut/PRLP.cpp:46-52): the base class is not assigned. -/
def PrlpObj.assign (self : Bool) (dst src : PrlpObj L) : PrlpObj L := if self then dst else dst.initialize src

end VPC
