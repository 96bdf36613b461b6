import Verif.Model.Disj
import Mathlib.Logic.Function.Basic

/-!
# Copying, assigning and destroying disjunctions and sets of disjunctions
(src/disjunction/Disjunction.cpp, VPCDisjunction.cpp, PartialBBDisjunction.cpp, SplitDisjunction.cpp)

A term owns a warm-start basis on the heap, a set of disjunctions owns its members on the heap; all other
members are plain values. Reading or deleting an object that is not allocated is `.undef`.

Simplifications: the three arrays of changed bounds are one list; `std::vector::operator=` assigns the
common prefix, constructs or destroys the rest (when there is not enough capacity it constructs all and
destroys all, with the same effect).
-/
namespace VPC

/-- Bases on the heap: contents and the next free address. -/
structure BMem (β : Type) where
  mem : ℕ → Option β
  next : ℕ

variable {β π : Type}

/-- `solver->getWarmStart()` gives a new object (src/disjunction/SplitDisjunction.cpp:305,
src/branch/VPCEventHandler.cpp:1138). -/
def BMem.new (h : BMem β) (b : β) : BMem β := ⟨Function.update h.mem h.next (some b), h.next + 1⟩

/-- `if (basis) { delete basis; basis = NULL; }` (src/disjunction/Disjunction.cpp:54-57, :81-84). -/
def BMem.delete (h : BMem β) : Option ℕ → Res (BMem β)
  | none => .ok h
  | some a =>
    match h.mem a with
    | none => .undef
    | some _ => .ok { h with mem := Function.update h.mem a none }

/-- `if (source->basis) basis = source->basis->clone();` (src/disjunction/Disjunction.cpp:58-60). -/
def BMem.clone (h : BMem β) : Option ℕ → Res (BMem β × Option ℕ)
  | none => .ok (h, none)
  | some a =>
    match h.mem a with
    | none => .undef
    | some b => .ok (h.new b, some h.next)

/-- `DisjunctiveTerm` in memory (include/common/Disjunction.hpp:35-45). -/
structure TermM where
  data : Term
  basis : Option ℕ
deriving DecidableEq, Repr

/-- A term before its constructor runs `initialize` (include/common/Disjunction.hpp:43: the pointer has a
default initializer), and a default-constructed one (src/disjunction/Disjunction.cpp:64-73). -/
def TermM.blank : TermM := ⟨{}, none⟩

/-- `DisjunctiveTerm::initialize(source)` (src/disjunction/Disjunction.cpp:46-62), used by copy
construction (on `blank`) and by assignment. -/
def TermM.init (h : BMem β) (t src : TermM) : Res (BMem β × TermM) :=
  (h.delete t.basis).bind fun h1 =>
  (h1.clone src.basis).bind fun r =>
  .ok (r.1, { data := { obj := src.data.obj, changes := src.data.changes
                        feasible := src.data.feasible, ineqs := src.data.ineqs }
              basis := r.2 })

/-- `DisjunctiveTerm::clear` (src/disjunction/Disjunction.cpp:79-86), also the destructor (:25-27). -/
def TermM.clear (h : BMem β) (t : TermM) : Res (BMem β × TermM) :=
  (h.delete t.basis).bind fun h1 => .ok (h1, { t with basis := none })

/-- `for (auto& term : terms) term.clear();` (src/disjunction/Disjunction.cpp:102-104, :131-132, :385-386),
and the destruction of the elements of a vector. -/
def clearTerms (h : BMem β) : List TermM → Res (BMem β × List TermM)
  | [] => .ok (h, [])
  | t :: ts =>
    (t.clear h).bind fun r => (clearTerms r.1 ts).bind fun q => .ok (q.1, r.2 :: q.2)

/-- `terms = source->terms` for two different vectors (src/disjunction/Disjunction.cpp:387). -/
def assignTerms (h : BMem β) : List TermM → List TermM → Res (BMem β × List TermM)
  | ts, [] => (clearTerms h ts).bind fun r => .ok (r.1, [])
  | [], s :: ss =>
    (TermM.blank.init h s).bind fun r => (assignTerms r.1 [] ss).bind fun q => .ok (q.1, r.2 :: q.2)
  | t :: ts, s :: ss =>
    (t.init h s).bind fun r => (assignTerms r.1 ts ss).bind fun q => .ok (q.1, r.2 :: q.2)

/-- The elements of a vector that is moved to a larger block: all copied, then the old ones destroyed
(`DisjunctiveTerm` has no move constructor, include/common/Disjunction.hpp:46-66). -/
def relocate (h : BMem β) (grow : Bool) (ts : List TermM) : Res (BMem β × List TermM) :=
  if grow then
    (assignTerms h [] ts).bind fun r => (clearTerms r.1 ts).bind fun q => .ok (q.1, r.2)
  else .ok (h, ts)

/-- A local `DisjunctiveTerm term` with or without a basis (src/disjunction/SplitDisjunction.cpp:304-310,
src/branch/VPCEventHandler.cpp:1134-1155). -/
def localTerm (h : BMem β) (d : Term) : Option β → BMem β × TermM
  | none => (h, ⟨d, none⟩)
  | some b => (h.new b, ⟨d, some h.next⟩)

/-- `terms.push_back(term)` and the end of the scope of `term`
(src/disjunction/SplitDisjunction.cpp:311-313, src/branch/VPCEventHandler.cpp:1156-1157). -/
def pushTerm (h : BMem β) (grow : Bool) (d : Term) (b : Option β) (ts : List TermM) :
    Res (BMem β × List TermM) :=
  (relocate (localTerm h d b).1 grow ts).bind fun r =>
  (TermM.blank.init r.1 (localTerm h d b).2).bind fun c =>
  ((localTerm h d b).2.clear c.1).bind fun e => .ok (e.1, r.2 ++ [c.2])

/-- `RootTerm` (include/PartialBBDisjunction.hpp:39-62). -/
structure RootT where
  var : ℤ := -1
  val : ℚ := 0
  boundD : ℚ := dblMax
  boundU : ℚ := dblMax
deriving DecidableEq, Repr

/-- `PartialBBDisjunctionData` (include/PartialBBDisjunction.hpp:73-93). -/
structure TreeData where
  nodesOnTree : ℤ := 0
  nodes : ℤ := 0
  pruned : ℤ := 0
  minDepth : ℤ := 2 ^ 31 - 1
  maxDepth : ℤ := 0
  fixedVars : ℤ := 0
deriving DecidableEq, Repr

/-- The members of the derived classes: `PartialBBDisjunction` (include/PartialBBDisjunction.hpp:69-93)
and `SplitDisjunction` (include/SplitDisjunction.hpp:13). -/
inductive Extra where
  | tree (root : RootT) (data : TreeData)
  | split (var : ℤ)
deriving DecidableEq, Repr

/-- Is it a tree-based disjunction? -/
def Extra.isTree : Extra → Bool
  | .tree _ _ => true
  | .split _ => false

/-- A disjunction in memory. `head` are the plain members of `Disjunction` (its list of terms is not used
here); `rounds` is `num_rounds`, `none` for an indeterminate value. -/
structure DisjM (π : Type) where
  head : Disj
  name : List Char
  params : π
  timer : Option ℕ
  extra : Extra
  rounds : Option ℤ
  terms : List TermM
deriving DecidableEq, Repr

/-- Members of a tree-based disjunction or a split that do not come from a source
(src/disjunction/PartialBBDisjunction.cpp:297-300, src/disjunction/SplitDisjunction.cpp:178-180). -/
def Extra.fresh (tree : Bool) : Extra := if tree then .tree {} {} else .split (-1)

/-- Constructors without source (src/disjunction/Disjunction.cpp:116-134 with
src/disjunction/VPCDisjunction.cpp:55-69 and the derived classes): `num_rounds` is never initialized. -/
def DisjM.fresh (tree : Bool) (p : π) : DisjM π :=
  { head := Disj.new, name := [], params := p, timer := none, extra := Extra.fresh tree, rounds := none
    terms := [] }

/-- The plain members copied by `Disjunction::initialize` (src/disjunction/Disjunction.cpp:371-383). -/
def copyHead (src : Disj) : Disj :=
  { id := src.id, bestObj := src.bestObj, worstObj := src.worstObj, intObj := src.intObj
    intSol := src.intSol, common := src.common, rootObj := src.rootObj, commonIneqs := src.commonIneqs
    numTerms := src.numTerms, terms := [] }

/-- The members copied by the derived classes (src/disjunction/PartialBBDisjunction.cpp:293-296,
src/disjunction/SplitDisjunction.cpp:176-177). -/
def copyExtra : Extra → Extra
  | .tree r d => .tree r d
  | .split v => .split v

/-- `initialize(&source, params)` (src/disjunction/Disjunction.cpp:369-387,
src/disjunction/VPCDisjunction.cpp:55-69 and the derived classes). The number of rounds is not copied. -/
def DisjM.init (h : BMem β) (d src : DisjM π) (p : Option π) : Res (BMem β × DisjM π) :=
  (clearTerms h d.terms).bind fun r =>
  (assignTerms r.1 r.2 src.terms).bind fun q =>
  .ok (q.1, { head := copyHead src.head, name := src.name
              params := match p with | some p => p | none => src.params
              timer := src.timer, extra := copyExtra src.extra, rounds := d.rounds, terms := q.2 })

/-- Copy construction and `clone` (src/disjunction/PartialBBDisjunction.cpp:50-75,
src/disjunction/SplitDisjunction.cpp:30-60). -/
def DisjM.copy (h : BMem β) (src : DisjM π) (p : Option π) : Res (BMem β × DisjM π) :=
  (DisjM.fresh src.extra.isTree src.params).init h src p

/-- Destructor: `clear` for every term (src/disjunction/Disjunction.cpp:101-105), then the vector destroys
its elements. -/
def DisjM.destroy (h : BMem β) (d : DisjM π) : Res (BMem β) :=
  (clearTerms h d.terms).bind fun r => (clearTerms r.1 r.2).bind fun q => .ok q.1

/-- What `setupAsNew` does to the members of the derived classes
(src/disjunction/PartialBBDisjunction.cpp:77-90, src/disjunction/SplitDisjunction.cpp:62-69). -/
def Extra.reset : Extra → Extra
  | .tree _ _ => .tree {} {}
  | .split v => .split v

/-- `setupAsNew` (src/disjunction/Disjunction.cpp:116-134 and the derived classes). -/
def DisjM.reset (h : BMem β) (d : DisjM π) : Res (BMem β × DisjM π) :=
  (clearTerms h d.terms).bind fun r => (clearTerms r.1 r.2).bind fun q =>
  .ok (q.1, { d with head := Disj.new, name := [], extra := d.extra.reset, terms := [] })

/-- `addTerm` (src/disjunction/SplitDisjunction.cpp:301-313, src/branch/VPCEventHandler.cpp:1112-1160). -/
def DisjM.addTerm (h : BMem β) (grow : Bool) (t : Term) (b : Option β) (d : DisjM π) :
    Res (BMem β × DisjM π) :=
  (pushTerm h grow t b d.terms).bind fun r =>
  .ok (r.1, { d with terms := r.2, head := { d.head with numTerms := d.head.numTerms + 1 } })

/-- A `DisjunctionSet` in memory (include/common/Disjunction.hpp:165-176): pointers to the members and the
plain values (`sums`, whose list is not used). -/
structure SetM where
  members : List ℕ
  sums : DSet
deriving DecidableEq, Repr

/-- A program state: the bases; the disjunctions, those of the user by slot (`inl`) and those of sets by
address (`inr`); the next free address; the sets by slot. -/
structure OWorld (β π : Type) where
  bases : BMem β
  obj : ℕ ⊕ ℕ → Option (DisjM π)
  dnext : ℕ
  sets : ℕ → Option SetM

/-- Nothing allocated. -/
def OWorld.init : OWorld β π := ⟨⟨fun _ => none, 0⟩, fun _ => none, 0, fun _ => none⟩

/-- What a program can do with disjunctions and sets of them. `write` and `writeExtra` stand for
assignments to public members. -/
inductive OOp (β π : Type) where
  | new (i : ℕ) (tree : Bool) (p : π)
  | copy (i j : ℕ) (p : Option π)
  | assign (i j : ℕ)
  | addTerm (i : ℕ) (t : Term) (b : Option β) (grow : Bool)
  | write (i : ℕ) (head : Disj) (name : List Char) (p : π) (timer : Option ℕ)
  | writeExtra (i : ℕ) (e : Extra)
  | writeRounds (i : ℕ) (n : ℤ)
  | reset (i : ℕ)
  | destroy (i : ℕ)
  | newSet (k : ℕ)
  | copySet (k l : ℕ)
  | assignSet (k l : ℕ)
  | add (k i : ℕ)
  | resetSet (k : ℕ)
  | destroySet (k : ℕ)

/-- Store an object. -/
def OWorld.put (w : OWorld β π) (key : ℕ ⊕ ℕ) (r : BMem β × DisjM π) : OWorld β π :=
  { w with bases := r.1, obj := Function.update w.obj key (some r.2) }

/-- `disj->clone()` for a member of a set: the copy gets a new address
(include/common/Disjunction.hpp:199, src/disjunction/Disjunction.cpp:482-484). -/
def OWorld.cloneTo (w : OWorld β π) (src : DisjM π) : Res (OWorld β π) :=
  (src.copy w.bases none).bind fun r => .ok { w.put (.inr w.dnext) r with dnext := w.dnext + 1 }

/-- The loop of `DisjunctionSet::initialize(&source)` (src/disjunction/Disjunction.cpp:481-484). -/
def OWorld.cloneMembers (w : OWorld β π) : List ℕ → Res (OWorld β π × List ℕ)
  | [] => .ok (w, [])
  | p :: ps =>
    match w.obj (.inr p) with
    | none => .undef
    | some d => (w.cloneTo d).bind fun w1 => (w1.cloneMembers ps).bind fun q => .ok (q.1, w.dnext :: q.2)

/-- `delete` of all members (src/disjunction/Disjunction.cpp:405-409). -/
def OWorld.deleteMembers (w : OWorld β π) : List ℕ → Res (OWorld β π)
  | [] => .ok w
  | p :: ps =>
    match w.obj (.inr p) with
    | none => .undef
    | some d => (d.destroy w.bases).bind fun h =>
      ({ w with bases := h, obj := Function.update w.obj (.inr p) none }).deleteMembers ps

/-- The plain values copied by `DisjunctionSet::initialize` (src/disjunction/Disjunction.cpp:485-491). -/
def copySums (s : DSet) : DSet :=
  { bestObj := s.bestObj, bestIdx := s.bestIdx, worstObj := s.worstObj, worstIdx := s.worstIdx
    intObj := s.intObj, intIdx := s.intIdx, intSol := s.intSol, disjs := [] }

/-- `addDisjunction` after the clone (include/common/Disjunction.hpp:200-201): identifier and best values. -/
def OWorld.addMember (w : OWorld β π) (k p : ℕ) (s : SetM) : Res (OWorld β π) :=
  match w.obj (.inr p) with
  | none => .undef
  | some d =>
    (s.sums.updateObj { d.head with id := s.members.length } (-1)).bind fun sums =>
    .ok { w with obj := Function.update w.obj (.inr p)
                   (some { d with head := { d.head with id := s.members.length } })
                 sets := Function.update w.sets k (some ⟨s.members ++ [p], sums⟩) }

/-- Construction into a free slot. -/
def OWorld.create (w : OWorld β π) (i : ℕ) (r : Res (BMem β × DisjM π)) : Res (OWorld β π) :=
  if (w.obj (.inl i)).isSome then .undef else r.bind fun r => .ok (w.put (.inl i) r)

/-- An operation on an existing disjunction. -/
def OWorld.upd (w : OWorld β π) (i : ℕ) (f : DisjM π → Res (BMem β × DisjM π)) : Res (OWorld β π) :=
  match w.obj (.inl i) with
  | none => .undef
  | some d => (f d).bind fun r => .ok (w.put (.inl i) r)

/-- An operation on an existing set. -/
def OWorld.onSet (w : OWorld β π) (k : ℕ) (f : SetM → Res (OWorld β π)) : Res (OWorld β π) :=
  match w.sets k with
  | none => .undef
  | some s => f s

/-- Store a set. -/
def OWorld.putSet (w : OWorld β π) (k : ℕ) (s : SetM) : OWorld β π :=
  { w with sets := Function.update w.sets k (some s) }

/-- One operation (src/disjunction/Disjunction.cpp:88-134, :366-433, :478-495;
include/common/Disjunction.hpp:198-202; the derived classes). A program error of the caller (an object that
does not exist, a slot in use, assignment between different classes) is `.undef`. -/
def OWorld.step (w : OWorld β π) : OOp β π → Res (OWorld β π)
  | .new i tree p => w.create i (.ok (w.bases, DisjM.fresh tree p))
  | .copy i j p =>
    match w.obj (.inl j) with
    | none => .undef
    | some src => w.create i (src.copy w.bases p)
  | .assign i j =>
    match w.obj (.inl j) with
    | none => .undef
    | some src => w.upd i fun d =>
      if i = j then .ok (w.bases, d)
      else if d.extra.isTree = src.extra.isTree then d.init w.bases src none else .undef
  | .addTerm i t b grow => w.upd i fun d => d.addTerm w.bases grow t b
  | .write i head name p timer => w.upd i fun d =>
      .ok (w.bases, { d with head := { head with terms := [] }, name := name, params := p, timer := timer })
  | .writeExtra i e => w.upd i fun d =>
      if d.extra.isTree = e.isTree then .ok (w.bases, { d with extra := e }) else .undef
  | .writeRounds i n => w.upd i fun d => .ok (w.bases, { d with rounds := some n })
  | .reset i => w.upd i fun d => d.reset w.bases
  | .destroy i =>
    match w.obj (.inl i) with
    | none => .undef
    | some d => (d.destroy w.bases).bind fun h =>
      .ok { w with bases := h, obj := Function.update w.obj (.inl i) none }
  | .newSet k => if (w.sets k).isSome then .undef else .ok (w.putSet k ⟨[], DSet.new⟩)
  | .copySet k l => w.onSet l fun s =>
      if (w.sets k).isSome then .undef
      else (w.cloneMembers s.members).bind fun q => .ok (q.1.putSet k ⟨q.2, copySums s.sums⟩)
  | .assignSet k l => w.onSet l fun s => w.onSet k fun _ =>
      if k = l then .ok w
      else (w.cloneMembers s.members).bind fun q => .ok (q.1.putSet k ⟨q.2, copySums s.sums⟩)
  | .add k i => w.onSet k fun s =>
      match w.obj (.inl i) with
      | none => .undef
      | some src => (w.cloneTo src).bind fun w1 => w1.addMember k w.dnext s
  | .resetSet k => w.onSet k fun _ => .ok (w.putSet k ⟨[], DSet.new⟩)
  | .destroySet k => w.onSet k fun s =>
      (w.deleteMembers s.members).bind fun w1 => .ok { w1 with sets := Function.update w1.sets k none }

/-- A program. -/
def OWorld.run (w : OWorld β π) : List (OOp β π) → Res (OWorld β π)
  | [] => .ok w
  | op :: ops => (w.step op).bind fun w => w.run ops

/-- The file name used for the tree of a round (src/disjunction/PartialBBDisjunction.cpp:218): an
indeterminate number is undefined behaviour. -/
def treeFileRound (d : DisjM π) : Res ℤ :=
  match d.rounds with
  | none => .undef
  | some n => .ok n

end VPC
