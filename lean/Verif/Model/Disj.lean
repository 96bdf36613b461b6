import Verif.Model.Sparse
import Verif.Model.SolverOps
import Verif.Model.GenCut

/-!
# Disjunctions, their term LPs and sets of disjunctions (src/disjunction/Disjunction.cpp,
include/common/Disjunction.hpp)

The LP solver is external: a solver is represented by the constraints it holds; whether the LP is
optimal and with which value are parameters.
-/
namespace VPC

/-- A row `lb ≤ coeffs · x ≤ ub`; `none` is an infinite side. -/
structure MRow where
  coeffs : SVec
  lb : Option ℚ
  ub : Option ℚ
deriving DecidableEq, Repr

/-- Constraints held by an `OsiSolverInterface`: column bounds (`none` = infinite) and rows. -/
structure Relax where
  lo : List (Option ℚ)
  hi : List (Option ℚ)
  rows : List MRow
deriving DecidableEq, Repr

/-- `x` is at least a possibly infinite lower bound. -/
def geLo (b : Option ℚ) (v : ℚ) : Prop := ∀ l, b = some l → l ≤ v

/-- `x` is at most a possibly infinite upper bound. -/
def leHi (b : Option ℚ) (v : ℚ) : Prop := ∀ u, b = some u → v ≤ u

/-- Points of the LP. -/
def Relax.Feas (P : Relax) (x : Vec) : Prop :=
  (∀ i b, P.lo[i]? = some b → geLo b (x i)) ∧ (∀ i b, P.hi[i]? = some b → leHi b (x i)) ∧
  ∀ r ∈ P.rows, geLo r.lb (sdot r.coeffs x) ∧ leHi r.ub (sdot r.coeffs x)

/-- One entry of `changed_var`, `changed_bound`, `changed_value`
(include/common/Disjunction.hpp:38-40). -/
structure BChange where
  var : ℕ
  bound : ℤ
  value : ℚ
deriving DecidableEq, Repr

/-- The inequality a bound change stands for (include/common/Disjunction.hpp:39: `<= 0` is the lower
bound, 1 the upper bound). -/
def BChange.Sat (c : BChange) (x : Vec) : Prop :=
  if c.bound ≤ 0 then c.value ≤ x c.var else x c.var ≤ c.value

/-- `DisjunctiveTerm` (include/common/Disjunction.hpp:35-45); the stored basis is only a warm
start and is represented by whether the solver accepts it (see `TermEnv`). -/
structure Term where
  obj : ℚ := dblMax
  changes : List BChange := []
  ineqs : List RowCut := []
  feasible : Bool := false
deriving DecidableEq, Repr

/-- `Disjunction` (include/common/Disjunction.hpp:75-98). `num_terms` is a separate counter. -/
structure Disj where
  numTerms : ℤ := 0
  terms : List Term := []
  id : ℤ := -1
  bestObj : ℚ := dblMax
  worstObj : ℚ := -dblMax
  intObj : ℚ := dblMax
  intSol : List ℚ := []
  common : List BChange := []
  rootObj : ℚ := dblMax
  commonIneqs : List RowCut := []
deriving DecidableEq, Repr

/-- `Disjunction::setupAsNew` (src/disjunction/Disjunction.cpp:116-134). -/
def Disj.new : Disj := {}

/-- One bound change applied to a solver, either as a bound or as an extra row
(src/disjunction/Disjunction.cpp:155-166 and :170-181). Setting a bound *overwrites* it. An index
outside the columns is undefined behaviour. -/
def applyChange (asBounds : Bool) (P : Relax) (c : BChange) : Res Relax :=
  if c.var < P.lo.length ∧ c.var < P.hi.length then
    if asBounds then
      if c.bound ≤ 0 then .ok { P with lo := P.lo.set c.var (some c.value) }
      else .ok { P with hi := P.hi.set c.var (some c.value) }
    else
      let coeff : ℚ := if c.bound ≤ 0 then 1 else -1
      .ok { P with rows := P.rows ++ [⟨[(c.var, coeff)], some (coeff * c.value), none⟩] }
  else .undef

/-- The loops over bound changes (src/disjunction/Disjunction.cpp:154-167, 169-182). -/
def applyChanges (asBounds : Bool) : List BChange → Relax → Res Relax
  | [], P => .ok P
  | c :: cs, P => (applyChange asBounds P c).bind (applyChanges asBounds cs)

/-- `applyRowCuts(1, currCut)` for every inequality of the term
(src/disjunction/Disjunction.cpp:184-188). -/
def applyIneqs (cs : List RowCut) (P : Relax) : Relax :=
  { P with rows := P.rows ++ cs.map fun c => ⟨c.row, some c.lb, none⟩ }

/-- Answers of the solver while a term is solved: is the warm start accepted (`true` when there is
none), is the LP proven optimal, the objective values after the first and second solve. -/
structure TermEnv where
  warmOk : Bool
  optimal : Bool
  obj1 : ℚ
  obj2 : ℚ

/-- Lines 219-224 of src/disjunction/Disjunction.cpp, with IEEE division by (signed) zero made
explicit: is the objective too far off? -/
def ratioTooBig (now before : ℚ) : Bool :=
  if before = 0 then 0 < now
  else if now = 0 then 0 < before
  else
    let r := now / before
    let r := if r < 1 then 1 / r else r
    greaterThanVal r (103 / 100)

/-- Lines 213-236 of src/disjunction/Disjunction.cpp: does the check of the objective value
terminate the process? -/
def objCheckExits (DIFFEPS : ℚ) (before obj1 obj2 : ℚ) : Bool :=
  if isInfinity before then false
  else if isVal obj1 before DIFFEPS then false
  else if isVal obj2 before DIFFEPS then false
  else ratioTooBig obj2 before

/-- `Disjunction::getSolverForTerm` (src/disjunction/Disjunction.cpp:138-258): `.ok none` is the
null solver. -/
def getSolverForTerm (D : Disj) (i : ℕ) (P : Relax) (asBounds : Bool) (DIFFEPS : ℚ) (env : TermEnv) :
    Res (Option Relax) :=
  match D.terms[i]? with
  | none => .undef
  | some t =>
    (applyChanges asBounds D.common P).bind fun P1 =>
    (applyChanges asBounds t.changes P1).bind fun P2 =>
    let P3 := applyIneqs t.ineqs P2
    if !env.warmOk then .exit
    else if !env.optimal then .ok none
    else if objCheckExits DIFFEPS t.obj env.obj1 env.obj2 then .exit
    else .ok (some P3)

/-- `Disjunction::updateObjValue` (src/disjunction/Disjunction.cpp:358-365). -/
def Disj.updateObj (d : Disj) (v : ℚ) : Disj :=
  let d := if v < d.bestObj then { d with bestObj := v } else d
  if v > d.worstObj then { d with worstObj := v } else d

/-! ## DisjunctionSet -/

/-- `DisjunctionSet` (include/common/Disjunction.hpp:165-176). -/
structure DSet where
  disjs : List Disj := []
  bestObj : ℚ := dblMax
  bestIdx : ℤ := -1
  worstObj : ℚ := -dblMax
  worstIdx : ℤ := -1
  intObj : ℚ := dblMax
  intIdx : ℤ := -1
  intSol : List ℚ := []
deriving DecidableEq, Repr

/-- `DisjunctionSet::setupAsNew` (src/disjunction/Disjunction.cpp:424-433). -/
def DSet.new : DSet := {}

/-- `DisjunctionSet::updateObjValue` (src/disjunction/Disjunction.cpp:460-477). A failed assertion
is `.exit`. -/
def DSet.updateObj (s : DSet) (d : Disj) (ind : ℤ) : Res DSet :=
  if d.id < 0 ∨ ind < 0 ∨ d.id = ind then
    let use := if ind ≥ 0 then ind else d.id
    let s := if d.bestObj < s.bestObj then { s with bestObj := d.bestObj, bestIdx := use } else s
    let s := if d.worstObj > s.worstObj then { s with worstObj := d.worstObj, worstIdx := use } else s
    let s := if d.intObj < s.intObj then
        { s with intObj := d.intObj, intIdx := use
                 intSol := if d.intSol.length > 0 then d.intSol else s.intSol }
      else s
    .ok s
  else .exit

/-- `DisjunctionSet::addDisjunction` (include/common/Disjunction.hpp:198-202). -/
def DSet.add (s : DSet) (d : Disj) : Res DSet :=
  let d := { d with id := (s.disjs.length : ℤ) }
  { s with disjs := s.disjs ++ [d] }.updateObj d (-1)

/-- A sequence of additions. -/
def DSet.addAll (s : DSet) : List Disj → Res DSet
  | [] => .ok s
  | d :: ds => (s.add d).bind fun s => s.addAll ds

/-- `getDisjunction(ind)` (include/common/Disjunction.hpp:210-212): there is no test for a negative
index. `.ok none` is NULL. -/
def DSet.get (s : DSet) (ind : ℤ) : Res (Option Disj) :=
  if ind < s.disjs.length then
    if 0 ≤ ind then .ok s.disjs[ind.toNat]? else .undef
  else .ok none

/-- `getDisjunctionById(id)` (include/common/Disjunction.hpp:215-222). -/
def DSet.getById (s : DSet) (id : ℤ) : Option Disj := s.disjs.find? fun d => d.id = id

/-- Loop of `DisjunctionSet::prepareDisjunction` (src/disjunction/Disjunction.cpp:441-449); `prep` is
the (virtual) preparation of a member. `done` are the members already prepared, in order. -/
def DSet.prepLoop (prep : Disj → DisjExit × Disj) : List Disj → List Disj → ℤ → DisjExit → DSet →
    Res (DisjExit × DSet)
  | done, [], _, e, s => .ok (e, { s with disjs := done })
  | done, d :: ds, ind, _, s =>
    if d.id < 0 ∨ d.id = ind then
      let r := prep d
      (s.updateObj r.2 ind).bind fun s =>
      if r.1 = .OPTIMAL_SOLUTION_FOUND then .ok (r.1, { s with disjs := done ++ r.2 :: ds })
      else DSet.prepLoop prep (done ++ [r.2]) ds (ind + 1) r.1 s
    else .exit

/-- `DisjunctionSet::prepareDisjunction` (src/disjunction/Disjunction.cpp:436-452). -/
def DSet.prepare (prep : Disj → DisjExit × Disj) (s : DSet) : Res (DisjExit × DSet) :=
  DSet.prepLoop prep [] s.disjs 0 .UNKNOWN s

end VPC
