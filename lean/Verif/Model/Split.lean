import Verif.Model.Disj
import Mathlib.Data.Rat.Floor

/-!
# Split disjunctions (src/disjunction/SplitDisjunction.cpp)

The LP solver's answers are parameters.  `std::sort` is a parameter too: any function returning a
sorted permutation.
-/
namespace VPC

/-- Outcome of solving one side of a split from the hot start. -/
inductive Side
  | optimal (obj : ℚ)
  | infeasible
  | other
deriving DecidableEq, Repr

/-- What the solver says about a column when it is checked: its value, whether it is an integer
variable and the outcomes of the two sides. -/
structure VarAns where
  val : ℚ
  isInt : Bool
  down : Side
  up : Side
deriving DecidableEq, Repr

/-- `SplitDisjunction`: a disjunction and the chosen variable (−1: none). -/
structure Split where
  d : Disj := {}
  var : ℤ := -1
deriving DecidableEq, Repr

/-- `addTerm` (src/disjunction/SplitDisjunction.cpp:301-313). The basis is not modelled. -/
def addTerm (d : Disj) (var : ℕ) (way : ℤ) (value obj : ℚ) : Disj :=
  { d with
    terms := d.terms ++ [{ obj := obj, changes := [⟨var, way, value⟩], feasible := true }]
    numTerms := d.numTerms + 1 }

/-- `terms.resize(n)`: truncates, or appends default terms; a negative argument becomes a huge
unsigned number, for which `resize` throws (`.exit`). -/
def resizeTerms (ts : List Term) (n : ℤ) : Res (List Term) :=
  if n < 0 then .exit else .ok (ts.take n.toNat ++ List.replicate (n.toNat - ts.length) ({ } : Term))

/-- `SplitDisjunction::checkVar` (src/disjunction/SplitDisjunction.cpp:188-279). -/
def checkVar (AWAY : ℚ) (a : VarAns) (col : ℕ) (s : Split) : Res (Bool × Split) :=
  let floorxk : ℚ := (⌊a.val⌋ : ℤ)
  let ceilxk : ℚ := (⌈a.val⌉ : ℤ)
  if !a.isInt then .exit
  else if isVal a.val floorxk AWAY || isVal a.val ceilxk AWAY then .exit
  else
    (match a.down with
      | .optimal o => Res.ok (true, addTerm s.d col 1 floorxk o)
      | .infeasible => .ok (false, s.d)
      | .other => .exit).bind fun r1 =>
    (match a.up with
      | .optimal o => Res.ok (true, addTerm r1.2 col 0 ceilxk o)
      | .infeasible => .ok (false, r1.2)
      | .other => .exit).bind fun r2 =>
    let d := r2.2
    if !r1.1 || !r2.1 then
      if !r1.1 && !r2.1 then .exit
      else
        (resizeTerms d.terms (d.numTerms - 1)).bind fun ts =>
        let ch : BChange := if !r1.1 then ⟨col, 0, ceilxk⟩ else ⟨col, 1, floorxk⟩
        .ok (false, { s with d := { d with terms := ts, numTerms := d.numTerms - 1,
                                           common := d.common ++ [ch] } })
    else .ok (true, { d := d, var := col })

/-- `CoinMin(val - floorxk, ceilxk - val)` (src/disjunction/SplitDisjunction.cpp:122-125). -/
def fractionality (v : ℚ) : ℚ := min (v - (⌊v⌋ : ℤ)) ((⌈v⌉ : ℤ) - v)

/-- The loop collecting the fractional core (src/disjunction/SplitDisjunction.cpp:117-130); `cols` lists
integrality and value of every column. -/
def fracCore (AWAY : ℚ) (cols : List (Bool × ℚ)) : List (ℕ × ℚ) :=
  (cols.zipIdx.filter fun c => c.1.1 && !(isVal (fractionality c.1.2) 0 AWAY)).map
    fun c => (c.2, fractionality c.1.2)

/-- The loop over the sorted candidates (src/disjunction/SplitDisjunction.cpp:148-157). `ask k col` is
the solver's answer in the `k`-th check. -/
def tryVars (AWAY : ℚ) (ask : ℕ → ℕ → VarAns) : ℕ → List ℕ → Split → Res (Bool × Split)
  | _, [], s => .ok (false, s)
  | k, col :: cols, s =>
    (checkVar AWAY (ask k col) col s).bind fun r =>
    if r.1 then .ok (true, r.2) else tryVars AWAY ask (k + 1) cols r.2

/-- `SplitDisjunction::prepareDisjunction` (src/disjunction/SplitDisjunction.cpp:74-170), without the
name. `sort` is `std::sort` by decreasing fractionality. -/
def splitPrepare (AWAY : ℚ) (cols : List (Bool × ℚ)) (sort : List (ℕ × ℚ) → List (ℕ × ℚ))
    (ask : ℕ → ℕ → VarAns) (s : Split) : Res (DisjExit × Split) :=
  if 0 ≤ s.var then
    (checkVar AWAY (ask 0 s.var.toNat) s.var.toNat s).bind fun r =>
    .ok (if r.1 then .SUCCESS else .NO_DISJUNCTION, r.2)
  else
    let core := fracCore AWAY cols
    if core.length = 0 then .ok (.NO_DISJUNCTION, s)
    else (tryVars AWAY ask 0 ((sort core).map Prod.fst) s).bind fun r =>
      .ok (if r.1 then .SUCCESS else .UNKNOWN, r.2)

/-- `SplitDisjunction::setupAsNew` (src/disjunction/SplitDisjunction.cpp:67-69): everything but the
chosen variable is reset. -/
def Split.setupAsNew (s : Split) : Split := { s with d := Disj.new }

/-! ## generateSplitDisjunctions -/

/-- `CoinMin(downBound, upBound)` of a variable with both sides feasible, `none` when exactly one
side is infeasible; process exits otherwise (src/disjunction/SplitDisjunction.cpp:366-453). -/
def splitScore (AWAY : ℚ) (a : VarAns) : Res (Option ℚ) :=
  let floorxk : ℚ := (⌊a.val⌋ : ℤ)
  let ceilxk : ℚ := (⌈a.val⌉ : ℤ)
  if !a.isInt then .exit
  else if isVal a.val floorxk AWAY || isVal a.val ceilxk AWAY then .exit
  else match a.down, a.up with
    | .other, _ => .exit
    | _, .other => .exit
    | .infeasible, .infeasible => .exit
    | .optimal d, .optimal u => .ok (some (min d u))
    | _, _ => .ok none

/-- The loop over the fractional core (src/disjunction/SplitDisjunction.cpp:365-454): selected variables
with their scores. The bounds discovered for one-sided variables go into local vectors that are
never read, so they are not part of the result. -/
def scoreVars (AWAY : ℚ) (ask : ℕ → VarAns) : List ℕ → Res (List (ℕ × ℚ))
  | [] => .ok []
  | v :: vs => (splitScore AWAY (ask v)).bind fun sc =>
      (scoreVars AWAY ask vs).bind fun rest =>
      .ok (match sc with | some q => (v, q) :: rest | none => rest)

/-- Lines 470-481 of src/disjunction/SplitDisjunction.cpp; `prep` is what preparing the new disjunction
(with its variable set) leaves, `.ok s` itself when it is not to be prepared. -/
def addSplits (limit : ℤ) (prep : Split → Res Split) : List ℕ → ℤ → List Split → Res (List Split)
  | [], _, acc => .ok acc
  | v :: vs, n, acc =>
    if n ≥ limit then .ok acc
    else (prep { var := v }).bind fun s =>
      addSplits limit prep vs (n + 1) (acc ++ [{ s with d := { s.d with id := (acc.length : ℤ) } }])

/-- `generateSplitDisjunctions` (src/disjunction/SplitDisjunction.cpp:316-489) on an empty set: the
members of the set afterwards. The return value is their number. `core` is
`getFractionalIndices(AWAY)` (Osi). -/
def generateSplits (AWAY : ℚ) (limit : ℤ) (core : List ℕ) (ask : ℕ → VarAns)
    (sort : List (ℕ × ℚ) → List (ℕ × ℚ)) (prep : Split → Res Split) : Res (List Split) :=
  if core.length = 0 then .ok []
  else (scoreVars AWAY ask core).bind fun sel =>
    addSplits limit prep ((sort sel).map Prod.fst) 0 []

end VPC
