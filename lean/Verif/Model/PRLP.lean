import Verif.Model.NBSpace

/-!
# Point-ray collections and the point-ray LP (src/cut/CglVPC.cpp, src/cut/PRLP.cpp)
-/
namespace VPC

/-- One row of `PRLPData` (include/CglVPC.hpp, `PRLPData::addConstraint`):
`constraints[r]`, `rhs[r]`, `objViolation[r]`. -/
structure PRow where
  vec : SVec
  rhs : ℚ
  depth : ℚ
deriving DecidableEq, Repr

/-! ## Building the collection: `setupConstraints` -/

/-- What happens to one term in the loop src/cut/CglVPC.cpp:1087-1218:
* `infeasible`: `!term->is_feasible` on entry (:1089-1091), the term is skipped;
* `notOptimal`: `checkSolverOptimality` fails after `resolve` (:1136, :1196), the term is skipped;
* `timeLimit`: the `T1 TOTAL` timer has reached `TIMELIMIT` (:1208), the term is skipped;
* `collected`: `genDepth1PRCollection` adds the vertex (`point`, `depth`) and the rays. -/
inductive TermOutcome
  | infeasible
  | notOptimal
  | timeLimit
  | collected (point : SVec) (depth : ℚ) (rays : List (SVec × ℚ))
deriving DecidableEq

/-- Rows added for one term: `genDepth1PRCollection`, src/cut/CglVPC.cpp:1295-1437. `flip` is
`PRLP_FLIP_BETA < 0`. Rays without entries are skipped (:1399-1401; `collectRays` has already left them out). The consistency checks can only
abort the process and are omitted. -/
def termRows (flip : Bool) : TermOutcome → List PRow
  | .collected p d rays =>
    ⟨p, if flip then -1 else 1, d⟩ ::
      ((rays.filter fun r => !r.1.isEmpty).map fun r => ⟨r.1, 0, r.2⟩)
  | _ => []

/-- `setupConstraints`, src/cut/CglVPC.cpp:1026-1288: the integer-feasible solution first (with
`beta = 1.0`, whatever `PRLP_FLIP_BETA` says, :1066), then the terms in order. -/
def setupConstraints (flip : Bool) (intPoint : Option (SVec × ℚ)) (terms : List TermOutcome) :
    List PRow :=
  (match intPoint with
    | some p => [⟨p.1, 1, p.2⟩]
    | none => []) ++ terms.flatMap (termRows flip)

/-! ## `PRLP::setup` -/

/-- State of the first pass of `PRLP::setup`: `colLB`, `colUB`, the rows queued as points and as
rays. -/
structure SetupSt where
  lb : Vec
  ub : Vec
  pts : List PRow
  rays : List PRow

/-- Bound change made for a singleton row `coeff * var >= rhs` (`rhs` already scaled),
src/cut/PRLP.cpp:97-132; `none` = `exit(1)`. -/
def singletonBound (st : SetupSt) (var : ℕ) (coeff rhs : ℚ) : Option SetupSt :=
  if isZero rhs then
    if lessThanVal coeff 0 then
      some (if st.ub var > 0 then { st with ub := fun k => if k = var then 0 else st.ub k } else st)
    else if greaterThanVal coeff 0 then
      some (if st.lb var < 0 then { st with lb := fun k => if k = var then 0 else st.lb k } else st)
    else some st
  else
    if isVal coeff 0 then
      if lessThanVal rhs 0 then none else some st
    else if lessThanVal coeff 0 then
      some (if st.ub var > rhs / coeff then
        { st with ub := fun k => if k = var then rhs / coeff else st.ub k } else st)
    else
      some (if st.lb var < rhs / coeff then
        { st with lb := fun k => if k = var then rhs / coeff else st.lb k } else st)

/-- `vec_rhs`, src/cut/PRLP.cpp:90-92. -/
def scaledRhs (scale : ℚ) (r : PRow) : ℚ := if r.rhs ≠ 0 then r.rhs * scale else r.rhs

/-- One iteration of the first pass, src/cut/PRLP.cpp:88-146; `none` = `exit(1)`. -/
def setupRow (scale : ℚ) (st : SetupSt) (r : PRow) : Option SetupSt :=
  let rhs := scaledRhs scale r
  let st? := match r.vec with
    | [(var, coeff)] => singletonBound st var coeff rhs
    | _ => some st
  st?.map fun st =>
    if r.vec.length > 1 || !(isZero rhs) then
      if !(isZero rhs) then { st with pts := st.pts ++ [r] }
      else { st with rays := st.rays ++ [r] }
    else st

/-- First pass over all rows; `INF` is the parameter `INF` (`DBL_MAX`). -/
def setupPass1 (INF scale : ℚ) (rows : List PRow) : Option SetupSt :=
  rows.foldlM (setupRow scale) { lb := fun _ => -INF, ub := fun _ => INF, pts := [], rays := [] }

/-- "Ensure constants line up", src/cut/PRLP.cpp:197-201. -/
def rhsLineUp (r1 r2 : PRow) : Bool :=
  (greaterThanVal r1.rhs 0 && greaterThanVal r2.rhs 0) || (lessThanVal r1.rhs 0 && lessThanVal r2.rhs 0)

/-- Inner duplicate loop over the previous rows, nearest first: src/cut/PRLP.cpp:185-213 (points)
and :226-250 (rays). Returns the flag for the current row and the (possibly changed) flags of the
previous ones. -/
def dupInner (isPoint : Bool) (EPS : ℚ) (r1 : PRow) : List (PRow × Bool) → Bool × List (PRow × Bool)
  | [] => (false, [])
  | (r2, true) :: t =>
    let r := dupInner isPoint EPS r1 t
    (r.1, (r2, true) :: r.2)
  | (r2, false) :: t =>
    if !(isVal r1.depth r2.depth) then (false, (r2, false) :: t)
    else if isPoint && !(rhsLineUp r1 r2) then
      let r := dupInner isPoint EPS r1 t
      (r.1, (r2, false) :: r.2)
    else
      let d := isRowDifferent r1.vec r1.rhs r2.vec r2.rhs EPS
      if d = -1 then (true, (r2, true) :: t)
      else if d ≠ 2 then (true, (r2, false) :: t)
      else
        let r := dupInner isPoint EPS r1 t
        (r.1, (r2, false) :: r.2)

/-- The extra test src/cut/PRLP.cpp:178-180 (points only): the depth differs from that of the
immediately preceding row (the first row is never examined). -/
def dupSkip (isPoint : Bool) (r : PRow) (acc : List (PRow × Bool)) : Bool :=
  isPoint && (match acc with
    | [] => true
    | p :: _ => !(isVal p.1.depth r.depth))

/-- Outer duplicate loop, src/cut/PRLP.cpp:174-214 and :218-251. `acc` holds the rows already
visited, most recent first. -/
def dupLoop (isPoint : Bool) (EPS : ℚ) : List PRow → List (PRow × Bool) → List (PRow × Bool)
  | [], acc => acc.reverse
  | r :: rs, acc =>
    if dupSkip isPoint r acc then dupLoop isPoint EPS rs ((r, false) :: acc)
    else
      let d := dupInner isPoint EPS r acc
      dupLoop isPoint EPS rs ((r, d.1) :: d.2)

/-- The rows that survive, in order. -/
def retained (isPoint : Bool) (EPS : ℚ) (rows : List PRow) : List PRow :=
  ((dupLoop isPoint EPS rows []).filter fun p => !p.2).map (·.1)

/-- The LP loaded into the solver: kept columns, their bounds, and the rows `vec · x ≥ lb` over the
kept columns (renumbered by `deleteCols`). -/
structure BuiltLP where
  nz : List ℕ
  lb : List ℚ
  ub : List ℚ
  rows : List (SVec × ℚ)
deriving DecidableEq

/-- Is a column kept? src/cut/PRLP.cpp:302-314. -/
def keepCol (rows : List PRow) (lb ub : Vec) (j : ℕ) : Bool :=
  if rows.all fun r => r.vec.all fun e => e.1 ≠ j then
    let ignoreLb := isNegInfinity (lb j) || isZero (lb j)
    let ignoreUb := isInfinity (ub j) || isZero (ub j)
    !ignoreLb || !ignoreUb
  else true

/-- `PRLP::setup`, src/cut/PRLP.cpp:64-337, up to `loadProblem`. `sortP` is the external
`std::sort` by objective depth. Omitted: `CoinPackedMatrix::cleanMatrix` (:295; drops matrix
entries below 1e-20) and the solve that follows. -/
def prlpSetup (sortP : List PRow → List PRow) (INF DIFFEPS scale : ℚ) (numCols : ℕ)
    (rows : List PRow) : Option BuiltLP :=
  (setupPass1 INF scale rows).map fun st =>
    let pts := retained true DIFFEPS (sortP st.pts)
    let rays := retained false DIFFEPS (sortP st.rays)
    let nz := (List.range numCols).filter (keepCol (pts ++ rays) st.lb st.ub)
    let compress : SVec → SVec := fun v => v.map fun e => (nz.idxOf e.1, e.2)
    { nz := nz
      lb := nz.map st.lb
      ub := nz.map st.ub
      rows := pts.map (fun r => (compress r.vec, r.rhs * scale))
        ++ rays.map (fun r => (compress r.vec, r.rhs)) }

/-- `β` is a feasible solution of the loaded LP (`±INF` bounds are absent). -/
def BuiltLP.Feas (INF : ℚ) (L : BuiltLP) (β : List ℚ) : Prop :=
  β.length = L.nz.length ∧
  (∀ t < L.nz.length, (L.lb.getD t 0 ≤ -INF ∨ L.lb.getD t 0 ≤ β.getD t 0) ∧
    (INF ≤ L.ub.getD t 0 ∨ β.getD t 0 ≤ L.ub.getD t 0)) ∧
  ∀ r ∈ L.rows, r.2 ≤ sdot r.1 (fun t => β.getD t 0)

/-- The coefficient vector over all nonbasic variables that a solution stands for (deleted columns
get 0; this is what `setCutFromNBCoefficients` does with `nonZeroColIndex`). -/
def expand (nz : List ℕ) (β : List ℚ) : Vec := fun j => if j ∈ nz then β.getD (nz.idxOf j) 0 else 0

end VPC
