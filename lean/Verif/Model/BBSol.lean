import Verif.Model.BB

/-!
# Integer solutions found during the partial tree (src/branch/VPCEventHandler.cpp:660-812, 848-935)
-/
namespace VPC

/-- One column as seen by the check: bounds of the original solver (`none` = infinite), integrality,
value of the candidate. -/
structure ColVal where
  lo : Option ℚ
  hi : Option ℚ
  isInt : Bool
  val : ℚ
deriving DecidableEq, Repr

/-- Clipping against the lower bound (src/branch/VPCEventHandler.cpp:702-708): `none` is an error. -/
def clipLo (lo : Option ℚ) (v : ℚ) : Option ℚ :=
  match lo with
  | none => some v
  | some l => if greaterThanVal (l - v) 0 then none
      else if greaterThanVal (l - v) 0 0 then some (v + (l - v)) else some v

/-- Clipping against the upper bound (src/branch/VPCEventHandler.cpp:709-715). -/
def clipHi (hi : Option ℚ) (v : ℚ) : Option ℚ :=
  match hi with
  | none => some v
  | some u => if greaterThanVal (v - u) 0 then none
      else if greaterThanVal (v - u) 0 0 then some (v - (v - u)) else some v

/-- Signed distance to the nearest integer (src/branch/VPCEventHandler.cpp:717-719). -/
def fracViol (v : ℚ) : ℚ :=
  if v - (⌊v⌋ : ℤ) < 1 / 2 then v - (⌊v⌋ : ℤ) else v - ((⌊v⌋ : ℤ) + 1)

/-- Rounding of integer columns (src/branch/VPCEventHandler.cpp:716-727). -/
def roundInt (isInt : Bool) (v : ℚ) : Option ℚ :=
  if isInt then
    if !isZero (fracViol v) then none
    else if !isZero (fracViol v) 0 then some (v - fracViol v) else some v
  else some v

/-- One iteration of the loop over columns. -/
def checkCol (c : ColVal) : Option ℚ :=
  (clipLo c.lo c.val).bind fun v => (clipHi c.hi v).bind fun v => roundInt c.isInt v

/-- The loop over columns (src/branch/VPCEventHandler.cpp:701-728): `error` (-1 if none) and the
adjusted solution. -/
def checkCols : ℕ → List ColVal → ℤ × List ℚ
  | _, [] => (-1, [])
  | i, c :: cs =>
    match checkCol c with
    | none => (i, c.val :: cs.map (·.val))
    | some v => let r := checkCols (i + 1) cs; (r.1, v :: r.2)

/-- A row as seen by the check: sense, right-hand side, the bound used for the other side of a ranged
row, the activity the solver reports and the coefficients. -/
structure RowVal where
  sense : Char
  rhs : ℚ
  other : ℚ
  refAct : ℚ
  coeffs : SVec
deriving DecidableEq, Repr

/-- The violation test of one row (src/branch/VPCEventHandler.cpp:745-776). -/
def rowBad (EPS act : ℚ) (r : RowVal) : Bool :=
  if r.sense = 'G' then lessThanVal act r.rhs EPS
  else if r.sense = 'L' then greaterThanVal act r.rhs EPS
  else if r.sense = 'E' then !isVal act r.rhs EPS
  else greaterThanVal act r.rhs EPS || lessThanVal act r.other EPS

/-- The loop over rows, `for (row_ind = 0; row_ind < numRows && !error; row_ind++)`
(src/branch/VPCEventHandler.cpp:732-777): it is entered only while `error` is zero. -/
def checkRows (EPS : ℚ) (ncols : ℤ) (x : Vec) : ℤ → List RowVal → ℤ → Res ℤ
  | _, [], error => .ok error
  | i, r :: rs, error =>
    if error = 0 then
      if !isVal (sdot r.coeffs x) r.refAct then .exit
      else if rowBad EPS (sdot r.coeffs x) r then .ok (i + ncols)
      else checkRows EPS ncols x (i + 1) rs error
    else .ok error

/-- Dense list as a vector. -/
def asVec (l : List ℚ) : Vec := fun i => l.getD i 0

/-- The check of a supposed integer solution (src/branch/VPCEventHandler.cpp:691-794): `.exit` is the
termination of the process; otherwise the recomputed objective value. `byInteg` tells whether
`pruneNode_ == PRUNE_BY_INTEGRALITY`. -/
def checkSolution (EPS : ℚ) (cols : List ColVal) (rows : List RowVal) (objCoeffs : List ℚ)
    (objOffset : ℚ) (byInteg : Bool) (modelObj : ℚ) : Res ℚ :=
  let c := checkCols 0 cols
  (checkRows EPS cols.length (asVec c.2) 0 rows c.1).bind fun error =>
  if error ≥ 0 then .exit
  else
    let obj := (List.zipWith (· * ·) c.2 objCoeffs).sum - objOffset
    if byInteg && !isVal obj modelObj then .exit else .ok obj

/-- `PruneNodeOption` (include/VPCEventHandler.hpp:84-86). -/
inductive Prune | NO | INFEASIBILITY | BOUND | INTEGRALITY
deriving DecidableEq, Repr

/-- The fields of the event handler read or written when a solution is announced. -/
structure SolSt where
  prune : Prune := .NO
  found : Bool := false
  saved : List ℚ := []
  obj : ℚ := dblMax
deriving DecidableEq, Repr

/-- What Cbc offers at a `beforeSolution2` event: is there a current node; is the solution feasible for
the MIP; objective of the node; cutoff and increment; objective value of the new solution and the
solution; does the node have a branching object; the good solution of the choose method. -/
structure SolEv where
  child : Bool
  mipFeasible : Bool
  childObj : ℚ
  cutoff : ℚ
  increment : ℚ
  objective : ℚ
  best : List ℚ
  hasBranch : Bool
  good : Option (List ℚ × ℚ)
deriving DecidableEq, Repr

/-- The `beforeSolution2` event (src/branch/VPCEventHandler.cpp:848-935). -/
def beforeSolution2 (s : SolSt) (e : SolEv) : Res SolSt :=
  let s := { s with found := true }
  if !e.child then .exit
  else if !e.mipFeasible then .ok { s with prune := .INFEASIBILITY }
  else if e.childObj ≥ e.cutoff then .ok { s with prune := .BOUND }
  else if e.objective < e.cutoff ∧ e.childObj ≥ e.objective - e.increment then
    .ok { s with prune := .INTEGRALITY, saved := e.best, obj := e.objective }
  else if !e.hasBranch then
    match e.good with
    | none => .ok s
    | some g =>
      let s := { s with prune := .INTEGRALITY }
      .ok (if g.2 < e.cutoff then { s with saved := g.1, obj := g.2 } else s)
  else .ok s

end VPC
