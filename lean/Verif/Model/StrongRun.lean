import Verif.Model.Choose
import Mathlib.Logic.Function.Basic
import Mathlib.Data.Rat.Floor

/-!
# Strong branching and the solver (src/branch/OsiChooseStrongCustom.cpp:34-172, :726-760)

The model `doStrong` (Model/Choose.lean) looks at return codes only. Here are the effects on the solver, the
cutoff and the counters. External: `branch->branch(solver)` (a list of bounds that are set),
`solveFromHotStart` and `resolve` (do not change bounds), `updateInformation` (gives a status, and a value if a
solution was found), the clock.
-/
namespace VPC

/-- A bound set by a branching object: column, upper or lower bound, value. -/
structure BndWrite where
  col : ℕ
  upper : Bool
  val : ℚ
deriving DecidableEq, Repr

/-- What is tried for one side of a candidate: the bounds set by `branch->branch` and the outcome: status
(0 finished, 1 infeasible, 2 unfinished, 3 solution, src/branch/OsiChooseStrongCustom.cpp:77), value of the
solution, iterations. -/
structure SideTry where
  writes : List BndWrite
  status : ℤ
  good : ℚ
  iters : ℤ
deriving DecidableEq, Repr

/-- A candidate in `results_`: its object, `boundBranch()`, the two sides in the order tried, and whether time
is up afterwards. -/
structure STry where
  obj : ℕ
  bound : Bool
  first : SideTry
  second : SideTry
  timeUp : Bool
deriving DecidableEq, Repr

/-- The solver and the chooser: bounds of the columns, snapshots for hot starts that are marked, clones and
arrays that are allocated, the counters `numberStrongDone_`, `numberStrongIterations_`, `numberStrongFixed_`,
`numResults_`, `info->cutoff_`, and `bestObjectIndex_`, `bestWhichWay_` if they are written. -/
structure SRun where
  lo : ℕ → ℚ
  hi : ℕ → ℚ
  marks : ℤ := 0
  clones : ℤ := 0
  arrays : ℤ := 0
  done : ℤ := 0
  iters : ℤ := 0
  fixed : ℤ := 0
  results : ℕ := 0
  cutoff : ℚ
  best : Option (ℤ × ℤ) := none

/-- `setColLower`, `setColUpper`. -/
def SRun.write (s : SRun) (w : BndWrite) : SRun :=
  if w.upper then { s with hi := Function.update s.hi w.col w.val }
  else { s with lo := Function.update s.lo w.col w.val }

/-- What is fixed during the call: `trustStrongForSolution_`, the number of columns, whether `info->lower_` and
`info->upper_` point to the solver's own arrays or to copies made before, and the saved bounds. -/
structure SEnv where
  trust : Bool
  ncols : ℕ
  live : Bool
  saveLo : ℕ → ℚ
  saveHi : ℕ → ℚ

/-- "Restore bounds" for column `j` (src/branch/OsiChooseStrongCustom.cpp:91-94, :132-135): `lower[j]` is the
solver's bound if the arrays are its own, otherwise the bound before. -/
def restoreCol (e : SEnv) (s : SRun) (j : ℕ) : SRun :=
  let s := if e.saveLo j ≠ (if e.live then s.lo j else e.saveLo j) then s.write ⟨j, false, e.saveLo j⟩ else s
  if e.saveHi j ≠ (if e.live then s.hi j else e.saveHi j) then s.write ⟨j, true, e.saveHi j⟩ else s

/-- "Restore bounds" (src/branch/OsiChooseStrongCustom.cpp:90-95, :131-136). -/
def restoreAll (e : SEnv) (s : SRun) : SRun := (List.range e.ncols).foldl (restoreCol e) s

/-- Branch and solve: on the solver itself, or on a clone (src/branch/OsiChooseStrongCustom.cpp:59-75,
:100-115). -/
def branchSide (s : SRun) (bound : Bool) (t : SideTry) : SRun :=
  if bound then t.writes.foldl SRun.write s else { s with clones := s.clones + 1 }

/-- The status is looked at; a solution sets the cutoff if it is trusted
(src/branch/OsiChooseStrongCustom.cpp:78-87, :118-128). -/
def takeStatus (e : SEnv) (s : SRun) (t : SideTry) : SRun × ℤ :=
  if t.status = 3 ∧ e.trust = true then ({ s with iters := s.iters + t.iters, cutoff := t.good }, 0)
  else ({ s with iters := s.iters + t.iters }, t.status)

/-- One side (src/branch/OsiChooseStrongCustom.cpp:59-95, :99-136): the clone is deleted, the bounds are
restored. -/
def trySide (e : SEnv) (s : SRun) (bound : Bool) (t : SideTry) : SRun × ℤ :=
  let r := takeStatus e (branchSide s bound t) t
  let s := if bound then r.1 else { r.1 with clones := r.1.clones - 1 }
  (restoreAll e s, r.2)

/-- One candidate: the state afterwards and the two statuses (src/branch/OsiChooseStrongCustom.cpp:50-145). -/
def tryCand (e : SEnv) (s : SRun) (c : STry) : SRun × ℤ × ℤ :=
  let r := trySide e s c.bound c.first
  let q := trySide e r.1 c.bound c.second
  ({ q.1 with done := q.1.done + 1, results := q.1.results + 1 }, r.2, q.2)

/-- The loop over the candidates (src/branch/OsiChooseStrongCustom.cpp:49-167); `rc` is `returnCode`, `crit` is
`returnCriterion`. -/
def strongLoop (e : SEnv) (crit : Bool) : List STry → SRun → ℤ → SRun × ℤ
  | [], s, rc => (s, rc)
  | c :: cs, s, rc =>
    let r := tryCand e s c
    if r.2.1 = 1 ∧ r.2.2 = 1 then ({ r.1 with best := some (c.obj, -1) }, -1)
    else if r.2.1 = 1 ∨ r.2.2 = 1 then
      let s := { r.1 with fixed := r.1.fixed + 1 }
      if crit then ({ s with best := some (c.obj, if r.2.1 = 1 then 0 else 1) }, 2)
      else if c.timeUp then (s, 3)
      else strongLoop e crit cs s 1
    else if c.timeUp then (r.1, 3)
    else strongLoop e crit cs r.1 rc

/-- `doStrongBranching` (src/branch/OsiChooseStrongCustom.cpp:34-172). -/
def doStrongBranching (trust live : Bool) (ncols : ℕ) (crit : Bool) (cs : List STry) (s : SRun) : SRun × ℤ :=
  let e : SEnv := ⟨trust, ncols, live, s.lo, s.hi⟩
  let r := strongLoop e crit cs { s with marks := s.marks + 1, arrays := s.arrays + 2, results := 0 } 0
  ({ r.1 with marks := r.1.marks - 1, arrays := r.1.arrays - 2 }, r.2)

/-- Bounds after `createBranch(solver, info, way)` and `branch` for an integer variable (external,
OsiSimpleInteger): the value is moved into the bounds, then rounded down (way 0) or up (way 1). -/
def fixSide (sol : ℕ → ℚ) (col : ℕ) (up : Bool) (b : (ℕ → ℚ) × (ℕ → ℚ)) : (ℕ → ℚ) × (ℕ → ℚ) :=
  let v := min (max (sol col) (b.1 col)) (b.2 col)
  if up then (Function.update b.1 col (⌈v⌉ : ℚ), b.2) else (b.1, Function.update b.2 col (⌊v⌋ : ℚ))

/-- A result of strong branching: the column and the sides found infeasible. -/
structure SideInf where
  col : ℕ
  upInf : Bool
  downInf : Bool
deriving DecidableEq, Repr

/-- Bounds fixed in `chooseVariable` because of one result (src/branch/OsiChooseStrongCustom.cpp:731-736,
:753-758). -/
def fixResult (sol : ℕ → ℚ) (b : (ℕ → ℚ) × (ℕ → ℚ)) (r : SideInf) : (ℕ → ℚ) × (ℕ → ℚ) :=
  let b := if r.upInf then fixSide sol r.col false b else b
  if r.downInf then fixSide sol r.col true b else b

/-- All of them, if `fixVariables` (src/branch/OsiChooseStrongCustom.cpp:714-764). -/
def fixResults (fixVariables : Bool) (sol : ℕ → ℚ) (rs : List SideInf) (b : (ℕ → ℚ) × (ℕ → ℚ)) :
    (ℕ → ℚ) × (ℕ → ℚ) :=
  if fixVariables then rs.foldl (fixResult sol) b else b

end VPC
