import Verif.Model.Solver

/-!
# Converting a CPLEX problem (src/utility/OsiProblemData.cpp, include/common/OsiProblemData.hpp)

CPLEX is external: a problem is the data its query functions answer with.
-/
namespace VPC

/-- A column of a CPLEX problem: entries (row, value), bounds, objective coefficient, type. -/
structure CpxCol where
  entries : SVec
  lb : ℚ
  ub : ℚ
  obj : ℚ
  ctype : Char
deriving DecidableEq, Repr

/-- A CPLEX problem: columns, rows (sense and right-hand side; `'R'` is a ranged row), whether it has types
of variables at all (a pure LP has none), sense of the objective (1 = minimize) and its constant. -/
structure CpxProb where
  cols : List CpxCol
  rows : List (Char × ℚ)
  isMip : Bool
  objsense : ℤ
  offset : ℚ
deriving DecidableEq, Repr

/-- Number of nonzeros (`CPXgetcols`, argument `nzcnt`, src/utility/OsiProblemData.cpp:55). -/
def CpxProb.nz (p : CpxProb) : ℕ := ((p.cols.map fun c => c.entries.length).take p.cols.length).sum

/-- `cmatbeg[j]` (src/utility/OsiProblemData.cpp:55, 62): where column `j` begins. The array has one entry per
column; outside it the model has 0 (the proofs use no such entry). -/
def CpxProb.beg (p : CpxProb) (j : ℕ) : ℕ :=
  if j < p.cols.length then ((p.cols.map fun c => c.entries.length).take j).sum else 0

/-- `cmatind` zipped with `cmatval` (src/utility/OsiProblemData.cpp:60-62). -/
def CpxProb.mat (p : CpxProb) : SVec := (p.cols.map (·.entries)).flatten

/-- The arrays of `OsiProblemData` (include/common/OsiProblemData.hpp:23-38); `none` is memory that was
allocated and not written. -/
structure CpxOut where
  start : List ℕ
  mat : SVec
  collb : List ℚ
  colub : List ℚ
  obj : List ℚ
  vartype : List (Option Char)
  rowbd : List (Option (ℚ × ℚ))
  objsense : ℤ
  objoffset : ℚ
deriving DecidableEq, Repr

/-- End of column `j` in CPLEX's arrays (src/utility/OsiProblemData.cpp:78-83). -/
def cpxColEnd (p : CpxProb) (j : ℕ) : ℕ := if j < p.cols.length - 1 then p.beg (j + 1) else p.nz

/-- One pass of the loop over columns (src/utility/OsiProblemData.cpp:76-99), on `start` and the entries written so
far; `currOSIidx` is the number of entries written. -/
def copyCpxCol (p : CpxProb) (acc : List ℕ × SVec) (j : ℕ) : List ℕ × SVec :=
  (acc.1 ++ [acc.2.length], acc.2 ++ (p.mat.take (cpxColEnd p j)).drop (p.beg j))

/-- The loop over columns and the last entry of `start` (src/utility/OsiProblemData.cpp:75-100). -/
def copyCpxCols (p : CpxProb) : List ℕ × SVec :=
  let r := (List.range p.cols.length).foldl (copyCpxCol p) ([], [])
  (r.1 ++ [r.2.length], r.2)

/-- Bounds of a row (src/utility/OsiProblemData.cpp:108-130): `none` if the sense is not one of G, L, E. -/
def cpxRowBounds (r : Char × ℚ) : Option (ℚ × ℚ) :=
  if r.1 = 'G' then some (r.2, dblMax)
  else if r.1 = 'L' then some (-dblMax, r.2)
  else if r.1 = 'E' then some (r.2, r.2)
  else none

/-- The types of the variables: `CPXgetctype` writes nothing for a pure LP, and its return code is
overwritten (src/utility/OsiProblemData.cpp:48-52, 91). -/
def cpxTypes (p : CpxProb) : List (Option Char) :=
  p.cols.map fun c => if p.isMip then some c.ctype else none

/-- The data written when the second `CPXgetcols` succeeds (src/utility/OsiProblemData.cpp:67-133). -/
def cpxWrite (p : CpxProb) : CpxOut :=
  { start := (copyCpxCols p).1
    mat := (copyCpxCols p).2
    collb := p.cols.map (·.lb)
    colub := p.cols.map (·.ub)
    obj := p.cols.map (·.obj)
    vartype := cpxTypes p
    rowbd := if (copyCpxCols p).2.length ≠ p.nz then p.rows.map fun _ => none else p.rows.map cpxRowBounds
    objsense := p.objsense
    objoffset := p.offset }

/-- The value returned after writing (src/utility/OsiProblemData.cpp:62, 101-129). -/
def cpxRval (p : CpxProb) : ℤ :=
  if (copyCpxCols p).2.length ≠ p.nz then 1
  else if (p.rows.map cpxRowBounds).any Option.isNone then 1
  else 0

/-- `ConvertCPX2Data` (src/utility/OsiProblemData.cpp:10-158): return value and what was written to
`pdata` (`none`: nothing). The first `CPXgetcols` has no space; it fails with `CPXERR_NEGATIVE_SURPLUS`
exactly when there are nonzeros, otherwise it returns 0, which is reported on `stderr` and
returned. -/
def convertCpx (p : CpxProb) : ℤ × Option CpxOut :=
  if p.nz = 0 then (0, none) else (cpxRval p, some (cpxWrite p))

/-- The variables handed on to `load(OsiProblemData*)` (src/utility/VPCSolverInterface.cpp:173-196); a type that
was not written is undefined behaviour. -/
def cpxVars (d : CpxOut) : Option (List ProbVar) :=
  (List.range d.obj.length).mapM fun j =>
    match d.vartype.getD j none with
    | none => none
    | some t => some ⟨d.collb.getD j 0, d.colub.getD j 0, d.obj.getD j 0, t⟩

end VPC
