import Verif.Model.Sparse
import Mathlib.Data.Rat.Floor

/-!
# Objectives, cut conversion, applying cuts (src/utility/SolverHelper.cpp,
src/utility/VPCSolverInterface.cpp, src/cut/PRLP.cpp)

`OsiSolverInterface` is external; what is modelled is the part of its state that the code reads
and writes.  In Osi the objective value of `x` is `c·x - OsiObjOffset`
(include/common/SolverHelper.hpp:29).
-/
namespace VPC

/-- Objective part of an `OsiSolverInterface`. -/
structure Objective where
  sense : ℚ
  coeff : List ℚ
  offset : ℚ
deriving DecidableEq, Repr

/-- Osi's objective value of a point (include/common/SolverHelper.hpp:29). -/
def Objective.value (o : Objective) (x : List ℚ) : ℚ :=
  (o.coeff.zipWith (· * ·) x).sum - o.offset

/-- The statements that negate an objective: every coefficient in turn, and the offset if it is
nonzero (src/utility/SolverHelper.cpp:69-78, src/utility/VPCSolverInterface.cpp:98-107). -/
def negateObjective (o : Objective) (sense : ℚ) : Objective :=
  { sense := sense
    coeff := o.coeff.map fun c => -1 * c
    offset := if o.offset ≠ 0 then -1 * o.offset else o.offset }

/-- End of `initializeSolver`: make it a minimization problem
(src/utility/SolverHelper.cpp:64-79). -/
def toMinimization (o : Objective) : Objective :=
  if o.sense < 1 / 10 ^ 3 then negateObjective o 1 else o

/-- `VPCSolverInterface::flipObj` (src/utility/VPCSolverInterface.cpp:86-109). -/
def flipObj (sense : ℤ) (o : Objective) : Objective :=
  if !(isVal o.sense sense) then negateObjective o sense else o

/-- A variable of `OsiProblemData`. -/
structure ProbVar where
  lb : ℚ
  ub : ℚ
  obj : ℚ
  vartype : Char
deriving DecidableEq, Repr

/-- `OsiProblemData` (include/common/OsiProblemData.hpp:23-38) without the matrix, which is handed
to `loadProblem` unchanged. -/
structure ProblemData where
  vars : List ProbVar
  objsense : ℤ
  objoffset : ℚ
deriving DecidableEq, Repr

/-- A loaded column: bounds and integrality. -/
structure LoadedVar where
  lb : ℚ
  ub : ℚ
  isInt : Bool
deriving DecidableEq, Repr

/-- The loop over variable types in `load(OsiProblemData*)`
(src/utility/VPCSolverInterface.cpp:184-193). -/
def loadVar (v : ProbVar) : LoadedVar :=
  if v.vartype = 'B' then ⟨0, 1, true⟩
  else if v.vartype = 'I' then ⟨v.lb, v.ub, true⟩
  else ⟨v.lb, v.ub, false⟩

/-- `VPCSolverInterface::load(OsiProblemData*)` (src/utility/VPCSolverInterface.cpp:174-199).
`oldOffset` is the objective offset of the solver before (`loadProblem` of Clp resets it to 0,
and `data->objoffset` is never read, so it is a parameter here). -/
def loadProblemData (oldOffset : ℚ) (d : ProblemData) : List LoadedVar × Objective :=
  (d.vars.map loadVar,
   flipObj 1 { sense := d.objsense, coeff := d.vars.map (·.obj), offset := oldOffset })

/-- `setObjCoeff(i, v)`: an index outside the columns is undefined behaviour. -/
def setObjCoeff (c : List ℚ) (i : ℕ) (v : ℚ) : Option (List ℚ) :=
  if i < c.length then some (c.set i v) else none

/-- New value written by lines 237 and 244 of src/utility/SolverHelper.cpp. -/
def newObjCoeff (mult twoNorm old elem : ℚ) : ℚ :=
  if isZero mult then 0 else old + elem * mult / twoNorm

/-- Loop of `addToObjectiveFromPackedVector` without a list of columns
(src/utility/SolverHelper.cpp:227-232). -/
def addObjLoop (mult twoNorm : ℚ) : SVec → List ℚ → Option (List ℚ)
  | [], c => some c
  | e :: v, c =>
    match c[e.1]? with
    | none => none
    | some old => (setObjCoeff c e.1 (newObjCoeff mult twoNorm old e.2)).bind
        (addObjLoop mult twoNorm v)

/-- `while ((ind < numNZ) && (col > nonZeroColIndices[ind])) ind++`
(src/utility/SolverHelper.cpp:214-216). -/
def skipCols (nz : List ℕ) (col : ℕ) (ind : ℕ) : ℕ :=
  ind + ((nz.drop ind).takeWhile fun j => decide (j < col)).length

/-- Loop with a list of columns (src/utility/SolverHelper.cpp:208-225). -/
def addObjColsLoop (mult twoNorm : ℚ) (nz : List ℕ) : SVec → ℕ → List ℚ → Option (List ℚ)
  | [], _, c => some c
  | e :: v, ind, c =>
    let ind := skipCols nz e.1 ind
    match nz[ind]? with
    | none => some c
    | some j =>
      if e.1 < j then addObjColsLoop mult twoNorm nz v ind c
      else match c[ind]? with
        | none => none
        | some old => (setObjCoeff c ind (newObjCoeff mult twoNorm old e.2)).bind
            (addObjColsLoop mult twoNorm nz v ind)

/-- `addToObjectiveFromPackedVector` (src/utility/SolverHelper.cpp:181-235). `norm` is
`vec->twoNorm()`, computed by CoinUtils. Lines 211-217: the norm divided by the number of columns
is used only when scaling is requested, the multiplier is not zero and the norm is not tiny.
The result is `none` when a column index is out of range. -/
def addToObjective (c : List ℚ) (vec : Option SVec) (norm : ℚ) (zeroOut : Bool) (mult : ℚ)
    (nz : Option (List ℕ)) (scale : Bool) : Option (List ℚ) :=
  let c := if zeroOut then c.map fun _ => 0 else c
  match vec with
  | none => some c
  | some v =>
    let real := norm / (c.length : ℚ)
    let twoNorm := if !(isZero mult) && scale && greaterThanVal real 0 then real else 1
    match nz with
    | some nz => addObjColsLoop mult twoNorm nz v 0 c
    | none => addObjLoop mult twoNorm v c

/-- `setConstantObjectiveFromPackedVector` (src/utility/SolverHelper.cpp:240-258); `indices` is the
list of the first `numIndices` entries (`none` for a null pointer). -/
def setConstantObjective (c : List ℚ) (val : ℚ) (indices : Option (List ℕ)) : Option (List ℚ) :=
  match indices with
  | some (i :: is) => (i :: is).foldlM (fun c i => setObjCoeff c i val) c
  | _ => some (c.map fun _ => val)

/-- `PRLP::setObjectiveFromStructuralPoint` outside the nonbasic space
(src/cut/PRLP.cpp:483-491), where the compressed branch reads
`pointVals[nonZeroColIndex[i]]` for `i` in `nonZeroColIndex` (line 486). -/
def setObjectiveStructural (c : List ℚ) (pointVals : List ℚ) (nz : List ℕ) : Option (List ℚ) :=
  if nz = [] then some (pointVals.take c.length)
  else nz.foldlM (fun c i =>
    match nz[i]? with
    | none => none
    | some j => match pointVals[j]? with
      | none => none
      | some p => setObjCoeff c i p) c

/-! ## Cut conversion -/

/-- `SparseCut` (include/VPCSolverInterface.hpp:12-18). -/
structure SparseCut where
  numElem : ℕ
  index : List ℕ
  coeff : List ℚ
  rhs : ℚ
deriving DecidableEq, Repr

/-- `DenseCut` (include/VPCSolverInterface.hpp:21-25). -/
structure DenseCut where
  coeff : List ℚ
  rhs : ℚ
deriving DecidableEq, Repr

/-- `convertCutsToSparseCuts` (src/utility/VPCSolverInterface.cpp:17-33). -/
def convertCutsToSparseCuts (cuts : Option (List RowCut)) : List SparseCut :=
  match cuts with
  | none => []
  | some cs => cs.map fun c => ⟨c.row.length, c.row.map (·.1), c.row.map (·.2), c.lb⟩

/-- Conversion of a double to `int` (line 47): truncation toward zero, undefined when the result
does not fit. -/
def toInt (q : ℚ) : Option ℤ :=
  let t : ℤ := if 0 ≤ q then ⌊q⌋ else ⌈q⌉
  if -2 ^ 31 ≤ t ∧ t < 2 ^ 31 then some t else none

/-- Dense coefficients of one cut (src/utility/VPCSolverInterface.cpp:44-49). -/
def denseCoeffs (n : ℕ) (row : SVec) : Option (List ℚ) :=
  row.foldlM (fun c e => (toInt e.2).bind fun v => setObjCoeff c e.1 (v : ℚ)) (List.replicate n 0)

/-- `convertCutsToDenseCuts` (src/utility/VPCSolverInterface.cpp:35-54): note
`const int curr_val = coeff[i]` on line 47. -/
def convertCutsToDenseCuts (cuts : Option (List RowCut)) (n : ℕ) : Option (List DenseCut) :=
  match cuts with
  | none => some []
  | some cs => cs.mapM fun c => (denseCoeffs n c.row).map fun d => ⟨d, c.lb⟩

end VPC
