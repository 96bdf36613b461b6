import Verif.Model.SolverOps
import Verif.Model.Num

/-!
# Problem data read off an optimal basis (src/cut/CglVPC.cpp:694-865, include/CglVPC.hpp:139-163)

Variables are numbered `0, ..., numCols - 1` (structural) and `numCols, ..., numCols + numRows - 1`
(slacks).  The LP solver is represented by the answers it gives: `basics` (`getBasics`) and `isBasic`
(`isBasicVar`).
-/
namespace VPC

/-- What `getProblemData` reads about the basis. -/
structure BasisIn where
  numCols : ℕ
  numRows : ℕ
  basics : List ℕ
  isBasic : ℕ → Bool

/-- The index tables of `ProblemData` (include/CglVPC.hpp:145-148). -/
structure IndexTabs where
  nb : List ℕ
  rowOfVar : List ℤ
  rowOfOrig : List ℤ
deriving DecidableEq, Repr

/-- `getVarNBIndex` (include/CglVPC.hpp:152-162) for a nonnegative variable index. -/
def getVarNBIndex (rowOfVar : List ℤ) (var : ℕ) : ℤ :=
  match rowOfVar[var]? with
  | none => -1
  | some r => if r ≤ -1 then -1 * (1 + r) else -1

/-- The entry for the row whose slack is being visited, src/cut/CglVPC.cpp:779-790. `orig` is the table
`rowOfVar` of the original problem, if given. A write outside a table is undefined behaviour. -/
def visitRow (B : BasisIn) (orig : Option (List ℤ)) (row : ℕ) (t : IndexTabs) : Res IndexTabs :=
  match B.basics[row]? with
  | none => .undef
  | some b =>
    if b < t.rowOfVar.length then
      let t := { t with rowOfVar := t.rowOfVar.set b (row : ℤ) }
      match orig with
      | none => .ok t
      | some o =>
        let k := getVarNBIndex o b
        if 0 ≤ k then
          if k < t.rowOfOrig.length then .ok { t with rowOfOrig := t.rowOfOrig.set k.toNat (row : ℤ) }
          else .undef
        else .ok t
    else .undef

/-- A nonbasic variable gets the next index, src/cut/CglVPC.cpp:793-797. -/
def visitNonbasic (var : ℕ) (t : IndexTabs) : IndexTabs :=
  { t with rowOfVar := t.rowOfVar.set var (t.rowOfVar.getD var 0 - t.nb.length)
           nb := t.nb ++ [var] }

/-- One pass of the loop over variables, src/cut/CglVPC.cpp:749-815 (without the reference values). -/
def visitVar (B : BasisIn) (orig : Option (List ℤ)) (t : IndexTabs) (var : ℕ) : Res IndexTabs :=
  (if var < B.numCols then .ok t else visitRow B orig (var - B.numCols) t).bind fun t =>
    if !B.isBasic var then .ok (visitNonbasic var t)
    else if B.numCols ≤ var ∧ B.basics[var - B.numCols]? ≠ some var then .exit
    else .ok t

/-- The loop over variables. -/
def visitAll (B : BasisIn) (orig : Option (List ℤ)) : List ℕ → IndexTabs → Res IndexTabs
  | [], t => .ok t
  | v :: vs, t => (visitVar B orig t v).bind fun t => visitAll B orig vs t

/-- The index tables made by `getProblemData`, src/cut/CglVPC.cpp:731-815. Without rows the address of the
first element of an empty vector is taken; that is undefined behaviour. -/
def indexTables (B : BasisIn) (orig : Option (List ℤ)) : Res IndexTabs :=
  if B.numRows = 0 then .undef
  else visitAll B orig (List.range (B.numCols + B.numRows))
    { nb := []
      rowOfVar := List.replicate (B.numCols + B.numRows) (-1)
      rowOfOrig := match orig with
        | none => []
        | some _ => List.replicate B.numCols (-1) }

/-! ## Reduced costs in the nonbasic space -/

/-- Status and dual values of the variables, as reported by the solver. -/
structure DualIn where
  numCols : ℕ
  status : ℕ → ClpStatus
  reducedCost : ℕ → ℚ
  rowPrice : ℕ → ℚ

/-- The reduced cost in the complemented nonbasic space, src/cut/CglVPC.cpp:826-837. -/
def nbReducedCost (D : DualIn) (v : ℕ) : ℚ :=
  if v < D.numCols then
    if isNonBasicUBCol (D.status v) (D.reducedCost v) then -1 * D.reducedCost v else D.reducedCost v
  else
    let row := v - D.numCols
    if isNonBasicUBSlack (D.status v) (D.rowPrice row) then D.rowPrice row else -1 * D.rowPrice row

/-- The loop over nonbasic variables, src/cut/CglVPC.cpp:820-858: the values and the number of
warnings; `exit(1)` for a value below `-DIFFEPS`. -/
def nbReducedCosts (D : DualIn) (DIFFEPS : ℚ) : List ℕ → Res (List ℚ × ℕ)
  | [] => .ok ([], 0)
  | v :: vs =>
    let d := nbReducedCost D v
    if lessThanVal d 0 && lessThanVal d 0 DIFFEPS then .exit
    else (nbReducedCosts D DIFFEPS vs).bind fun r =>
      .ok (d :: r.1, (if lessThanVal d 0 then 1 else 0) + r.2)

/-! ## The tolerance of the instance -/

/-- Numbers that enter the reference values: all matrix elements, the LP value, the finite column
bounds, the right-hand sides (src/cut/CglVPC.cpp:710-777). -/
structure RefData where
  elements : List ℚ
  lpOpt : ℚ
  bounds : List ℚ
  rhs : List ℚ

/-- `std::min_element` by absolute value: the first of the smallest; `none` for an empty range (the code
then dereferences the end pointer). -/
def minAbs : List ℚ → Option ℚ
  | [] => none
  | x :: xs => some (xs.foldl (fun m y => if |y| < |m| then y else m) x)

/-- `std::max_element` by absolute value: the first of the largest. -/
def maxAbs : List ℚ → Option ℚ
  | [] => none
  | x :: xs => some (xs.foldl (fun m y => if |m| < |y| then y else m) x)

/-- Taking a number into account, e.g. src/cut/CglVPC.cpp:726-729: zero does not lower the smaller
reference value. -/
def takeRef (p : ℚ × ℚ) (x : ℚ) : ℚ × ℚ :=
  (if x ≠ 0 then min p.1 |x| else p.1, max p.2 |x|)

/-- `probData.EPS`, src/cut/CglVPC.cpp:709-777 and :861, with `minAbsCoeff` and `maxAbsCoeff`. -/
def instanceEps (EPS : ℚ) (R : RefData) : Res (ℚ × ℚ × ℚ) :=
  match minAbs R.elements, maxAbs R.elements with
  | some lo, some hi =>
    let m : ℚ := if |lo| > 0 then min 1 |lo| else 1
    let M : ℚ := max 1 |hi|
    let p := (R.lpOpt :: (R.bounds ++ R.rhs)).foldl takeRef (m, M)
    .ok (|lo|, |hi|, min EPS (p.1 / p.2))
  | _, _ => .undef

end VPC
