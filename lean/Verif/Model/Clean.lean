import Verif.Model.Disj
import Mathlib.Data.Rat.Floor

/-!
# Cleaning a problem by strong branching and bound tightening
(src/utility/preprocess.cpp:272-427)

The LP solver is external: whether the LP of a branch is proven infeasible and the optimal solutions
of the auxiliary LPs are answers of an environment.  That the hot-started solves leave the bounds of
the problem as they are is C57 (`solveFromHotStart_spec`).
-/
namespace VPC

/-- `setColLower(col, v)`. -/
def Relax.setLo (P : Relax) (col : ℕ) (v : ℚ) : Relax := { P with lo := P.lo.set col (some v) }

/-- `setColUpper(col, v)`. -/
def Relax.setHi (P : Relax) (col : ℕ) (v : ℚ) : Relax := { P with hi := P.hi.set col (some v) }

/-- `getColLower()[col]`. -/
def Relax.loAt (P : Relax) (col : ℕ) : Option ℚ := P.lo.getD col none

/-- `getColUpper()[col]`. -/
def Relax.hiAt (P : Relax) (col : ℕ) : Option ℚ := P.hi.getD col none

/-- What `cleanProblem` reads from the solvers: `sense` is `getObjSense()` (copied to the solver of
the auxiliary LPs, src/utility/preprocess.cpp:295-300), `x0` the LP solution at entry (:290-291), `away`
the parameter AWAY, `isInt` integrality, `sb Q` whether the LP `Q` of a branch is proven primal
infeasible (:329, :341), `opt sense coeff col Q` the solution of `Q` under the objective
`coeff * x_col` if `checkSolverOptimality` accepts it (:388-389, :400-401). -/
structure CleanEnv where
  sense : ℚ
  x0 : Vec
  away : ℚ
  isInt : ℕ → Bool
  sb : Relax → Bool
  opt : ℚ → ℚ → ℕ → Relax → Option Vec

/-- The auxiliary solver and the outputs. -/
structure CleanSt where
  bs : Relax
  numBounds : ℕ := 0
  numSB : ℕ := 0
  clean : Bool := true
deriving DecidableEq, Repr

/-- Is the integer variable fractional in the LP solution? (src/utility/preprocess.cpp:317-320) -/
def cleanFrac (away v : ℚ) : Bool :=
  !isVal v (⌊v⌋ : ℤ) away && !isVal v (⌈v⌉ : ℤ) away

/-- Strong branching on one column (src/utility/preprocess.cpp:321-367). `.exit` when both sides are
infeasible. -/
def cleanSB (P : Relax) (env : CleanEnv) (col : ℕ) (s : CleanSt) : Res CleanSt :=
  if cleanFrac env.away (env.x0 col) then
    let fl : ℚ := (⌊env.x0 col⌋ : ℤ)
    let ce : ℚ := (⌈env.x0 col⌉ : ℤ)
    let down := !env.sb (P.setHi col fl)
    let up := !env.sb (P.setLo col ce)
    if !down && !up then .exit
    else if !down then
      .ok { s with numSB := s.numSB + 1, clean := false, bs := s.bs.setLo col ce }
    else if !up then
      .ok { s with numSB := s.numSB + 1, clean := false, bs := s.bs.setHi col fl }
    else .ok s
  else .ok s

/-- Integrality of the lower bound (src/utility/preprocess.cpp:369-375). Infinite bounds are
integral. -/
def cleanLB (P : Relax) (col : ℕ) (s : CleanSt) : CleanSt :=
  match P.loAt col with
  | none => s
  | some l =>
    if !isVal l (⌊l⌋ : ℤ) then
      { s with numBounds := s.numBounds + 1, clean := false, bs := s.bs.setLo col (⌈l⌉ : ℤ) }
    else s

/-- Integrality of the upper bound (src/utility/preprocess.cpp:377-383). -/
def cleanUB (P : Relax) (col : ℕ) (s : CleanSt) : CleanSt :=
  match P.hiAt col with
  | none => s
  | some u =>
    if !isVal u (⌈u⌉ : ℤ) then
      { s with numBounds := s.numBounds + 1, clean := false, bs := s.bs.setHi col (⌊u⌋ : ℤ) }
    else s

/-- `greaterThanVal(v, lb)` with a possibly infinite bound (src/utility/preprocess.cpp:390-391). -/
def gtLo (v : ℚ) : Option ℚ → Bool
  | none => true
  | some l => greaterThanVal v l

/-- `lessThanVal(v, ub)` with a possibly infinite bound (src/utility/preprocess.cpp:402-403). -/
def ltHi (v : ℚ) : Option ℚ → Bool
  | none => true
  | some u => lessThanVal v u

/-- Tightening the lower bound (src/utility/preprocess.cpp:386-396): note that the solution is
compared with the bound of the *original* solver. -/
def cleanTightLB (P : Relax) (env : CleanEnv) (col : ℕ) (s : CleanSt) : CleanSt :=
  match env.opt env.sense 1 col s.bs with
  | none => s
  | some y =>
    if gtLo (y col) (P.loAt col) then
      { s with numBounds := s.numBounds + 1, clean := false, bs := s.bs.setLo col (y col) }
    else s

/-- Tightening the upper bound (src/utility/preprocess.cpp:398-408). -/
def cleanTightUB (P : Relax) (env : CleanEnv) (col : ℕ) (s : CleanSt) : CleanSt :=
  match env.opt env.sense (-1) col s.bs with
  | none => s
  | some y =>
    if ltHi (y col) (P.hiAt col) then
      { s with numBounds := s.numBounds + 1, clean := false, bs := s.bs.setHi col (y col) }
    else s

/-- The body of the loop over columns (src/utility/preprocess.cpp:312-412). -/
def cleanCol (P : Relax) (env : CleanEnv) (col : ℕ) (s : CleanSt) : Res CleanSt :=
  (if env.isInt col then
    (cleanSB P env col s).bind fun s => .ok (cleanUB P col (cleanLB P col s))
  else .ok s).bind fun s => .ok (cleanTightUB P env col (cleanTightLB P env col s))

/-- The loop over columns. -/
def cleanCols (P : Relax) (env : CleanEnv) : List ℕ → CleanSt → Res CleanSt
  | [], s => .ok s
  | c :: cs, s => (cleanCol P env c s).bind (cleanCols P env cs)

/-- `cleanProblem` (src/utility/preprocess.cpp:277-427): the final problem has the bounds of the
auxiliary solver (:416-420); rows and objective of `P` are not touched. -/
def cleanProblem (P : Relax) (env : CleanEnv) : Res CleanSt :=
  (cleanCols P env (List.range P.lo.length) { bs := P }).bind fun s =>
  .ok { s with bs := { P with lo := s.bs.lo, hi := s.bs.hi } }

end VPC
