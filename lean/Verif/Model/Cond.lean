import Verif.Model.SolverMem
import Mathlib.Algebra.Order.Field.Rat
import Mathlib.Algebra.Order.Group.Unbundled.Abs

/-!
# Condition number of the basis (src/test/condition_number.cpp)

The LP solver and LAPACK are external: the statuses, the columns of the inverse and the singular values are
given by the world. Simplification: real numbers are exact rationals.
-/
namespace VPC

/-- What the functions see of the LP: rows, columns, whether a basis is available, statuses (1 is basic), the
columns of the constraint matrix as pairs (row, value), the columns of the inverse of the basis matrix as the
solver gives them, and the singular values of a column-major array (`none` if LAPACK fails). -/
structure BasisLP where
  m : ℕ
  n : ℕ
  available : Bool := true
  cstat : ℕ → ℤ
  rstat : ℕ → ℤ
  col : ℕ → List (ℕ × ℚ)
  binvCol : ℕ → ℕ → ℚ
  svd : List ℚ → Option (List ℚ) := fun _ => none

/-- The loop over one column in `compute_condition_number_norm1` (src/test/condition_number.cpp:105-109). -/
def colAbs : List ℚ → ℚ → ℚ
  | [], s => s
  | v :: vs, s => colAbs vs (s + |v|)

/-- `if (currnorm > norm) norm = currnorm` over several columns (src/test/condition_number.cpp:110-112,
:127-129). -/
def condMax : List ℚ → ℚ → ℚ
  | [], s => s
  | v :: vs, s => condMax vs (if v > s then v else s)

/-- Norms of the basic structural columns (src/test/condition_number.cpp:103-114). -/
def basicColNorms (l : BasisLP) : List ℚ :=
  ((List.range l.n).filter fun i => l.cstat i = 1).map fun i => colAbs ((l.col i).map (·.2)) 0

/-- Norms of the columns of the inverse (src/test/condition_number.cpp:121-130). -/
def binvNorms (l : BasisLP) : List ℚ :=
  (List.range l.m).map fun i => colAbs ((List.range l.m).map fun j => l.binvCol i j) 0

/-- `compute_condition_number_norm1` (src/test/condition_number.cpp:83-138). -/
def cond1 (l : BasisLP) : ℚ :=
  if !l.available then 0
  else
    let b := condMax (basicColNorms l) 0
    let b := if b < 1 then 1 else b
    b * condMax (binvNorms l) 0

/-- A write to the array. -/
def putAt (a : List ℚ) (k : ℕ) (v : ℚ) : Res (List ℚ) := if k < a.length then .ok (a.set k v) else .undef

/-- Entries of one column, at offset `off` (src/test/condition_number.cpp:38-41). -/
def putCol (off : ℕ) : List (ℕ × ℚ) → List ℚ → Res (List ℚ)
  | [], a => .ok a
  | e :: es, a => (putAt a (off + e.1) e.2).bind fun a => putCol off es a

/-- Several basic columns; `k` is `bindex` (src/test/condition_number.cpp:36-44, :46-51). -/
def putCols (m : ℕ) : List (List (ℕ × ℚ)) → ℕ → List ℚ → Res (List ℚ × ℕ)
  | [], k, a => .ok (a, k)
  | c :: cs, k, a => (putCol (k * m) c a).bind fun a => putCols m cs (k + 1) a

/-- Basic structural columns, then basic slacks. -/
def basisCols (l : BasisLP) : List (List (ℕ × ℚ)) :=
  (((List.range l.n).filter fun i => l.cstat i = 1).map l.col) ++
  (((List.range l.m).filter fun i => l.rstat i = 1).map fun i => [(i, 1)])

/-- The array given to LAPACK (src/test/condition_number.cpp:27-51); `m * m` is computed with type `int`. -/
def basisArray (l : BasisLP) : Res (List ℚ) :=
  if 2 ^ 31 ≤ l.m * l.m then .undef
  else (putCols l.m (basisCols l) 0 (List.replicate (l.m * l.m) 0)).bind fun r => .ok r.1

/-- What is returned: a number, or infinity or not-a-number after a division by zero. -/
inductive CondVal | num (q : ℚ) | notFinite
deriving DecidableEq

/-- `compute_condition_number_norm2` (src/test/condition_number.cpp:17-81). Reading `sv[-1]` (`m = 0`) or
behind the end is undefined. -/
def cond2 (l : BasisLP) : Res CondVal :=
  if !l.available then .ok (.num 0)
  else (basisArray l).bind fun a =>
    match l.svd a with
    | none => .ok (.num 0)
    | some sv =>
      if l.m = 0 then .undef
      else match sv[0]?, sv[l.m - 1]? with
        | some x, some y => .ok (if y = 0 then .notFinite else .num (x / y))
        | _, _ => .undef

/-- `compute_condition_number` (src/test/condition_number.cpp:141-152). -/
def condNumber (l : BasisLP) (norm : ℤ) : Res CondVal :=
  if norm < 1 ∨ 2 < norm then .ok (.num 0)
  else if norm = 1 then .ok (.num (cond1 l)) else cond2 l

/-- The solver objects in `compute_condition_number_norm1` (src/test/condition_number.cpp:84-138): the copy is
never deleted. -/
def cond1Mem {σ : Type} (available : Bool) (work : σ → σ) (h : BMem σ) (a : ℕ) : Res (BMem σ) :=
  (h.dup a).bind fun r => if !available then .ok r.1 else r.1.use r.2 work

end VPC
