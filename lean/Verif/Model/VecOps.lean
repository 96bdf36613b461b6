import Verif.Model.Sparse

/-!
# Dot products and sparse vector sums (src/utility/utility.cpp:421-717)

Every floating-point operation of the dot products goes through a rounding function
`rnd : ℚ → ℚ`; `rnd = id` is exact arithmetic.  A dense array `const double*` is a list whose
length is the size of the allocation; reading past it is `none` (undefined behaviour).
-/
namespace VPC

/-- Accumulator and compensation of the loops in src/utility/utility.cpp:438-634. -/
structure DotAcc where
  acc : ℚ
  comp : ℚ
deriving DecidableEq, Repr

/-- One term: lines 451-457 (`kahan = false`: the recovery line 455 is commented out) and
lines 562-568 (`kahan = true`) of src/utility/utility.cpp. -/
def dotStep (rnd : ℚ → ℚ) (kahan : Bool) (s : DotAcc) (x y : ℚ) : DotAcc :=
  let currterm := rnd (rnd (x * y) - s.comp)
  let nextacc := rnd (s.acc + currterm)
  ⟨nextacc, if kahan then rnd (rnd (nextacc - s.acc) - currterm) else s.comp⟩

/-- Loop of `dotProductNoCompensation(a, b, dimension)` / `dotProduct(a, b, dimension)`
(src/utility/utility.cpp:438-458, 549-569); `i` counts up while `n` iterations remain. -/
def dotDenseLoop (rnd : ℚ → ℚ) (kahan : Bool) (a b : List ℚ) : ℕ → ℕ → DotAcc → Option DotAcc
  | _, 0, s => some s
  | i, n + 1, s =>
    match a[i]?, b[i]? with
    | some x, some y => dotDenseLoop rnd kahan a b (i + 1) n (dotStep rnd kahan s x y)
    | _, _ => none

/-- `dotProduct[NoCompensation](const double* a, const double* b, int dimension)`
(src/utility/utility.cpp:438-458, 549-569). A negative dimension gives no iteration. -/
def dotDense (rnd : ℚ → ℚ) (kahan : Bool) (a b : List ℚ) (dimension : ℤ) : Option ℚ :=
  (dotDenseLoop rnd kahan a b 0 dimension.toNat ⟨0, 0⟩).map (·.acc)

/-- Loop of the sparse × dense versions (src/utility/utility.cpp:460-481, 572-593). -/
def dotSparseDenseLoop (rnd : ℚ → ℚ) (kahan : Bool) (b : List ℚ) :
    SVec → DotAcc → Option DotAcc
  | [], s => some s
  | e :: v, s =>
    match b[e.1]? with
    | some y => dotSparseDenseLoop rnd kahan b v (dotStep rnd kahan s e.2 y)
    | none => none

/-- `dotProduct[NoCompensation](sizea, indexa, a, b)` and the `CoinPackedVector` wrapper
(src/utility/utility.cpp:421-426, 460-481, 531-536, 572-593). -/
def dotSparseDense (rnd : ℚ → ℚ) (kahan : Bool) (v : SVec) (b : List ℚ) : Option ℚ :=
  (dotSparseDenseLoop rnd kahan b v ⟨0, 0⟩).map (·.acc)

/-- Loop of the sparse × sparse versions: two positions advancing
(src/utility/utility.cpp:483-518, 596-631). -/
def dotSparseLoop (rnd : ℚ → ℚ) (kahan : Bool) : SVec → SVec → DotAcc → DotAcc
  | [], _, s => s
  | _ :: _, [], s => s
  | x :: v, y :: w, s =>
    if x.1 = y.1 then dotSparseLoop rnd kahan v w (dotStep rnd kahan s x.2 y.2)
    else if x.1 < y.1 then dotSparseLoop rnd kahan v (y :: w) s
    else dotSparseLoop rnd kahan (x :: v) w s
termination_by v w => v.length + w.length

/-- `dotProduct[NoCompensation](sizea, indexa, a, sizeb, indexb, b)` and its wrapper
(src/utility/utility.cpp:428-436, 483-518, 538-546, 596-631). -/
def dotSparse (rnd : ℚ → ℚ) (kahan : Bool) (v w : SVec) : ℚ :=
  (dotSparseLoop rnd kahan v w ⟨0, 0⟩).acc

/-- `getRowTwoNorm` before the square root (src/utility/utility.cpp:636-646): the sum of squares
of the elements of the row. -/
def rowSquares (row : List ℚ) : ℚ := row.foldl (fun p e => p + e * e) 0

/-- The inner `while` of `packedSortedVectorSum` while `vec2_ind < vec1_ind`
(src/utility/utility.cpp:685-692) returning what is appended to the sum and the rest of `vec2`. -/
def sumSkip (mult2 eps : ℚ) (ind : ℕ) : SVec → SVec × SVec
  | [] => ([], [])
  | y :: w =>
    if y.1 < ind then
      let r := sumSkip mult2 eps ind w
      ((if isZero y.2 eps then r.1 else (y.1, mult2 * y.2) :: r.1), r.2)
    else ([], y :: w)

/-- The trailing `while` (src/utility/utility.cpp:708-714). -/
def sumTail (mult2 eps : ℚ) (w : SVec) : SVec :=
  (w.filter fun y => !(isZero y.2 eps)).map fun y => (y.1, mult2 * y.2)

/-- Value of `new_val` and the rest of `vec2` when the inner `while` stops
(src/utility/utility.cpp:684, 693-699). -/
def sumNew (mult1 mult2 : ℚ) (x : ℕ × ℚ) : SVec → ℚ × SVec
  | [] => (mult1 * x.2, [])
  | y :: w => if y.1 = x.1 then (mult1 * x.2 + mult2 * y.2, w) else (mult1 * x.2, y :: w)

/-- The `for` over `vec1` followed by the trailing `while`
(src/utility/utility.cpp:680-714). -/
def sumLoop (mult1 mult2 eps : ℚ) : SVec → SVec → SVec
  | [], w => sumTail mult2 eps w
  | x :: v, w =>
    let s := sumSkip mult2 eps x.1 w
    let nv := sumNew mult1 mult2 x s.2
    s.1 ++ (if isZero nv.1 eps then [] else [(x.1, nv.1)]) ++ sumLoop mult1 mult2 eps v nv.2

/-- `packedSortedVectorSum` (src/utility/utility.cpp:649-717). `old` is the content of the output
argument `sum` before the call. -/
def packedSortedVectorSum (old : SVec) (mult1 : ℚ) (v : SVec) (mult2 : ℚ) (w : SVec) (eps : ℚ) :
    SVec :=
  if isZero mult1 eps || isZero mult2 eps then
    if isZero mult1 eps && isZero mult2 eps then old
    else
      let mult := if isZero mult1 eps then mult2 else mult1
      (if isZero mult1 eps then w else v).map fun e => (e.1, mult * e.2)
  else sumLoop mult1 mult2 eps v w

end VPC
