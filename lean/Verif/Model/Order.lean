import Mathlib.Algebra.Order.Field.Rat
import Verif.Model.Num

/-!
# Comparisons used for sorting (include/common/utility.hpp:60-103, include/PRLP.hpp:77-109,
include/common/TimeStats.hpp:26-30, include/VPCParameters.hpp:292-300)

Numbers are those of `double` up to rounding: finite ones, the two infinities and NaN.
-/
namespace VPC

/-- A value of type `double`. -/
inductive DVal | nan | ninf | fin (q : ℚ) | pinf
deriving DecidableEq, Repr

/-- `a < b` of C++: false if one is NaN (external: IEEE 754; used by include/common/utility.hpp:81, :99,
include/PRLP.hpp:86, :93). -/
def DVal.lt : DVal → DVal → Bool
  | .nan, _ => false
  | _, .nan => false
  | .ninf, .ninf => false
  | .ninf, _ => true
  | .fin _, .ninf => false
  | .fin a, .fin b => decide (a < b)
  | .fin _, .pinf => true
  | .pinf, _ => false

/-- `index_cmp_asc` (include/common/utility.hpp:88-102), used at src/cut/PRLP.cpp:158, :166, :1136. An index
outside the array is not modelled: the indices sorted are those of the array. -/
def idxAsc (arr : List DVal) (a b : ℕ) : Bool := (arr.getD a .nan).lt (arr.getD b .nan)

/-- `index_cmp_dsc` (include/common/utility.hpp:70-84) and the lambdas
src/disjunction/SplitDisjunction.cpp:144-145, :467-468; used at src/cut/PRLP.cpp:1139, :1523. -/
def idxDsc (arr : List DVal) (a b : ℕ) : Bool := (arr.getD b .nan).lt (arr.getD a .nan)

/-- `compareRayInfo` (include/PRLP.hpp:98-109), with ordinary numbers. -/
structure RayInfo where
  index : ℕ
  minOrtho : ℚ
  avgOrtho : ℚ
deriving DecidableEq, Repr

/-- `compareRayInfo::operator<` (include/PRLP.hpp:104-108). -/
def RayInfo.less (a b : RayInfo) : Bool :=
  decide (a.minOrtho > b.minOrtho) || (isVal a.minOrtho b.minOrtho (1 / 10) && decide (a.avgOrtho > b.avgOrtho))

/-- Insertion in a `std::set` with comparison `lt` that holds the elements `l` in order: at the first position
not before the new element, unless an element there is equivalent (src/cut/PRLP.cpp:936). -/
def setInsert {α : Type} (lt : α → α → Bool) (x : α) : List α → List α
  | [] => [x]
  | y :: l => if lt y x then y :: setInsert lt x l else if lt x y then x :: y :: l else y :: l

/-- `strcmp(a, b) < 0` on what `c_str()` shows of two strings (bytes as characters): up to the first NUL. -/
def cLess : List Char → List Char → Bool
  | [], [] => false
  | [], _ :: _ => true
  | _ :: _, [] => false
  | a :: s, b :: t => if a = b then cLess s t else decide (a.toNat < b.toNat)

/-- What a C function sees of a string. -/
def cStr (s : List Char) : List Char := s.takeWhile (fun c => c.toNat ≠ 0)

/-- `ltstr` (include/common/TimeStats.hpp:26-30), the order of the timers' names. -/
def ltstr (s t : List Char) : Bool := cLess (cStr s) (cStr t)

/-- `Parameter::operator<` (include/VPCParameters.hpp:294-296): `std::string::compare` sees all characters. -/
def paramLess (s t : List Char) : Bool := cLess s t

end VPC
