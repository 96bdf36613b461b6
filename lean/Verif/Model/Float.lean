import Mathlib.Data.Int.Log
import Mathlib.Data.Rat.Floor
import Verif.Model.VecOps

/-!
# Rounding to nearest in binary floating point

The arithmetic of `double` as far as no result overflows or underflows: the result of an operation is the exact
result rounded to `p` significant binary digits, ties to even.  The dot products of src/utility/utility.cpp take a
rounding function as parameter (`Verif.Model.VecOps`); `fl 53` is the one of the machine.
-/
namespace VPC

/-- Nearest integer, ties to even (external: IEEE 754, the default rounding of `double` used by every operation of
src/utility/utility.cpp:438-631). -/
def rne (q : ℚ) : ℤ :=
  if q - ⌊q⌋ < 1 / 2 then ⌊q⌋
  else if 1 / 2 < q - ⌊q⌋ then ⌊q⌋ + 1
  else if ⌊q⌋ % 2 = 0 then ⌊q⌋ else ⌊q⌋ + 1

/-- Rounding to `p` significant binary digits (external: IEEE 754; the exponent range is unbounded here, so overflow
and underflow are not modelled). -/
def fl (p : ℕ) (x : ℚ) : ℚ :=
  if x = 0 then 0
  else (rne (x / 2 ^ (Int.log 2 |x| + 1 - p)) : ℚ) * 2 ^ (Int.log 2 |x| + 1 - p)

/-- Products met by `dotProduct` of two packed vectors, in order (src/utility/utility.cpp:608-629): the pairs of
elements at which the two positions hold the same index. -/
def matched : SVec → SVec → List (ℚ × ℚ)
  | [], _ => []
  | _ :: _, [] => []
  | x :: v, y :: w =>
    if x.1 = y.1 then (x.2, y.2) :: matched v w
    else if x.1 < y.1 then matched v (y :: w)
    else matched (x :: v) w
termination_by v w => v.length + w.length

end VPC
