import Mathlib.Algebra.Order.Field.Rat
import Mathlib.Algebra.Order.Ring.Abs

/-!
# Numeric comparisons (include/common/utility.hpp)

Doubles are modelled by exact rationals `ℚ`: no rounding, no NaN, no signed zero; infinities are
the finite constants that the code itself uses (`DBL_MAX`, `INF` parameter).
-/
namespace VPC

/-- `1e-7`, the default `eps` of every comparison in include/common/utility.hpp:219-253. -/
def defEps : ℚ := 1 / 10 ^ 7

/-- `__DBL_MAX__` (= `getInfinity()`, include/common/utility.hpp:239-241). -/
def dblMax : ℚ := (2 ^ 53 - 1) * 2 ^ 971

/-- `__DBL_MIN__`: the smallest positive normal double. It is the default `neg_infinity` argument
in include/common/utility.hpp:251 (note: a *positive* number, not `-DBL_MAX`). -/
def dblMin : ℚ := 1 / 2 ^ 1022

/-- include/common/utility.hpp:219-221. -/
def lessThanVal (v1 v2 : ℚ) (eps : ℚ := defEps) : Bool := v1 ≤ v2 - eps

/-- include/common/utility.hpp:224-226. -/
def greaterThanVal (v1 v2 : ℚ) (eps : ℚ := defEps) : Bool := v1 ≥ v2 + eps

/-- include/common/utility.hpp:229-231. -/
def isVal (v1 v2 : ℚ) (eps : ℚ := defEps) : Bool := |v1 - v2| < eps

/-- include/common/utility.hpp:234-236. -/
def isZero (v : ℚ) (eps : ℚ := defEps) : Bool := isVal v 0 eps

/-- include/common/utility.hpp:245-247. -/
def isInfinity (v : ℚ) (inf : ℚ := dblMax) (eps : ℚ := defEps) : Bool :=
  (v ≥ inf) || !(lessThanVal v inf eps)

/-- include/common/utility.hpp:251-253. -/
def isNegInfinity (v : ℚ) (negInf : ℚ := dblMin) (eps : ℚ := defEps) : Bool :=
  (v ≤ negInf) || !(greaterThanVal v negInf eps)

@[simp] theorem isZero_iff {v eps : ℚ} : isZero v eps = true ↔ |v| < eps := by
  simp [isZero, isVal]

theorem isZero_false_iff {v eps : ℚ} : isZero v eps = false ↔ eps ≤ |v| := by
  simp [isZero, isVal]

@[simp] theorem isVal_iff {v w eps : ℚ} : isVal v w eps = true ↔ |v - w| < eps := by
  simp [isVal]

@[simp] theorem lessThanVal_iff {v w eps : ℚ} : lessThanVal v w eps = true ↔ v ≤ w - eps := by
  simp [lessThanVal]

@[simp] theorem greaterThanVal_iff {v w eps : ℚ} :
    greaterThanVal v w eps = true ↔ w + eps ≤ v := by
  simp [greaterThanVal]

end VPC
