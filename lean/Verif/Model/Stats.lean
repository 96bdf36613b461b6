import Mathlib.Algebra.Order.Field.Basic
import Mathlib.Data.List.Basic

/-!
# Summary statistics (src/utility/utility.cpp:45-160, include/common/utility.hpp:147-183)

Doubles are an ordered field `K` (exact arithmetic) with an operation `sqrt`, given as a
parameter because the rationals have none; `dmax` is `std::numeric_limits<double>::max()`.
A division by zero (which gives an infinity or NaN in the code) and a failed `assert` are `none`.
-/
namespace VPC

/-- `StatVector`, one field per entry of `enum class Stat` (include/common/utility.hpp:148-151).
The two counters, which are only ever incremented by one, are natural numbers. -/
structure Stats (K : Type) where
  total : K
  avg : K
  stddev : K
  min : K
  max : K
  num : ℕ
  numNonzero : ℕ

variable {K : Type} [Field K] [LinearOrder K]

/-- `stats.assign(num_stats, 0)` (src/utility/utility.cpp:50, 63). -/
def zeroStats : Stats K := ⟨0, 0, 0, 0, 0, 0, 0⟩

/-- `initializeStats` (src/utility/utility.cpp:60-64). -/
def initializeStats (minPossible maxPossible : K) : Stats K :=
  { zeroStats with min := maxPossible, max := minPossible }

/-- `isZero` of include/common/utility.hpp:234-236 with its default tolerance, over `K`. -/
def statIsZero (v : K) : Bool := decide (|v| < 1 / 10 ^ 7)

/-- Body of `updateStatsBeforeFinalize` for a given divisor (src/utility/utility.cpp:93-110). -/
def updateStat (divisor : K) (s : Stats K) (val : K) : Stats K :=
  { total := s.total + val
    avg := (s.total + val) / divisor
    min := Min.min s.min val
    max := Max.max s.max val
    stddev := s.stddev + val * val / divisor
    num := s.num + 1
    numNonzero := if statIsZero val then s.numNonzero else s.numNonzero + 1 }

/-- `updateStatsBeforeFinalize` (src/utility/utility.cpp:93-110); `size = 0` divides by zero
(line 97 uses `size >= 0`, while the comment announces an early return). -/
def updateStatsBeforeFinalize (s : Stats K) (val : K) (size : ℤ) : Option (Stats K) :=
  if size = 0 then none
  else some (updateStat (if 0 ≤ size then (size : K) else 1) s val)

/-- `finalizeStats` (src/utility/utility.cpp:117-125). -/
def finalizeStats (sqrt : K → K) (s : Stats K) (size : ℤ) : Option (Stats K) :=
  let divisor : K := if 0 < size then (size : K) else if size = 0 then 1 else (s.num : K)
  if size < 0 ∧ s.num = 0 then none
  else
    let avg := s.total / divisor
    let var := s.stddev / divisor - avg * avg
    some { s with avg := avg, stddev := if 0 < var then sqrt var else 0 }

/-- `unfinalizeStats` (src/utility/utility.cpp:134-155). The `assert` of line 153 is an outcome. -/
def unfinalizeStats (s : Stats K) (prevSize : ℤ) : Option (Stats K) :=
  let oldSize : ℤ := if 0 < prevSize then prevSize else s.num
  if oldSize = 0 then some s
  else if |s.total / (oldSize : K) - s.avg| < 1 / 10 ^ 3 then
    some { s with
      avg := s.avg * (oldSize : K)
      stddev := (s.stddev * s.stddev + s.avg * s.avg) * (oldSize : K) }
  else none

/-- `updateAndFinalizeStats` (src/utility/utility.cpp:72-86). -/
def updateAndFinalizeStats (sqrt : K → K) (s : Stats K) (vals : List K) (prevSize : ℤ) :
    Option (Stats K) :=
  if vals = [] then some s
  else do
    let newSize : ℤ := prevSize + vals.length
    let s ← if prevSize ≠ 0 then
        unfinalizeStats s (if 0 < prevSize then prevSize else s.num)
      else some s
    finalizeStats sqrt (vals.foldl (updateStat 1) s) newSize

/-- `computeStats` (src/utility/utility.cpp:48-57), with the default bounds of
`initializeStats` (include/common/utility.hpp:165-166): minimum possible value 0. -/
def computeStats (sqrt : K → K) (dmax : K) (vals : List K) : Option (Stats K) :=
  if vals = [] then some zeroStats
  else updateAndFinalizeStats sqrt (initializeStats 0 dmax) vals 0

end VPC
