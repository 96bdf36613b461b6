import Verif.Model.GenCut

/-!
# The first solve of the point-ray LP: time limits and exit reason
(src/cut/PRLP.cpp:354-418)
-/
namespace VPC

/-- `max_time`, the time limit of the first solve, src/cut/PRLP.cpp:354. -/
def prlpInitLimit (TIMELIMIT tl : ℚ) : ℚ := min TIMELIMIT (max 60 (10 * tl))

/-- Value of the parameter `PRLP_TIMELIMIT` of the generator after the first solve, which took `dur`
seconds, src/cut/PRLP.cpp:371-375 (`MIN_PRLP_TIMELIMIT = 5`, include/VPCParameters.hpp:657). -/
def prlpLimitAfter (tl dur : ℚ) : ℚ := if isVal tl (-1) then max 5 dur else tl

/-- What the LP solver says after the first solve: the flags tested in src/cut/PRLP.cpp:387-414. -/
structure PrlpAnswer where
  optimal : Bool
  primalInf : Bool
  dualInf : Bool
  abandoned : Bool
  iterLimit : Bool
  hitMax : Bool
  dur : ℚ

/-- Exit reason of `PRLP::setup` and the failure counter it increases, src/cut/PRLP.cpp:385-417. -/
def prlpSetupExit (maxTime : ℚ) (a : PrlpAnswer) : ExitReason × Option Fail :=
  if a.optimal then (.SUCCESS, none)
  else if a.primalInf && !a.abandoned then (.PRLP_INFEASIBLE, some .PRIMAL_INFEASIBLE_NO_OBJ)
  else if !(lessThanVal a.dur maxTime) then (.PRLP_TIME_LIMIT, some .NUMERICAL_ISSUES_NO_OBJ)
  else if a.iterLimit || a.hitMax then (.PRLP_NUMERICAL_ISSUES, some .NUMERICAL_ISSUES_NO_OBJ)
  else if a.dualInf && !a.abandoned then (.PRLP_NUMERICAL_ISSUES, some .NUMERICAL_ISSUES_NO_OBJ)
  else (.PRLP_NUMERICAL_ISSUES, some .UNKNOWN)

end VPC
