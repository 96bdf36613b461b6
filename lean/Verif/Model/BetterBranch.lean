import Verif.Model.Choose

/-!
# `CbcBranchStrongDecision::betterBranch` (src/branch/CbcBranchStrongDecision.cpp:71-165)
-/
namespace VPC

/-- A branching object and what strong branching found: changes of the objective and numbers of
infeasibilities on both sides, and the way its user prefers (0: none). -/
structure BrCand where
  up : ℚ
  numUp : ℤ
  down : ℚ
  numDown : ℤ
  preferred : ℤ := 0
deriving DecidableEq, Repr

/-- State of the decision object: `bestCriterion_`, `bestNumberUp_`, `bestNumberDown_` and
`bestObject_` (an index here, `none` for NULL). -/
structure BrState where
  crit : ℚ := 0
  numUp : ℤ := 0
  numDown : ℤ := 0
  best : Option ℕ := none
deriving DecidableEq, Repr

/-- `COIN_INT_MAX`. -/
def coinIntMax : ℤ := 2 ^ 31 - 1

/-- `initialize(model)` (src/branch/CbcBranchStrongDecision.cpp:73-83). -/
def BrState.init : BrState := {}

/-- The way before a solution was found by the search
(src/branch/CbcBranchStrongDecision.cpp:106-137); `bestNumber`, `crit`: of the best so far. -/
def wayBefore (c : BrCand) (bestNumber : ℤ) (crit : ℚ) : ℤ :=
  if c.numUp < c.numDown then
    if c.numUp < bestNumber then 1
    else if c.numUp = bestNumber ∧ c.up < crit then 1 else 0
  else if c.numUp > c.numDown then
    if c.numDown < bestNumber then -1
    else if c.numDown = bestNumber ∧ c.down < crit then -1 else 0
  else if c.numUp < bestNumber ∨ (c.numUp = bestNumber ∧ min c.up c.down < crit) then
    if c.up ≤ c.down then 1 else -1
  else 0

/-- The way after a solution (src/branch/CbcBranchStrongDecision.cpp:142-149). -/
def wayAfter (c : BrCand) (crit : ℚ) : ℤ :=
  if c.up ≤ c.down then (if c.up > crit then 1 else 0) else (if c.down > crit then -1 else 0)

/-- What is compared with: the fields that are reset while there is no best object
(src/branch/CbcBranchStrongDecision.cpp:101-104, :139-141). -/
def BrState.start (s : BrState) (before : Bool) : BrState :=
  if s.best = none then
    if before then { s with numUp := coinIntMax, numDown := coinIntMax } else { s with crit := -1 }
  else s

/-- The way the new candidate beats the best so far, 0 if it does not. -/
def BrState.way (s : BrState) (before : Bool) (c : BrCand) : ℤ :=
  if before then wayBefore c (min s.numUp s.numDown) s.crit else wayAfter c s.crit

/-- `betterBranch` (src/branch/CbcBranchStrongDecision.cpp:92-165) for the object with index `i`:
new state and return value. -/
def betterBranch (before : Bool) (s : BrState) (i : ℕ) (c : BrCand) : BrState × ℤ :=
  let t := s.start before
  let w := t.way before c
  if w ≠ 0 then
    ({ crit := min c.up c.down, numUp := c.numUp, numDown := c.numDown, best := some i },
      if c.preferred ≠ 0 then c.preferred else w)
  else (t, 0)

/-- The candidates of one node, in order: the final state and the last way that was better (what the
caller keeps). -/
def betterFrom (before : Bool) : ℕ → List BrCand → BrState × ℤ → BrState × ℤ
  | _, [], s => s
  | i, c :: cs, s =>
    betterFrom before (i + 1) cs
      (let r := betterBranch before s.1 i c; if r.2 ≠ 0 then r else (r.1, s.2))

/-- Choosing among the candidates of a node. -/
def betterAll (before : Bool) (cs : List BrCand) : BrState × ℤ :=
  betterFrom before 0 cs (.init, 0)

end VPC
