import Verif.Model.Choose
import Verif.Model.Target

/-!
# The list of candidates for strong branching, and method 7
(src/branch/OsiChooseStrongCustom.cpp:237-446, :580-630)

`setupList` works in place on the arrays `list_` and `useful_`, which have one entry per object; an entry
`-1` of `list_` is `none` here. A write or read outside the arrays is `undef`, a failing `assert` is
`exit`. Shadow prices are off (`shadowPriceMode_` is 0 in both constructors and nobody sets it), so
lines 262-286 and the test at 341 have no effect. The added `1e-30` at 335 and 337 is kept.
-/
namespace VPC

/-- `num_strong` from the parameter and the number of columns
(src/disjunction/PartialBBDisjunction.cpp:175-181). -/
def numStrongOf (p : ℤ) (cols : ℕ) : ℤ :=
  if p = -1 then cols else if p = -2 then ceilSqrt cols else p

/-- What `setupList` reads of an object: `infeasibility()`, `priority()`, `columnNumber()`, the two
estimates, and the sums and counts of its pseudo-costs (src/branch/OsiChooseStrongCustom.cpp:316-372). -/
structure SObj where
  infeas : ℚ
  prio : ℤ
  col : ℕ
  downEst : ℚ
  upEst : ℚ
  downTotal : ℚ
  upTotal : ℚ
  downNum : ℕ
  upNum : ℕ
deriving DecidableEq, Repr

/-- `upMultiplier`, `downMultiplier` (src/branch/OsiChooseStrongCustom.cpp:293-309). -/
def multiplier (totals : List ℚ) (nums : List ℕ) : ℚ := (1 + totals.sum) / (1 + (nums.sum : ℕ))

/-- The estimate for one side (src/branch/OsiChooseStrongCustom.cpp:350-368). -/
def sideEstimate (est total : ℚ) (num : ℕ) (mult : ℚ) (trusted : ℤ) : ℚ :=
  let e := if num ≠ 0 then est * (total + 1 / 10 ^ 30) / num else est * mult
  if (num : ℤ) < trusted then e * ((trusted + 1) / (num + 1)) else e

/-- The value given to object `o` (src/branch/OsiChooseStrongCustom.cpp:350-372); `objs` are all objects,
`trusted` is `numberBeforeTrusted`. -/
def scoreOf (m : ℤ) (trusted : ℤ) (objs : List SObj) (o : SObj) : ℚ :=
  calcValue m o.col
    (sideEstimate o.downEst o.downTotal o.downNum
      (multiplier (objs.map (·.downTotal)) (objs.map (·.downNum))) trusted)
    (sideEstimate o.upEst o.upTotal o.upNum
      (multiplier (objs.map (·.upTotal)) (objs.map (·.upNum))) trusted) false

/-- The variables of the loop: `list_`, `useful_`, `putOther`, `maximumStrong`, `check`, `checkIndex`,
`bestPriority` (src/branch/OsiChooseStrongCustom.cpp:256-265). -/
structure SetSt where
  list : List (Option ℕ)
  useful : List ℚ
  putOther : ℕ
  maxStrong : ℕ
  check : ℚ
  checkIndex : ℕ
  bestPrio : ℤ
deriving DecidableEq, Repr

/-- Flush the choices (src/branch/OsiChooseStrongCustom.cpp:335-342); the argument is `j + 1`. -/
def flushFrom : ℕ → SetSt → Res SetSt
  | 0, s => .ok s
  | j + 1, s =>
    match s.list[j]? with
    | none => .undef
    | some none => flushFrom j s
    | some (some o) =>
      match s.putOther with
      | 0 => .undef
      | p + 1 => flushFrom j
          { s with
            list := (s.list.set j none).set p (some o)
            useful := s.useful.set j 0
            putOther := p }

/-- Better priority (src/branch/OsiChooseStrongCustom.cpp:333-347). -/
def flush (prio : ℤ) (s : SetSt) : Res SetSt :=
  (flushFrom s.maxStrong s).bind fun s =>
    .ok { s with maxStrong := min s.maxStrong s.putOther, bestPrio := prio, check := -dblMax, checkIndex := 0 }

/-- `assert(list_[putOther - 1] < 0); list_[--putOther] = i`
(src/branch/OsiChooseStrongCustom.cpp:377-378, :400-401, :407-408). -/
def putAtEnd (i : ℕ) (s : SetSt) : Res SetSt :=
  match s.putOther with
  | 0 => .undef
  | p + 1 =>
    match s.list[p]? with
    | none => .undef
    | some (some _) => .exit
    | some none => .ok { s with list := s.list.set p (some i), putOther := p }

/-- "find worst" (src/branch/OsiChooseStrongCustom.cpp:383-397): positions `j, j + 1, ...`, the first
argument is the number of positions left. -/
def findWorst (list : List (Option ℕ)) (useful : List ℚ) : ℕ → ℕ → ℚ → ℕ → ℚ × ℕ
  | 0, _, check, idx => (check, idx)
  | k + 1, j, check, idx =>
    match list.getD j none with
    | none => (0, j)
    | some _ =>
      if useful.getD j 0 < check then findWorst list useful k (j + 1) (useful.getD j 0) j
      else findWorst list useful k (j + 1) check idx

/-- `maximumStrong = CoinMin(maximumStrong, putOther)` (src/branch/OsiChooseStrongCustom.cpp:385, :402,
:409). -/
def SetSt.shrink (s : SetSt) : SetSt := { s with maxStrong := min s.maxStrong s.putOther }

/-- The object at `checkIndex`, if any, goes to the end (src/branch/OsiChooseStrongCustom.cpp:375-379). -/
def evict (s : SetSt) : Res SetSt :=
  match s.list[s.checkIndex]? with
  | none => .undef
  | some none => .ok s
  | some (some o) => putAtEnd o s

/-- Store object `i` at `checkIndex` and look for the worst (src/branch/OsiChooseStrongCustom.cpp:380-397). -/
def store (i : ℕ) (v : ℚ) (s : SetSt) : Res SetSt :=
  if s.checkIndex < s.putOther then
    let s := { s with list := s.list.set s.checkIndex (some i), useful := s.useful.set s.checkIndex v }
    let s := s.shrink
    let w := findWorst s.list s.useful s.maxStrong 0 dblMax s.checkIndex
    .ok { s with check := w.1, checkIndex := w.2 }
  else .exit

/-- An object of the best priority (src/branch/OsiChooseStrongCustom.cpp:373-403). -/
def offer (i : ℕ) (v : ℚ) (s : SetSt) : Res SetSt :=
  if v > s.check then (evict s).bind (store i v)
  else (putAtEnd i s).bind fun s => .ok s.shrink

/-- One unsatisfied object of priority `p` (src/branch/OsiChooseStrongCustom.cpp:333-410). -/
def place (i : ℕ) (p : ℤ) (v : ℚ) (s : SetSt) : Res SetSt :=
  (if p < s.bestPrio then flush p s else .ok s).bind fun s =>
    if p = s.bestPrio then offer i v s
    else (putAtEnd i s).bind fun s => .ok s.shrink

/-- The loop over the objects (src/branch/OsiChooseStrongCustom.cpp:316-412), from object `i` on; `none` if
an object is infeasible, otherwise the state and `numberUnsatisfied_`. -/
def setupLoop (score : SObj → ℚ) : ℕ → List SObj → ℕ → SetSt → Res (Option (SetSt × ℕ))
  | _, [], u, s => .ok (some (s, u))
  | i, o :: os, u, s =>
    if o.infeas > 0 then
      if o.infeas = dblMax then .ok none
      else (place i o.prio (score o) s).bind fun s => setupLoop score (i + 1) os (u + 1) s
    else setupLoop score (i + 1) os u s

/-- The state before the loop (src/branch/OsiChooseStrongCustom.cpp:256-265); `COIN_INT_MAX` is
`2^31 - 1`. -/
def setupInit (n numStrong : ℕ) : SetSt :=
  ⟨List.replicate n none, List.replicate n 0, n, min numStrong n, -dblMax, 0, 2 ^ 31 - 1⟩

/-- The compaction of the list (src/branch/OsiChooseStrongCustom.cpp:420-425): the objects at positions
below the argument and the negated values. (Entry `k` is written to a position that is not larger.) -/
def onListOf (s : SetSt) (m : ℕ) : List (ℚ × ℕ) :=
  (List.range m).filterMap fun j => (s.list.getD j none).map fun o => (-(s.useful.getD j 0), o)

/-- Write the objects to the front of the list. -/
def writeFront (list : List (Option ℕ)) (l : List ℕ) : List (Option ℕ) :=
  l.map some ++ list.drop l.length

/-- "move others" (src/branch/OsiChooseStrongCustom.cpp:429-432), `k` entries left. -/
def moveOthers : ℕ → ℕ → ℕ → List (Option ℕ) → List (Option ℕ)
  | 0, _, _, l => l
  | k + 1, i, p, l => moveOthers k (i + 1) (p + 1) (l.set i (l.getD p none))

/-- Result: `list_`, `numberOnList_`, and the value returned (`numberUnsatisfied_`). -/
structure SetOut where
  list : List (Option ℕ)
  onList : ℕ
  ret : ℤ
deriving DecidableEq, Repr

/-- The end of `setupList` (src/branch/OsiChooseStrongCustom.cpp:417-440); `srt` is `CoinSort_2`, which sorts
by the first component and leaves the order of ties open. -/
def setupEnd (srt : List (ℚ × ℕ) → List (ℚ × ℕ)) (n numStrong u : ℕ) (s : SetSt) : Res SetOut :=
  let c := onListOf s (min s.maxStrong s.putOther)
  if c = [] then .ok ⟨s.list, 0, u⟩
  else
    let l := writeFront s.list ((srt c).map (·.2))
    if c.length + (n - s.putOther) = u then
      .ok ⟨moveOthers (n - s.putOther) c.length s.putOther l, if numStrong = 0 then 0 else c.length, u⟩
    else .exit

/-- `setupList` (src/branch/OsiChooseStrongCustom.cpp:237-446) with values `score`. If an object is
infeasible, −1 is returned and the list has no entries. -/
def setupListWith (srt : List (ℚ × ℕ) → List (ℚ × ℕ)) (score : SObj → ℚ) (numStrong : ℕ) (objs : List SObj) :
    Res SetOut :=
  (setupLoop score 0 objs 0 (setupInit objs.length numStrong)).bind fun r =>
    match r with
    | none => .ok ⟨[], 0, -1⟩
    | some (s, u) => setupEnd srt objs.length numStrong u s

/-- `setupList` with method `m` (src/branch/OsiChooseStrongCustom.cpp:237-446). A negative `numberStrong_` runs the same
loops as 0. -/
def setupList (srt : List (ℚ × ℕ) → List (ℚ × ℕ)) (m trusted numStrong : ℤ) (objs : List SObj) : Res SetOut :=
  setupListWith srt (scoreOf m trusted objs) numStrong.toNat objs

/-! ## Method 7 -/

/-- An object as method 7 sees it: bounds of its column, value in the LP solution. -/
structure FObj where
  lo : ℚ
  hi : ℚ
  val : ℚ
deriving DecidableEq, Repr

/-- The value moved off the bounds (src/branch/OsiChooseStrongCustom.cpp:604-613). -/
def FObj.moved (o : FObj) : ℚ :=
  if o.val ≥ o.hi - 1 / 1000 then o.val - (o.hi - o.lo) / 2
  else if o.val ≤ o.lo + 1 / 1000 then o.val + (o.hi - o.lo) / 2
  else o.val

/-- The loop over the objects from `depth` on (src/branch/OsiChooseStrongCustom.cpp:599-620): index of the
object and new value. -/
def firstFree : ℕ → List FObj → Option (ℕ × ℚ)
  | _, [] => none
  | i, o :: os => if o.hi > o.lo then some (i, o.moved) else firstFree (i + 1) os

/-- What `chooseVariable` returns with method 7: return code, `bestObjectIndex_`, `bestWhichWay_`, and the
value of the column of that object. -/
structure Choice7 where
  code : ℤ
  obj : ℤ
  way : ℤ
  val : ℚ
deriving DecidableEq, Repr

/-- `chooseVariable` with method 7 (src/branch/OsiChooseStrongCustom.cpp:582-630). `optimal` and
`infeasible` are what the resolved copy answers, `feasible` the answer of `feasibleSolution`. -/
def choose7 (optimal infeasible feasible : Bool) (depth : ℕ) (objs : List FObj) : Res Choice7 :=
  if feasible then .ok ⟨1, -1, -1, 0⟩
  else if optimal && decide (depth < objs.length) then
    match firstFree depth (objs.drop depth) with
    | none => .exit
    | some (i, v) => .ok ⟨0, i, 0, v⟩
  else if infeasible then .ok ⟨if optimal then 0 else -1, -1, -1, 0⟩
  else .exit

end VPC
