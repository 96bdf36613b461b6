import Verif.Model.GenCut
import Verif.Model.Disj

/-!
# A call of `generateCuts` from start to finish, and the rounds of cuts of the main program
(src/cut/CglVPC.cpp:235-556, :1439-1571; src/main.cpp:462-839, :1218-1300)

What is external (clock, LP solver, preparation of disjunctions, Gomory cuts) comes from `GenWorld`
and `RoundWorld`; nothing is assumed about it.
-/
namespace VPC

/-- `VPCMode` (include/VPCParameters.hpp:198-205). -/
inductive Mode | PARTIAL_BB | SPLITS | CROSSES | CUSTOM | DISJ_SET_PBB
deriving DecidableEq, Repr

/-- Modes in which the cut limit is per disjunction (src/cut/CglVPC.cpp:1595-1603). -/
def Mode.perDisj (m : Mode) : Bool :=
  decide (m = .DISJ_SET_PBB) || decide (m = .SPLITS) || decide (m = .CROSSES)

/-- Parameters and members read by `generateCuts`: `MODE`, `DISJ_TERMS`, the parsed `DISJ_OPTIONS`,
`PRLP_FLIP_BETA > 0`, `PRLP_TIMELIMIT`, whether a disjunction (or set) was supplied by the caller, and
`num_rounds` as passed to the constructor (src/cut/CglVPC.cpp:143-146). -/
structure GenCfg where
  mode : Mode
  disjTerms : ℤ
  disjOptions : List ℤ
  flipBeta : Bool
  prlpTimeLimit : ℚ
  hasDisj : Bool
  roundInd : ℕ

/-- Outside world of one call of `tryObjectives`. `prlp` is the result of `PRLP::setup`, `ops` what
`targetStrongAndDifferentCuts` does, `time` the total PRLP solve time at the end. -/
structure TryWorld where
  timeUp : Bool
  lpNotCut : Bool
  dlbEqDub : Bool
  prlp : ExitReason
  ops : List Op
  timeUpEnd : Bool
  time : ℚ

/-- Outside world for one disjunction: is the time limit reached, what `setupConstraints` does and
returns, what `tryObjectives` sees. -/
structure DisjWorld where
  timeUp : Bool
  setupOps : List Op
  setup : ExitReason
  tryW : TryWorld

/-- Outside world of one call of `generateCuts`. -/
structure GenWorld where
  timeUp : Bool
  numFrac : ℕ
  numFrac0 : ℕ
  numSplits : ℕ
  optimal : Bool
  prep : DisjExit
  objCut : GCut
  objDisj : ℤ
  initOps : List Op
  init : ExitReason
  disj : ℕ → DisjWorld

/-- Result of `generateCuts`: the generator (with the cuts), the reported exit reason, the
disjunctions the caller can see afterwards (`none`: `disj()` and `disjSet()` are NULL) and the round
number the disjunctions were given. -/
structure GenOut where
  gen : Gen
  reason : ExitReason
  disjs : Option ℕ
  disjRound : ℕ

/-- Histories that cannot be continued end the process. -/
def runRes (g : Gen) (ops : List Op) : Res Gen :=
  match g.run ops with
  | some g' => .ok g'
  | none => .exit

/-- The two notes at the beginning of `tryObjectives`, src/cut/CglVPC.cpp:1466-1471. -/
def tryNotes (w : TryWorld) : List Op :=
  (if w.lpNotCut then [.note .dlbEqualsLpOpt] else []) ++
  (if w.dlbEqDub then [.note .dlbEqualsDub] else [])

/-- Status after the objectives have been tried, src/cut/CglVPC.cpp:1537-1545. -/
def tryStatus (c : GenCfg) (w : TryWorld) (g0 g : Gen) : ExitReason :=
  if w.timeUpEnd then .TIME_LIMIT
  else if g.reachedCutLimit then .CUT_LIMIT
  else if reachedFailureLimit g.cutLimit w.time c.prlpTimeLimit (g.numCuts - g0.numCuts)
      (g.numFailures - g0.numFailures) then .FAIL_LIMIT
  else .SUCCESS

/-- The part of `tryObjectives` that uses the PRLP, src/cut/CglVPC.cpp:1484-1546. (The user objectives
were discarded by `setupAsNew`, see C49.) -/
def tryPRLP (c : GenCfg) (w : TryWorld) (g : Gen) : Res (Gen × ExitReason) :=
  if w.lpNotCut && w.dlbEqDub then .ok (g, .UNKNOWN)
  else if w.prlp = .SUCCESS then
    (runRes g w.ops).bind fun g' => .ok (g', tryStatus c w g g')
  else .ok (g, w.prlp)

/-- `tryObjectives`, src/cut/CglVPC.cpp:1439-1571. The final consistency check
(`tried_eq_cuts_plus_failures`) cannot fail and is omitted. -/
def tryObjectives (c : GenCfg) (w : TryWorld) (g : Gen) : Res (Gen × ExitReason) :=
  if w.timeUp then .ok (g, .TIME_LIMIT)
  else if g.reachedCutLimit then .ok (g, .CUT_LIMIT)
  else (runRes g (tryNotes w)).bind fun g =>
    if w.lpNotCut && w.dlbEqDub && !c.flipBeta then .ok (g, .NO_CUTS_LIKELY)
    else (tryPRLP c w g).bind fun r => if c.flipBeta then .exit else .ok r

/-- Choice of the disjunction(s), src/cut/CglVPC.cpp:289-370. `.ok none` is `finish` with
`NO_DISJUNCTION_EXIT`; otherwise the mode used from now on and the number of disjunctions. In mode
`DISJ_SET_PBB` an option below 2 is erased from the vector that is being iterated over, which is
undefined behaviour. -/
def chooseDisj (c : GenCfg) (w : GenWorld) : Res (Option (Mode × ℕ)) :=
  if c.hasDisj then .ok (some (.CUSTOM, 1))
  else match c.mode with
    | .CUSTOM => .exit
    | .PARTIAL_BB => if c.disjTerms < 2 then .ok none else .ok (some (.PARTIAL_BB, 1))
    | .DISJ_SET_PBB =>
      if c.disjOptions.any (fun t => decide (t < 2)) then .undef
      else .ok (some (.DISJ_SET_PBB, c.disjOptions.length))
    | .SPLITS => .ok (some (.SPLITS, w.numSplits))
    | .CROSSES => .exit

/-- Status of preparing the disjunction(s), src/cut/CglVPC.cpp:406-428. An empty set reports `UNKNOWN`
(src/disjunction/Disjunction.cpp:438-451). -/
def prepStatus (w : GenWorld) (m : Mode) (n : ℕ) : ExitReason :=
  if m.perDisj && n == 0 then matchStatus .UNKNOWN else matchStatus w.prep

/-- The objective cut of an integer-optimal disjunction, src/cut/CglVPC.cpp:458-477. -/
def addObjCut (w : GenWorld) (m : Mode) (g : Gen) : Gen :=
  let d : ℤ := if m.perDisj then w.objDisj else 0
  { g with currDisj := d }.addCut w.objCut .OPTIMALITY_CUT .OBJ_CUT d

/-- One pass of the loop over disjunctions, src/cut/CglVPC.cpp:517-553; `true` means `break`. -/
def disjPass (c : GenCfg) (w : DisjWorld) (d : ℕ) (g : Gen) : Res (Gen × ExitReason × Bool) :=
  let g := { g with currDisj := (d : ℤ) }
  if w.timeUp then .ok (g, .TIME_LIMIT, true)
  else if g.reachedCutLimit then .ok (g, .CUT_LIMIT, true)
  else (runRes g w.setupOps).bind fun g =>
    if w.setup ≠ .SUCCESS then .ok (g, w.setup, true)
    else (tryObjectives c w.tryW g).bind fun r => .ok (r.1, r.2, false)

/-- The loop over disjunctions: `k` remain, `d` is the next one. -/
def disjLoop (c : GenCfg) (w : ℕ → DisjWorld) : ℕ → ℕ → Gen → ExitReason → Res (Gen × ExitReason)
  | 0, _, g, r => .ok (g, r)
  | k + 1, d, g, _ => (disjPass c (w d) d g).bind fun p =>
    if p.2.2 then .ok (p.1, p.2.1) else disjLoop c w k (d + 1) p.1 p.2.1

/-- The part of `generateCuts` after the disjunctions have been prepared, src/cut/CglVPC.cpp:485-555:
with a supplied disjunction the mode is `CUSTOM`, for which there is no case. -/
def cutsFromDisj (c : GenCfg) (w : GenWorld) (m : Mode) (n : ℕ) (g : Gen) : Res (Gen × ExitReason) :=
  if m = .CUSTOM then .exit
  else (runRes { g with currDisj := 0 } w.initOps).bind fun g =>
    if w.init ≠ .SUCCESS then .ok (g, w.init)
    else disjLoop c w.disj n 0 g w.init

/-- From the preparation of the disjunctions to the end, src/cut/CglVPC.cpp:405-555. -/
def prepareAndCut (c : GenCfg) (w : GenWorld) (m : Mode) (n : ℕ) (g : Gen) : Res (Gen × ExitReason) :=
  if m = .CUSTOM then cutsFromDisj c w m n g
  else
    let st := prepStatus w m n
    let g := if st = .OPTIMAL_SOLUTION_FOUND then addObjCut w m g else g
    if st ≠ .SUCCESS then .ok (g, st) else cutsFromDisj c w m n g

/-- From the choice of the disjunction to the end, src/cut/CglVPC.cpp:291-555. By now `num_rounds` has
been reset unless the generator is set up for repeated use (`setupAsNew`,
src/cut/CglVPC.cpp:620-626). -/
def disjAndCut (c : GenCfg) (w : GenWorld) (g : Gen) : Res GenOut :=
  (chooseDisj c w).bind fun ch => match ch with
    | none => .ok ⟨g, .NO_DISJUNCTION, none, 0⟩
    | some (m, n) =>
      if !w.optimal then .exit
      else (prepareAndCut c w m n g).bind fun r =>
        .ok ⟨r.1, r.2, some n, if g.repeatedUse then c.roundInd else 0⟩

/-- `generateCuts`, src/cut/CglVPC.cpp:235-556, applied to the collection `given`. -/
def generateCuts (c : GenCfg) (w : GenWorld) (g : Gen) (given : List GCut) : Res GenOut :=
  let g := { g with perDisj := c.mode.perDisj, cuts := given }
  let had : Option ℕ := if c.hasDisj then some 1 else none
  if c.mode ≠ .DISJ_SET_PBB ∧ c.disjTerms = 0 then .ok ⟨g, .NO_DISJUNCTION, had, 0⟩
  else if w.timeUp then .ok ⟨g, .TIME_LIMIT, had, 0⟩
  else match g.startRound given w.numFrac w.numFrac0 with
    | .abort => .exit
    | .early g r => .ok ⟨g, r, had, 0⟩
    | .go g => disjAndCut c w g

/-- A generator as constructed from parameters (`initialize`, src/cut/CglVPC.cpp:636-688). -/
def Gen.fresh (CUTLIMIT : ℤ) : Gen where
  cutLimit := CUTLIMIT
  perDisj := false
  currDisj := 0
  canReplace := false
  repeatedUse := false
  initNumCuts := 0
  numCuts := 0
  numObj := 0
  numFailures := 0
  cuts := []
  cutType := []
  objType := []
  disjID := []
  numCutsOfType := fun _ => 0
  numCutsFromHeur := fun _ => 0
  numObjFromHeur := fun _ => 0
  numFailsFromHeur := fun _ => 0
  numFails := fun _ => 0
  userObjectives := []

/-! ## Rounds of cuts (src/main.cpp) -/

/-- Parameters of the main program that matter here. `disjOptions` is what `parseDisjOptions`
produced (src/main.cpp:372-375). -/
structure MainCfg where
  gomory : ℤ
  mode : Mode
  disjOptions : List ℤ
  cutLimit : ℤ
  flipBeta : Bool
  prlpTimeLimit : ℚ

/-- Outside world of one round: cuts found by `CglGMI`, the call of `generateCuts` (in `CUSTOM` mode
one call per disjunction), `best_obj` and `worst_obj` of each disjunction, whether the total time limit
is reached, `isProvenOptimal` and `isInfinity(|obj|)` after the cuts were applied. -/
structure RoundWorld where
  gmics : List GCut
  gen : ℕ → GenWorld
  objs : ℕ → ℚ × ℚ
  timeUp : Bool
  optimal : Bool
  objInfinite : Bool

/-- `boundInfoVec[round]` as far as it is kept here. -/
structure RoundInfo where
  numVpc : ℤ := 0
  numGmic : ℕ := 0
  best : ℚ := -dblMax
  worst : ℚ := -dblMax
deriving DecidableEq, Repr

/-- `boundInfo`, `boundInfoVec`, `exitReason`, `vpcs`, `vpcs_by_round`, `gmics` and the parameter
`DISJ_TERMS`. -/
structure MainState where
  disjTerms : ℤ
  reason : ExitReason := .UNKNOWN
  numVpc : ℤ := 0
  numGmic : ℕ := 0
  best : ℚ := -dblMax
  worst : ℚ := -dblMax
  vpcs : List GCut := []
  byRound : List (List GCut) := []
  gmics : List GCut := []
  infos : List RoundInfo := []

/-- `if (a < b) a = b` (src/main.cpp:582-593). -/
def runMax (a b : ℚ) : ℚ := if a < b then b else a

/-- What cut generation contributes in one round: exit reason, cuts of the round, increments of
`boundInfo.num_vpc` and of `boundInfoVec[round].num_vpc`, and the objective values of the disjunctions seen,
for `boundInfo` and for `boundInfoVec[round]`. -/
structure VpcPart where
  reason : ExitReason
  cuts : List GCut
  dTotal : ℤ
  dRound : ℤ
  objs : List (ℚ × ℚ)
  objsRound : List (ℚ × ℚ)

/-- The objective values of the first `n` disjunctions. -/
def firstObjs (w : RoundWorld) (n : ℕ) : List (ℚ × ℚ) := (List.range n).map w.objs

/-- Configuration of the generator of a round, src/main.cpp:553. -/
def MainCfg.toGen (c : MainCfg) (terms : ℤ) (hasDisj : Bool) (round : ℕ) : GenCfg :=
  { mode := c.mode, disjTerms := terms, disjOptions := c.disjOptions, flipBeta := c.flipBeta
    prlpTimeLimit := c.prlpTimeLimit, hasDisj := hasDisj, roundInd := round }

/-- Generation in a mode other than `CUSTOM`, src/main.cpp:564-612. The counter is increased only
if there is a disjunction. -/
def plainRound (c : MainCfg) (w : RoundWorld) (terms : ℤ) (round : ℕ) : Res VpcPart :=
  (generateCuts (c.toGen terms false round) (w.gen 0) (Gen.fresh c.cutLimit) []).bind fun o =>
    match o.disjs with
    | none => .ok ⟨o.reason, o.gen.cuts, 0, 0, [], []⟩
    | some n => .ok ⟨o.reason, o.gen.cuts, o.gen.numCuts, o.gen.numCuts, firstObjs w n, firstObjs w n⟩

/-- The loop over the disjunctions in `doCustomRoundOfCuts`, src/main.cpp:1269-1287: `k` remain, `d` is
the next one. -/
def customLoop (c : MainCfg) (w : RoundWorld) (terms : ℤ) (round : ℕ) (limit : ℤ) :
    ℕ → ℕ → Gen → VpcPart → Res VpcPart
  | 0, _, _, p => .ok p
  | k + 1, d, g, p =>
    (generateCuts (c.toGen terms true round) (w.gen d) { g with cutLimit := limit } p.cuts).bind
      fun o => customLoop c w terms round limit k (d + 1) o.gen
        ⟨o.reason, o.gen.cuts, p.dTotal + o.gen.numCuts, p.dRound, p.objs ++ [w.objs d], p.objsRound⟩

/-- `doCustomRoundOfCuts`, src/main.cpp:1218-1303. `setDisjunctions` with mode `SPLITS` reports either
success with at least one disjunction or `NO_DISJUNCTION_EXIT` (src/test/DisjunctionHelper.cpp:35-41), so
the branches for an integer-optimal solution and for an unknown reason are not reached. The quotient of
two `int`s is truncated before `std::ceil`. -/
def customRound (c : MainCfg) (w : RoundWorld) (terms : ℤ) (round : ℕ) (reason : ExitReason) :
    Res VpcPart :=
  let n := (w.gen 0).numSplits
  if n = 0 then .ok ⟨.NO_DISJUNCTION, [], 0, 0, [], []⟩
  else
    customLoop c w terms round ((getCutLimit c.cutLimit (w.gen 0).numFrac0).tdiv n) n 0
      { Gen.fresh c.cutLimit with repeatedUse := true } ⟨reason, [], 0, 0, [], []⟩

/-- Gomory cuts of the round, src/main.cpp:486-509. -/
def roundGmics (c : MainCfg) (w : RoundWorld) : List GCut :=
  if c.gomory = -1 ∨ c.gomory = 1 then w.gmics else []

/-- `DISJ_TERMS` used in this round, src/main.cpp:542-545. -/
def roundTerms (c : MainCfg) (round : ℕ) (old : ℤ) : ℤ :=
  if c.mode ≠ .DISJ_SET_PBB ∧ c.disjOptions.length > round then c.disjOptions.getD round old else old

/-- `SHOULD_GENERATE_VPCS`, src/main.cpp:546. -/
def shouldGenerate (c : MainCfg) (terms : ℤ) : Bool :=
  decide (terms ≠ 0) || decide (c.disjOptions.length > 0)

/-- Cut generation of a round, src/main.cpp:550-650. -/
def vpcPart (c : MainCfg) (w : RoundWorld) (terms : ℤ) (round : ℕ) (reason : ExitReason) :
    Res VpcPart :=
  if shouldGenerate c terms then
    if c.mode = .CUSTOM then customRound c w terms round reason else plainRound c w terms round
  else .ok ⟨reason, [], 0, 0, [], []⟩

/-- Leave the loop? src/main.cpp:821-835. -/
def stopRounds (c : MainCfg) (w : RoundWorld) (terms : ℤ) (p : VpcPart) : Bool :=
  w.timeUp
  || (shouldGenerate c terms && p.cuts.length == 0)
  || (!(shouldGenerate c terms) && (roundGmics c w).length == 0)
  || !w.optimal || w.objInfinite || p.reason = .OPTIMAL_SOLUTION_FOUND

/-- The bookkeeping of one round, src/main.cpp:464-707. -/
def recordRound (c : MainCfg) (w : RoundWorld) (s : MainState) (terms : ℤ) (p : VpcPart) : MainState :=
  { disjTerms := terms
    reason := p.reason
    numVpc := s.numVpc + p.dTotal
    numGmic := s.numGmic + (roundGmics c w).length
    best := (p.objs.map (·.1)).foldl runMax s.best
    worst := (p.objs.map (·.2)).foldl runMax s.worst
    vpcs := s.vpcs ++ p.cuts
    byRound := s.byRound ++ [p.cuts]
    gmics := s.gmics ++ roundGmics c w
    infos := s.infos ++ [
      { numVpc := p.dRound
        numGmic := (roundGmics c w).length
        best := (p.objsRound.map (·.1)).foldl runMax (-dblMax)
        worst := (p.objsRound.map (·.2)).foldl runMax (-dblMax) }] }

/-- The loop over rounds, src/main.cpp:464-836: `k` rounds remain. Returns the state and
`round_ind` when the loop ends. -/
def roundsLoop (c : MainCfg) (w : ℕ → RoundWorld) : ℕ → ℕ → MainState → Res (MainState × ℕ)
  | 0, r, s => .ok (s, r)
  | k + 1, r, s =>
    let terms := roundTerms c r s.disjTerms
    (vpcPart c (w r) terms r s.reason).bind fun p =>
      if stopRounds c (w r) terms p then .ok (recordRound c (w r) s terms p, r)
      else roundsLoop c w k (r + 1) (recordRound c (w r) s terms p)

/-- All rounds, src/main.cpp:462-839: the final state and the value of `num_rounds` that is reported. -/
def mainRounds (c : MainCfg) (w : ℕ → RoundWorld) (ROUNDS : ℕ) (disjTerms : ℤ) :
    Res (MainState × ℕ) :=
  (roundsLoop c w ROUNDS 0 { disjTerms := disjTerms }).bind fun p =>
    .ok (p.1, if p.2 < ROUNDS then p.2 + 1 else ROUNDS)

end VPC
