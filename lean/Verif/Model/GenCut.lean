import Verif.Model.NBSpace

/-!
# The cut-generation loop: counters, cut limit, failure limit
(src/cut/CglVPC.cpp, src/cut/PRLP.cpp)

`int` counters are unbounded integers. Solving the point-ray LP is external: every call of `genCut`
takes the outcome of the solve as an input (`Solve`), so a theorem over all histories ranges over
all possible answers of the LP solver.
-/
namespace VPC

/-- `DisjExitReason`, include/common/Disjunction.hpp:18-25. -/
inductive DisjExit
  | SUCCESS | OPTIMAL_SOLUTION_FOUND | TOO_FEW_TERMS | NO_DISJUNCTION | UNKNOWN
deriving DecidableEq, Repr

/-- `CglVPC::ExitReason`, include/CglVPC.hpp:41-55. -/
inductive ExitReason
  | SUCCESS | CUT_LIMIT | FAIL_LIMIT | OPTIMAL_SOLUTION_FOUND | PRLP_INFEASIBLE
  | PRLP_NUMERICAL_ISSUES | PRLP_TIME_LIMIT | TIME_LIMIT | TOO_FEW_TERMS | NO_CUTS_LIKELY
  | NO_DISJUNCTION | UNKNOWN
deriving DecidableEq, Repr

/-- `matchStatus`, src/cut/CglVPC.cpp:36-47. -/
def matchStatus (s : DisjExit) : ExitReason :=
  if s = .SUCCESS then .SUCCESS
  else if s = .OPTIMAL_SOLUTION_FOUND then .OPTIMAL_SOLUTION_FOUND
  else if s = .TOO_FEW_TERMS then .TOO_FEW_TERMS
  else if s = .NO_DISJUNCTION then .NO_DISJUNCTION
  else .UNKNOWN

/-- `CglVPC::CutType`, include/CglVPC.hpp:71-77. -/
inductive CutType | ONE_SIDED_CUT | OPTIMALITY_CUT | VPC | GMIC
deriving DecidableEq, Repr

/-- `CglVPC::ObjectiveType`, include/CglVPC.hpp:80-95. -/
inductive ObjType
  | DUMMY_OBJ | ALL_ONES | CUT_VERTICES | ITER_BILINEAR | UNIT_VECTORS | DISJ_LB | TIGHT_POINTS
  | TIGHT_RAYS | TIGHT_POINTS2 | TIGHT_RAYS2 | USER | OBJ_CUT | ONE_SIDED
deriving DecidableEq, Repr

/-- `CglVPC::FailureType`, include/CglVPC.hpp:98-119. -/
inductive Fail
  | ABANDONED | BAD_DYNAMISM | BAD_SUPPORT | BAD_VIOLATION | CUT_LIMIT | DUAL_INFEASIBLE
  | DUPLICATE_SIC | DUPLICATE_VPC | ITERATION_LIMIT | ORTHOGONALITY_SIC | ORTHOGONALITY_VPC
  | PRIMAL_INFEASIBLE | TIME_LIMIT | NUMERICAL_ISSUES_WARNING | DLB_EQUALS_DUB_NO_OBJ
  | DLB_EQUALS_LPOPT_NO_OBJ | PRIMAL_INFEASIBLE_NO_OBJ | NUMERICAL_ISSUES_NO_OBJ | UNKNOWN
deriving DecidableEq, Repr

/-- All failure types, in the order of the enum. -/
def Fail.all : List Fail :=
  [.ABANDONED, .BAD_DYNAMISM, .BAD_SUPPORT, .BAD_VIOLATION, .CUT_LIMIT, .DUAL_INFEASIBLE,
   .DUPLICATE_SIC, .DUPLICATE_VPC, .ITERATION_LIMIT, .ORTHOGONALITY_SIC, .ORTHOGONALITY_VPC,
   .PRIMAL_INFEASIBLE, .TIME_LIMIT, .NUMERICAL_ISSUES_WARNING, .DLB_EQUALS_DUB_NO_OBJ,
   .DLB_EQUALS_LPOPT_NO_OBJ, .PRIMAL_INFEASIBLE_NO_OBJ, .NUMERICAL_ISSUES_NO_OBJ, .UNKNOWN]

/-- All objective types, in the order of the enum. -/
def ObjType.all : List ObjType :=
  [.DUMMY_OBJ, .ALL_ONES, .CUT_VERTICES, .ITER_BILINEAR, .UNIT_VECTORS, .DISJ_LB, .TIGHT_POINTS,
   .TIGHT_RAYS, .TIGHT_POINTS2, .TIGHT_RAYS2, .USER, .OBJ_CUT, .ONE_SIDED]

/-- A cut in `OsiCuts` with the `effectiveness` stored with it. -/
structure GCut where
  cut : RowCut
  eff : ℚ
deriving DecidableEq, Repr

/-- The members of `CglVPC` (include/CglVPC.hpp:184-225) that the loop reads and writes, together
with the `OsiCuts` argument. `perDisj` stands for `mode ∈ {DISJ_SET_PBB, SPLITS, CROSSES}`.
`currDisj` is `curr_disj_id`, which is also the `disjID` of the current `PRLP`
(src/cut/CglVPC.cpp:518, :541, :1484). -/
structure Gen where
  cutLimit : ℤ
  perDisj : Bool
  currDisj : ℤ
  canReplace : Bool
  repeatedUse : Bool
  initNumCuts : ℕ
  numCuts : ℕ
  numObj : ℕ
  numFailures : ℕ
  cuts : List GCut
  cutType : List CutType
  objType : List ObjType
  disjID : List ℤ
  numCutsOfType : CutType → ℤ
  numCutsFromHeur : ObjType → ℤ
  numObjFromHeur : ObjType → ℤ
  numFailsFromHeur : ObjType → ℤ
  numFails : Fail → ℤ
  userObjectives : List (List ℚ)

/-- `f[k]++` (or `--`) on one of the counter vectors. -/
def bump {κ : Type} [DecidableEq κ] (f : κ → ℤ) (k : κ) (d : ℤ) : κ → ℤ :=
  fun k' => if k' = k then f k' + d else f k'

/-- `getCutLimit(CUTLIMIT, numFracVar)`, src/cut/CglVPC.cpp:122-131. (`std::ceil` of an exact
integer; overflow of `int` is not modelled.) -/
def getCutLimit (CUTLIMIT : ℤ) (numFracVar : ℕ) : ℤ :=
  if CUTLIMIT = 0 then 0
  else if CUTLIMIT > 0 then CUTLIMIT
  else if numFracVar ≤ 0 then 0 else -1 * CUTLIMIT * numFracVar

/-- `reachedCutLimit(num_cuts, cut_limit)`, include/CglVPC.hpp:182-184. -/
def reachedLimit (num limit : ℤ) : Bool := num ≥ limit

/-- `reachedCutLimitForDisjunction`, src/cut/CglVPC.cpp:1576-1583: counts over
`disjID[0], ..., disjID[num_cuts-1]`. -/
def Gen.reachedForDisj (g : Gen) (d : ℤ) : Bool :=
  reachedLimit ((g.disjID.take g.numCuts).count d) g.cutLimit

/-- `reachedCutLimit(-1)`, src/cut/CglVPC.cpp:1590-1608. -/
def Gen.reachedCutLimit (g : Gen) : Bool :=
  if g.perDisj then g.reachedForDisj g.currDisj else reachedLimit g.numCuts g.cutLimit

/-- `addCut` after its violation check, src/cut/CglVPC.cpp:583-590. -/
def Gen.addCut (g : Gen) (c : GCut) (ty : CutType) (heur : ObjType) (disj : ℤ) : Gen :=
  { g with
    cuts := g.cuts ++ [c]
    cutType := g.cutType ++ [ty]
    numCutsOfType := bump g.numCutsOfType ty 1
    objType := g.objType ++ [heur]
    numCutsFromHeur := bump g.numCutsFromHeur heur 1
    disjID := g.disjID ++ [disj]
    numCuts := g.numCuts + 1 }

/-- What the LP solver reports (in the order the tests are made in `resolvePRLP`,
src/cut/PRLP.cpp:553-569): optimal with a solution; otherwise the first applicable status.
`other` includes proven primal infeasibility. -/
inductive Solve
  | optimal (sol : List ℚ)
  | dualInfeasible
  | iterationLimit
  | timeLimit
  | abandoned
  | other
deriving DecidableEq, Repr

/-- `isProvenOptimal()`. -/
def Solve.isOptimal : Solve → Bool
  | .optimal _ => true
  | _ => false

/-- Return code of `resolvePRLP`, src/cut/PRLP.cpp:553-569 (`none` = 0, `some f` = `-(f+1)`). -/
def resolvePRLP : Solve → Option Fail
  | .optimal _ => none
  | .dualInfeasible => some .DUAL_INFEASIBLE
  | .iterationLimit => some .ITERATION_LIMIT
  | .timeLimit => some .TIME_LIMIT
  | .abandoned => some .ABANDONED
  | .other => some .UNKNOWN

/-- `-1 * (FailureType + 1)` as returned by `cleanCut`. -/
def CleanFail.toFail : CleanFail → Fail
  | .badSupport => .BAD_SUPPORT
  | .badViolation => .BAD_VIOLATION
  | .badDynamism => .BAD_DYNAMISM

/-- Everything `genCutHelper` reads besides the counters: the LP data, the column map of the PRLP,
the right-hand side, the cleaning parameters, and the external `twoNorm` and
`getOrthogonality`. -/
structure GenEnv where
  lp : LP
  nbVar : List ℕ
  nz : List ℕ
  beta : ℚ
  EPS : ℚ
  MIN_ORTHO : ℚ
  clean : CleanParams
  solver : CutSolver
  norm : SVec → ℚ
  ortho : SVec → SVec → ℚ

/-- Return value of `genCutHelper`/`genCut`: `-(f+1)` or the number of cuts generated. -/
inductive Ret | fail (f : Fail) | num (n : ℕ)
deriving DecidableEq, Repr

/-- Overwrite the entry of cut `k` (position `k - startIndex` in the per-cut vectors),
src/cut/PRLP.cpp:713-727. An out-of-range position would be UB; `replace_in_range` below shows it
does not happen. -/
def Gen.replaceCut (g : Gen) (k start : ℕ) (c : GCut) (heur : ObjType) : Gen :=
  let pos := k - start
  { g with
    numCutsFromHeur := bump (bump g.numCutsFromHeur (g.objType.getD pos .DUMMY_OBJ) (-1)) heur 1
    numCutsOfType := bump (bump g.numCutsOfType (g.cutType.getD pos .VPC) (-1)) .VPC 1
    objType := g.objType.set pos heur
    cutType := g.cutType.set pos .VPC
    cuts := g.cuts.set k c }

/-- `genCutHelper`, src/cut/PRLP.cpp:638-759, nonbasic space, with `checkIfDuplicateSIC = false` and
`generateAnywayIfDuplicateSIC = true` (both hard-coded). Called only with an optimal solution. -/
def genCutHelper (e : GenEnv) (g : Gen) (sol : List ℚ) (heur : ObjType) : Gen × Ret :=
  if g.reachedCutLimit then (g, .fail .CUT_LIMIT)
  else
    let cc := cleanCut e.norm e.clean e.solver
      (setCutFromNBCoefficients e.lp e.nz sol e.beta e.nbVar e.EPS)
    match cc.2 with
    | some f => (g, .fail f.toFail)
    | none =>
      let cut := cc.1
      let eff := cut.violated e.solver.colSolution / e.norm cut.row
      let start := if g.canReplace then 0 else g.initNumCuts
      let dup := howDuplicate e.ortho (g.cuts.map (·.cut)) cut 0 e.MIN_ORTHO e.EPS
      let orthoFail := dup.dupIndex.isNone && decide (dup.minOrtho < e.MIN_ORTHO)
      match (if orthoFail then dup.minOrthoIndex.filter (fun k => start ≤ k) else none) with
      | some k =>
        let old := g.cuts.getD k ⟨⟨[], 0⟩, 0⟩
        if cut.row.length < old.cut.row.length || eff > old.eff then
          (g.replaceCut k start ⟨cut, eff⟩ heur, .num 0)
        else (g, .num 0)
      | none =>
        if dup.dupIndex.isNone && !orthoFail then
          (g.addCut ⟨cut, eff⟩ .VPC heur g.currDisj, .num 1)
        else if dup.dupIndex.isSome then (g, .fail .DUPLICATE_VPC)
        else (g, .fail .ORTHOGONALITY_VPC)

/-- `exitGenCut`, src/cut/PRLP.cpp:764-818; `none` = `exit(1)`. For a nonnegative status with a
solver that is not optimal the status is replaced by the solver's failure. (The re-mapping there
tests iteration limit, time limit, abandoned, dual infeasible, primal infeasible in this order;
`Solve` has one constructor per status so only the member matters.) -/
def exitGenCut (g : Gen) (s : Solve) (r : Ret) (heur : ObjType) : Option (Gen × Ret) :=
  let r' := match r with
    | .fail f => .fail f
    | .num n => match resolvePRLP s with
      | none => .num n
      | some f => .fail f
  if (match r with | .num n => decide (n > 0) | _ => false) && !s.isOptimal then none
  else
    let g := match r' with
      | .fail f => { g with numFails := bump g.numFails f 1 }
      | .num _ => g
    let g := match r' with
      | .num (_ + 1) => g
      | _ => { g with numFailures := g.numFailures + 1
                      numFailsFromHeur := bump g.numFailsFromHeur heur 1 }
    some (g, r')

/-- Same solution as before? src/cut/PRLP.cpp:606-618; `old` is empty when the solver was not
optimal before. -/
def sameSolution (EPS : ℚ) (sol : List ℚ) : Option (List ℚ) → Bool
  | none => false
  | some [] => false
  | some old => isZero ((List.zipWith (fun a b => |a - b|) sol old).foldl max 0) EPS

/-- `genCut`, src/cut/PRLP.cpp:577-636; `none` = `exit(1)`. `old` is the solution held by the LP
solver before the call (if it was optimal). -/
def genCut (e : GenEnv) (g : Gen) (old : Option (List ℚ)) (s : Solve) (heur : ObjType) :
    Option (Gen × Ret) :=
  let g := { g with numObj := g.numObj + 1, numObjFromHeur := bump g.numObjFromHeur heur 1 }
  if g.reachedCutLimit then exitGenCut g s (.fail .CUT_LIMIT) heur
  else match s with
    | .optimal sol =>
      if sameSolution e.EPS sol old then exitGenCut g s (.fail .DUPLICATE_VPC) heur
      else
        let h := genCutHelper e g sol heur
        exitGenCut h.1 s h.2 heur
    | .dualInfeasible => exitGenCut g s (.fail .DUAL_INFEASIBLE) heur
    | s => match resolvePRLP s with
      | some f => exitGenCut g s (.fail f) heur
      | none => exitGenCut g s (.num 0) heur

/-- One bound or inequality common to all terms, src/cut/CglVPC.cpp:881-916: nothing once the cut
limit is reached (the code then returns `CUT_LIMIT_EXIT`), otherwise `addCut` with
`check_violation`. -/
def rootCut (e : GenEnv) (g : Gen) (c : RowCut) : Gen :=
  if g.reachedCutLimit then g
  else if badViolation e.norm c e.solver.colSolution e.clean.MIN_VIOL_ABS e.clean.MIN_VIOL_REL then g
  else g.addCut ⟨c, 0⟩ .ONE_SIDED_CUT .ONE_SIDED g.currDisj

/-- Reasons entered in `numFails` outside `genCut`, i.e. without an objective having been tried
(src/cut/CglVPC.cpp:851, :1332, :1420, :1467, :1470; src/cut/PRLP.cpp:392, :398-410, :416). -/
inductive Note
  | numericalIssuesWarning | dlbEqualsLpOpt | dlbEqualsDub | primalInfeasibleNoObj
  | numericalIssuesNoObj | unknownNoObj
deriving DecidableEq, Repr

/-- The counter a `Note` increments. -/
def Note.toFail : Note → Fail
  | .numericalIssuesWarning => .NUMERICAL_ISSUES_WARNING
  | .dlbEqualsLpOpt => .DLB_EQUALS_LPOPT_NO_OBJ
  | .dlbEqualsDub => .DLB_EQUALS_DUB_NO_OBJ
  | .primalInfeasibleNoObj => .PRIMAL_INFEASIBLE_NO_OBJ
  | .numericalIssuesNoObj => .NUMERICAL_ISSUES_NO_OBJ
  | .unknownNoObj => .UNKNOWN

/-- What can happen to the counters between the start and the end of `generateCuts`. -/
inductive Op
  | note (n : Note)
  | rootCut (e : GenEnv) (c : RowCut)
  | nextDisj (d : ℤ)
  | tryObj (e : GenEnv) (old : Option (List ℚ)) (s : Solve) (heur : ObjType)

/-- `none` = `exit(1)`. Moving to the next disjunction is src/cut/CglVPC.cpp:517. -/
def Gen.step (g : Gen) : Op → Option Gen
  | .note n => some { g with numFails := bump g.numFails n.toFail 1 }
  | .rootCut e c => some (VPC.rootCut e g c)
  | .nextDisj d => some { g with currDisj := d }
  | .tryObj e old s heur => (genCut e g old s heur).map (·.1)

/-- A whole history. -/
def Gen.run (g : Gen) (ops : List Op) : Option Gen := ops.foldlM Gen.step g

/-- `setupAsNew`, src/cut/CglVPC.cpp:601-629. -/
def Gen.setupAsNew (g : Gen) : Gen :=
  { g with
    numCutsOfType := fun _ => 0
    numCutsFromHeur := fun _ => 0
    numObjFromHeur := fun _ => 0
    numFailsFromHeur := fun _ => 0
    numFails := fun _ => 0
    initNumCuts := 0
    numCuts := 0
    numObj := 0
    numFailures := 0
    canReplace := if g.repeatedUse then g.canReplace else false
    cutType := if g.repeatedUse then g.cutType else []
    objType := if g.repeatedUse then g.objType else []
    disjID := if g.repeatedUse then g.disjID else []
    userObjectives := [] }

/-- Outcome of the beginning of `generateCuts`. -/
inductive RoundStart
  | abort
  | early (g : Gen) (r : ExitReason)
  | go (g : Gen)

/-- `setupAsNew` and the adoption of the given cuts, src/cut/CglVPC.cpp:252-259. -/
def Gen.roundState (g : Gen) (given : List GCut) : Gen :=
  { g.setupAsNew with
    initNumCuts := given.length
    cuts := given
    cutType := if given.length = 0 then [] else g.setupAsNew.cutType
    objType := if given.length = 0 then [] else g.setupAsNew.objType
    disjID := if given.length = 0 then [] else g.setupAsNew.disjID }

/-- Beginning of `generateCuts`, src/cut/CglVPC.cpp:252-289, for the given cuts. `numFrac` is
`getFractionalIndices(AWAY).size()`, `numFrac0` the same with the default tolerance. The option
`GEN_TIKZ_STRING` is off. `cutLimit` on entry is the parameter `CUTLIMIT`; it is overwritten. -/
def Gen.startRound (g : Gen) (given : List GCut) (numFrac numFrac0 : ℕ) : RoundStart :=
  let g1 := { g.roundState given with cutLimit := getCutLimit g.cutLimit numFrac }
  if given.length ≠ 0 ∧ g1.canReplace = true ∧ g1.cutType.length ≠ given.length then .abort
  else if g1.reachedCutLimit then .early g1 (if numFrac0 > 0 then .CUT_LIMIT else .NO_DISJUNCTION)
  else .go g1

/-- `setUserObjectives`, src/cut/CglVPC.cpp:217-224. -/
def Gen.setUserObjectives (g : Gen) (objs : List (List ℚ)) : Gen :=
  { g with userObjectives := g.userObjectives ++ objs }

/-! ## The failure limit -/

/-- The binary64 values of the default thresholds `.95`, `.90`, `.80`
(include/CglVPC.hpp, declaration of `reachedFailureLimit`). -/
def thr95 : ℚ := 8556839292003942 / 2 ^ 53
/-- `.90` as a binary64 number. -/
def thr90 : ℚ := 8106479329266893 / 2 ^ 53
/-- `.80` as a binary64 number. -/
def thr80 : ℚ := 7205759403792794 / 2 ^ 53

/-- `MANY_CUTS`, src/cut/CglVPC.cpp:1658. -/
def manyCuts (L : ℤ) : ℤ := ⌈(1 / 4 : ℚ) * L⌉

/-- `NO_CUTS_OBJ_LIMIT`, src/cut/CglVPC.cpp:1657. -/
def noCutsObj (few : ℚ) : ℤ := ⌈1 / (1 - few)⌉

/-- `MANY_OBJ`, src/cut/CglVPC.cpp:1659-1663 (`int` overflow not modelled). -/
def manyObj (L : ℤ) (few many : ℚ) : ℤ := max ⌈1 / (1 - few)⌉ ⌈(manyCuts L : ℚ) / (1 - many)⌉

/-- The counting part of `reachedFailureLimit`, src/cut/CglVPC.cpp:1655-1674. Divisions are exact
instead of rounded. -/
def failRatioReached (L : ℤ) (cuts fails : ℕ) (few many obj : ℚ) : Bool :=
  let tried := cuts + fails
  let ratio : ℚ := (fails : ℚ) / tried
  if (tried : ℤ) ≥ manyObj L few many ∧ greaterThanVal ratio obj then true
  else if (cuts : ℤ) ≥ manyCuts L ∧ greaterThanVal ratio many then true
  else if cuts ≥ 1 ∧ greaterThanVal ratio few then true
  else if cuts < 1 ∧ (tried : ℤ) ≥ noCutsObj few then true
  else false

/-- `reachedFailureLimit`, src/cut/CglVPC.cpp:1638-1685. `time` is the total PRLP solve time. -/
def reachedFailureLimit (L : ℤ) (time PRLP_TIMELIMIT : ℚ) (cuts fails : ℕ)
    (few : ℚ := thr95) (many : ℚ := thr90) (obj : ℚ := thr80) : Bool :=
  if cuts + fails = 0 then false
  else
    failRatioReached L cuts fails few many obj
      || (decide ((cuts + fails : ℕ) ≥ manyObj L few many) && decide (time > 10)
          && decide (time / (cuts + fails : ℕ) ≥ PRLP_TIMELIMIT))

/-! ## The objective cut -/

/-- The objective cut added when the disjunction reports an integer-optimal solution,
src/cut/CglVPC.cpp:459-474. The coefficients kept are those with `!isVal(c, probData.EPS)`: the second
argument of `isVal` is the value compared with, so a coefficient is dropped iff it is within the
default tolerance of `EPS` (and not iff it is within `EPS` of 0). `offset` is `OsiObjOffset`. -/
def objectiveCut (numCols : ℕ) (obj : Vec) (EPS integerObj offset : ℚ) : RowCut :=
  { row := (List.range numCols).filterMap fun i =>
      if !(isVal (obj i) EPS) then some (i, obj i) else none
    lb := integerObj + offset }

end VPC
