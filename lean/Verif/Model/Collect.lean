import Verif.Model.PRLP
import Verif.Model.Disj
import Verif.Model.Clean

/-!
# From the disjunction to the point-ray collection (src/cut/CglVPC.cpp:867-1437)

`initializeSolverWithRootChanges`, `setupConstraints` and `genDepth1PRCollection`. The LP solver is
external: it is asked for the LP that is actually in it (`Relax`) and answers with a basis or a
status; nothing is assumed about the answers here.
-/
namespace VPC

/-- Tolerances and external numerical functions: `CoinPackedVector::sortDecrElement`, the exponent of
src/utility/nbspace.cpp:275-277, parameters EPS, RAYEPS, DIFFEPS. -/
structure NumEnv where
  sortDecr : SVec → SVec
  expo : ℚ → ℤ
  EPS : ℚ
  RAYEPS : ℚ
  DIFFEPS : ℚ

/-- The nonbasic space fixed by the optimal basis of `vpcsolver` (`probData`, src/cut/CglVPC.cpp:977):
the LP, its solution and value, `NBVarIndex`, the at-upper-bound test `isNonBasicUBVar` and
`NBReducedCost`. -/
structure NBData where
  lp : LP
  sol : Vec
  obj : ℚ
  nb : List ℕ
  isUB : ℕ → Bool
  rc : Vec

/-- What is read from an optimal term solver: solution, value, `NBVarIndex`, the row in which a
variable is basic (`rowOfOrigNBVar`, see C40), status tests, tableau columns `getBInvACol`, and the
objective slope of the ray of a nonbasic variable (reduced cost or row price,
src/utility/nbspace.cpp:220-225). -/
structure TermSol where
  x : Vec
  obj : ℚ
  nb : List ℕ
  row : ℕ → Option ℕ
  isUB : ℕ → Bool
  isLB : ℕ → Bool
  isFixed : ℕ → Bool
  tab : ℕ → Vec
  rayObj : ℕ → ℚ

/-- Objective of a packed vector in the nonbasic space. -/
def dotRC (rc : Vec) (v : SVec) : ℚ := (v.map fun e => e.2 * rc e.1).sum

/-- The ratio of the calculated and the reported objective value of a point,
src/utility/nbspace.cpp:153-172. -/
def pointRatio (EPS got viol : ℚ) : ℚ :=
  if (lessThanVal got 0 EPS && greaterThanVal viol 0 EPS) ||
      (lessThanVal viol 0 EPS && greaterThanVal got 0 EPS) then 10 ^ 100
  else if isZero got EPS && isZero viol EPS then 1
  else if isZero got EPS || isZero viol EPS then 1 + |got - viol|
  else if got / viol < 1 then viol / got else got / viol

/-- Does the consistency check of a point terminate the process?
src/utility/nbspace.cpp:147-187. -/
def pointCheckExits (E : NumEnv) (got viol : ℚ) : Bool :=
  if isVal (got - viol) 0 E.EPS then false
  else !(isVal (got - viol) 0 E.DIFFEPS) && greaterThanVal (pointRatio E.EPS got viol) (103 / 100)

/-- The vertex of a term in the nonbasic space, src/cut/CglVPC.cpp:1309-1347 with
src/utility/nbspace.cpp:21-189. The two checks at src/cut/CglVPC.cpp:1320-1344 compare the objective
difference with itself and are left out. -/
def collectPoint (E : NumEnv) (o : NBData) (s : TermSol) : Res (SVec × ℚ) :=
  let viol := s.obj - o.obj
  let v := setCompNBCoorPoint E.sortDecr E.EPS viol o.lp o.sol s.x o.nb o.rc
  if pointCheckExits E (dotRC o.rc v) viol then .exit else .ok (v, viol)

/-- All components of the ray of nonbasic variable `j`, src/utility/nbspace.cpp:244-297. -/
def rayVals (o : NBData) (s : TermSol) (j : ℕ) : List ℚ :=
  o.nb.map fun k => rayCoor j k (s.isUB j) (o.isUB k) (s.row k) (genRay (s.isLB j) (s.tab j))

/-- Do the consistency checks made while a ray is computed terminate the process?
src/utility/nbspace.cpp:379-409. -/
def rayCheckExits (E : NumEnv) (got viol : ℚ) : Bool :=
  (lessThanVal got 0 E.EPS && lessThanVal got 0 E.DIFFEPS) ||
  (!(isVal got viol E.EPS) && !(isVal got viol E.DIFFEPS))

/-- Do the checks of a nonempty ray before it is stored terminate the process?
src/cut/CglVPC.cpp:1402-1433. -/
def rayStoreExits (E : NumEnv) (got viol : ℚ) : Bool :=
  !(isVal viol got E.DIFFEPS) || (lessThanVal got 0 E.EPS && lessThanVal got 0 E.DIFFEPS)

/-- One ray, src/cut/CglVPC.cpp:1381-1434: an empty ray is skipped. Warnings are not counted here. The
slope recomputed in nbspace.cpp (`nonTinyObj`, before scaling) is taken to be the one recomputed in
CglVPC.cpp:1402-1410 from the packed ray. -/
def collectRay (E : NumEnv) (o : NBData) (s : TermSol) (j : ℕ) : Res (Option (SVec × ℚ)) :=
  let p := packRay E.sortDecr E.expo E.EPS E.RAYEPS (s.rayObj j) o.rc (rayVals o s j)
  if rayCheckExits E (dotRC o.rc p.1 / p.2) (s.rayObj j) then .exit
  else if p.1 = [] then .ok none
  else if rayStoreExits E (dotRC o.rc p.1 / p.2) (s.rayObj j) then .exit
  else .ok (some (p.1, s.rayObj j))

/-- The loop over nonbasic variables, src/cut/CglVPC.cpp:1378-1436: fixed variables are skipped. -/
def collectRays (E : NumEnv) (o : NBData) (s : TermSol) : List ℕ → Res (List (SVec × ℚ))
  | [] => .ok []
  | j :: js =>
    if s.isFixed j then collectRays E o s js
    else (collectRay E o s j).bind fun r => (collectRays E o s js).bind fun rs => .ok (r.toList ++ rs)

/-- `genDepth1PRCollection`, src/cut/CglVPC.cpp:1295-1437 (the rows themselves are made by
`termRows`). -/
def genDepth1 (E : NumEnv) (o : NBData) (s : TermSol) : Res TermOutcome :=
  (collectPoint E o s).bind fun p => (collectRays E o s s.nb).bind fun rs =>
  .ok (.collected p.1 p.2 rs)

/-! ## Terms -/

/-- Answer of a solve followed by `checkSolverOptimality(termSolver, true)`. -/
inductive LPAns
  | notOptimal
  | dualInfeasible
  | optimal (s : TermSol)

/-- `checkSolverOptimality(termSolver, true)` (see C56): dual infeasibility ends the process. -/
def LPAns.check : LPAns → Res (Option TermSol)
  | .dualInfeasible => .exit
  | .notOptimal => .ok none
  | .optimal s => .ok (some s)

/-- Outside world of one term: is the warm start accepted, the answers of the solver to the LP given
to it (before and after Gomory cuts are added), the cuts `CglGMI` finds for the term, whether the time
limit is reached. -/
structure TermWorld where
  warmOk : Bool
  solve : Relax → LPAns
  gmics : Relax → List RowCut
  solve2 : Relax → LPAns
  timeUp : Bool

/-- The LP of a term: its changed bounds and inequalities on top of `vpcsolver`,
src/cut/CglVPC.cpp:1094-1122. -/
def termLP (V : Relax) (t : Term) : Res Relax :=
  (applyChanges true t.changes V).bind fun Q => .ok (applyIneqs t.ineqs Q)

/-- The ratio of the new and the saved objective value, src/cut/CglVPC.cpp:1149-1163 (also :941-955). -/
def savedRatio (EPS new saved : ℚ) : ℚ :=
  if isZero new EPS && isZero saved EPS then 1
  else if isZero new EPS || isZero saved EPS then 1 + |new - saved|
  else if new / saved < 1 then 1 / (new / saved) else new / saved

/-- Does the comparison with the saved objective value end the process?
src/cut/CglVPC.cpp:1139-1186. The second `resolve` does not change `newval`. -/
def savedObjExits (DIFFEPS saved new : ℚ) : Bool :=
  if isInfinity saved then false
  else if isVal new saved DIFFEPS then false
  else greaterThanVal (savedRatio DIFFEPS new saved) (103 / 100)

/-- Possible strengthening of a term by Gomory cuts, src/cut/CglVPC.cpp:1188-1197
(`strengthen` is `STRENGTHEN == 3`). -/
def strengthenTerm (strengthen : Bool) (w : TermWorld) (Q : Relax) (s : TermSol) : Res (Option TermSol) :=
  if strengthen then (w.solve2 (applyIneqs (w.gmics Q) Q)).check else .ok (some s)

/-- Collection for a solved term, src/cut/CglVPC.cpp:1198-1222: the objective value is reported even if
the collection is skipped for lack of time. -/
def finishTerm (E : NumEnv) (o : NBData) (w : TermWorld) (t : Term) :
    Option TermSol → Res (Option ℚ × Term × TermOutcome)
  | none => .ok (none, { t with feasible := false }, .notOptimal)
  | some s =>
    if w.timeUp then .ok (some s.obj, t, .timeLimit)
    else (genDepth1 E o s).bind fun oc => .ok (some s.obj, t, oc)

/-- One pass of the loop over terms, src/cut/CglVPC.cpp:1087-1226. -/
def doTerm (E : NumEnv) (o : NBData) (strengthen : Bool) (V : Relax) (w : TermWorld) (t : Term) :
    Res (Option ℚ × Term × TermOutcome) :=
  if !t.feasible then .ok (none, t, .infeasible)
  else (termLP V t).bind fun Q =>
    if !w.warmOk then .exit
    else (w.solve Q).check.bind fun a => match a with
      | none => finishTerm E o w t none
      | some s =>
        if savedObjExits E.DIFFEPS t.obj s.obj then .exit
        else (strengthenTerm strengthen w Q s).bind (finishTerm E o w t)

/-- The loop over terms, src/cut/CglVPC.cpp:1086-1226; `k` is the number of the next term. -/
def doTerms (E : NumEnv) (o : NBData) (strengthen : Bool) (V : Relax) (w : ℕ → TermWorld) :
    ℕ → List Term → Res (List ℚ × List Term × List TermOutcome)
  | _, [] => .ok ([], [], [])
  | k, t :: ts => (doTerm E o strengthen V (w k) t).bind fun r =>
    (doTerms E o strengthen V w (k + 1) ts).bind fun rs =>
    .ok (r.1.toList ++ rs.1, r.2.1 :: rs.2.1, r.2.2 :: rs.2.2)

/-- The row for the integer solution stored with the disjunction, src/cut/CglVPC.cpp:1046-1082 with
src/utility/nbspace.cpp:420-589. `cost` is the objective function of `vpcsolver`, `offset` its constant.
Also the objective value reported to the disjunction. -/
def collectInt (E : NumEnv) (o : NBData) (cost : Vec) (offset : ℚ) (sol : List ℚ) :
    Res (Option (SVec × ℚ) × List ℚ) :=
  if sol = [] then .ok (none, [])
  else
    let x : Vec := fun i => sol.getD i 0
    let dot : Vec → ℚ := fun y => ((List.range o.lp.numCols).map fun i => cost i * y i).sum
    let viol := dot x - dot o.sol
    let v := packCoor E.sortDecr E.EPS viol o.rc (o.nb.map (compCoor o.lp o.sol x))
    if !(isVal (dotRC o.rc v) viol E.EPS) && !(isVal (dotRC o.rc v) viol E.DIFFEPS) then .exit
    else .ok (some (v, viol), [dot x - offset])

/-- `setupConstraints`, src/cut/CglVPC.cpp:1026-1288: the rows of the point-ray LP and the disjunction
with updated feasibility flags and objective values. `flip` is `PRLP_FLIP_BETA < 0`. -/
def setupAll (E : NumEnv) (o : NBData) (strengthen flip : Bool) (cost : Vec) (offset : ℚ) (V : Relax)
    (w : ℕ → TermWorld) (D : Disj) : Res (List PRow × Disj) :=
  (collectInt E o cost offset D.intSol).bind fun p =>
  (doTerms E o strengthen V w 0 D.terms).bind fun r =>
  .ok (setupConstraints flip p.1 r.2.2,
    (p.2 ++ r.1).foldl Disj.updateObj { D with terms := r.2.1 })

/-! ## Changes at the root -/

/-- The one-sided cut for a bound changed at the root, src/cut/CglVPC.cpp:893-898. -/
def rootCutOf (c : BChange) : RowCut :=
  let mult : ℚ := if c.bound ≤ 0 then 1 else -1
  ⟨[(c.var, mult * 1)], mult * c.value⟩

/-- State while the root changes are made: the solver's constraints and the cuts added. -/
structure RootSt where
  V : Relax
  cuts : List RowCut
deriving DecidableEq, Repr

/-- The loop over changed bounds, src/cut/CglVPC.cpp:880-905. `limit n` is `reachedCutLimit()` after `n`
cuts have been added, `bad c` is `badViolation` of the cut for the solution the solver returns
(`addCut`, src/cut/CglVPC.cpp:576-582). The Boolean tells whether the cut limit was reached. -/
def rootBounds (limit : ℕ → Bool) (bad : RowCut → Bool) : List BChange → RootSt → Res (Bool × RootSt)
  | [], s => .ok (false, s)
  | c :: cs, s =>
    if limit s.cuts.length then .ok (true, s)
    else (applyChange true s.V c).bind fun V =>
      rootBounds limit bad cs ⟨V, if bad (rootCutOf c) then s.cuts else s.cuts ++ [rootCutOf c]⟩

/-- The loop over common inequalities, src/cut/CglVPC.cpp:907-916. -/
def rootIneqs (limit : ℕ → Bool) (bad : RowCut → Bool) : List RowCut → RootSt → Bool × RootSt
  | [], s => (false, s)
  | c :: cs, s =>
    if limit s.cuts.length then (true, s)
    else rootIneqs limit bad cs ⟨applyIneqs [c] s.V, if bad c then s.cuts else s.cuts ++ [c]⟩

/-- Does the comparison of the root objective value end the process? src/cut/CglVPC.cpp:932-970: only if
no inequality was added. -/
def rootObjExits (DIFFEPS : ℚ) (D : Disj) (new : ℚ) : Bool :=
  if D.commonIneqs = [] then
    let saved := if isInfinity D.rootObj then new else D.rootObj
    if isVal new saved DIFFEPS then false else greaterThanVal (savedRatio DIFFEPS new saved) (103 / 100)
  else false

/-- `initializeSolverWithRootChanges`, src/cut/CglVPC.cpp:867-1024. `opt V` is the objective value if the
LP `V` is solved to optimality. The Boolean is `true` for `CUT_LIMIT_EXIT`. -/
def rootChanges (DIFFEPS : ℚ) (limit : ℕ → Bool) (bad : RowCut → Bool) (opt : Relax → Option ℚ)
    (D : Disj) (P : Relax) : Res (Bool × RootSt) :=
  (rootBounds limit bad D.common ⟨P, []⟩).bind fun r =>
  if r.1 then .ok r
  else
    let r := rootIneqs limit bad D.commonIneqs r.2
    if r.1 then .ok r
    else if D.common = [] ∧ D.commonIneqs = [] then .ok r
    else match opt r.2.V with
      | none => .exit
      | some v => if rootObjExits DIFFEPS D v then .exit else .ok r

end VPC
