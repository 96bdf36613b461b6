import Verif.Model.SolverOps
import Verif.Model.Rounds

/-!
# The four linear programs of the main program and the bounds reported
(src/main.cpp:205-227, :466-538, :656-708, :883-891)

`solver` is the LP cuts are generated for; `GMICSolver`, `VPCSolver` and `allCutsSolver` exist only if
the parameter GOMORY is not 0. Solvers are states `σ` of an arbitrary implementation (`SolverImpl`). Cut
generation is external and is taken not to change the solver (the code passes it as `const` to `CglGMI` and
to `generateCuts`).
-/
namespace VPC

/-- The four solvers, `none` = NULL (src/main.cpp:208-226). -/
structure Lps (σ : Type) where
  solver : σ
  gmic : Option σ
  vpc : Option σ
  all : Option σ

/-- `boundInfo`/`boundInfoVec[round]` as far as the values of LPs are concerned, with their initial
values (include/test/analysis.hpp:31-44). -/
structure BoundVals where
  gmic : ℚ := dblMax
  vpc : ℚ := dblMax
  gmicVpc : ℚ := dblMax
  all : ℚ := dblMax
deriving DecidableEq, Repr

/-- State of the loop over rounds: the solvers, `boundInfo`, `boundInfoVec` (also with `lp_obj` of the
round), the cuts. -/
structure BState (σ : Type) where
  lps : Lps σ
  bound : BoundVals := {}
  byRound : List (ℚ × BoundVals) := []
  gmics : List RowCut := []
  vpcs : List RowCut := []

/-- External parts of a round: Gomory cuts and disjunctive cuts for the LP (the second empty if none are
requested), and whether the round is the last for a reason not modelled here (time, exit reason). -/
structure BWorld (σ : Type) where
  gomoryCuts : σ → List RowCut
  disjCuts : σ → List RowCut
  last : Bool

variable {σ : Type} (I : SolverImpl σ)

/-- `applyCutsCustom(solver, cuts, logfile)`, the value is not used (src/main.cpp:515, :533, :535, :674,
:681, :685, :691). -/
def applyAll (cs : List RowCut) (s : Option σ) : Res σ :=
  (applyCutsCustom I s cs (-1) (-dblMax)).bind fun r => .ok r.2

/-- `start`: the solvers before the first round (src/main.cpp:222-226). -/
def startLps (gomory : ℤ) (s : σ) : Lps σ :=
  if gomory ≠ 0 then ⟨s, some s, some s, some s⟩ else ⟨s, none, none, none⟩

/-- `solver->getObjValue()` for a pointer; NULL is undefined. -/
def objOf (s : Option σ) : Res ℚ := match s with | none => .undef | some s => .ok (I.objValue s)

/-- Gomory cuts of the round, applied (src/main.cpp:509-535). -/
def gomoryPart (gomory : ℤ) (cs : List RowCut) (l : Lps σ) : Res (Lps σ × ℚ) :=
  (applyAll I cs l.gmic).bind fun g =>
  (if gomory > 0 then applyAll I cs (some l.solver) else .ok l.solver).bind fun s =>
  (applyAll I cs l.all).bind fun a =>
  .ok (⟨s, some g, l.vpc, some a⟩, I.objValue g)

/-- The test at src/main.cpp:485. -/
def gomoryRound (gomory : ℤ) (w : BWorld σ) (l : Lps σ) : Res (Lps σ × Option ℚ × List RowCut) :=
  if gomory = -1 ∨ gomory = 1 then
    (gomoryPart I gomory (w.gomoryCuts l.solver) l).bind fun r =>
      .ok (r.1, some r.2, w.gomoryCuts l.solver)
  else .ok (l, none, [])

/-- Disjunctive cuts of the round, applied (src/main.cpp:669-696). -/
def vpcApply (gomory : ℤ) (cs : List RowCut) (l : Lps σ) : Res (Lps σ) :=
  if cs.length > 0 then
    if gomory ≠ 0 then
      (applyAll I cs l.vpc).bind fun v =>
      (applyAll I cs (some l.solver)).bind fun s =>
      (applyAll I cs l.all).bind fun a => .ok ⟨s, l.gmic, some v, some a⟩
    else (applyAll I cs (some l.solver)).bind fun s => .ok ⟨s, l.gmic, l.vpc, l.all⟩
  else .ok l

/-- `vpc_obj`, `gmic_vpc_obj` after the round (src/main.cpp:700-701). -/
def roundVals (gomory : ℤ) (l : Lps σ) : Res (ℚ × ℚ) :=
  if gomory ≠ 0 then (objOf I l.vpc).bind fun v => (objOf I l.all).bind fun a => .ok (v, a)
  else .ok (I.objValue l.solver, I.objValue l.solver)

/-- The new `boundInfo` (src/main.cpp:521, :700-702): without Gomory cuts `gmic_obj` is left. -/
def newBound (old : BoundVals) (g : Option ℚ) (va : ℚ × ℚ) : BoundVals :=
  { gmic := g.getD old.gmic, vpc := va.1, gmicVpc := va.2, all := va.2 }

/-- The new entry of `boundInfoVec` (src/main.cpp:522, :705-707): it has its own default. -/
def newRoundBound (g : Option ℚ) (va : ℚ × ℚ) : BoundVals := newBound {} g va

/-- One round (src/main.cpp:466-707). -/
def boundRound (gomory : ℤ) (w : BWorld σ) (s : BState σ) : Res (BState σ) :=
  (gomoryRound I gomory w s.lps).bind fun r =>
  (vpcApply I gomory (w.disjCuts r.1.solver) r.1).bind fun l =>
  (roundVals I gomory l).bind fun va =>
  .ok { lps := l
        bound := newBound s.bound r.2.1 va
        byRound := s.byRound ++ [(I.objValue s.lps.solver, newRoundBound r.2.1 va)]
        gmics := s.gmics ++ r.2.2
        vpcs := s.vpcs ++ w.disjCuts r.1.solver }

/-- Leave the loop (src/main.cpp:821-835)? -/
def boundStop (w : BWorld σ) (s : BState σ) : Bool :=
  w.last || !(I.isOptimal s.lps.solver) || isInfinity |I.objValue s.lps.solver|

/-- The loop over rounds (src/main.cpp:464-836): `k` rounds remain, `r` is the next. -/
def boundLoop (gomory : ℤ) (w : ℕ → BWorld σ) : ℕ → ℕ → BState σ → Res (BState σ)
  | 0, _, s => .ok s
  | k + 1, r, s => (boundRound I gomory (w r) s).bind fun s' =>
    if boundStop I (w r) s' then .ok s' else boundLoop gomory w k (r + 1) s'

/-- All rounds, from the LP relaxation `s`. -/
def boundRun (gomory : ℤ) (w : ℕ → BWorld σ) (rounds : ℕ) (s : σ) : Res (BState σ) :=
  boundLoop I gomory w rounds 0 { lps := startLps gomory s }

/-- The solvers given to the final analysis (src/main.cpp:886-888): only GMICs, with VPCs, with all
cuts. -/
def analysed (gomory : ℤ) (l : Lps σ) : Option σ × Option σ × Option σ :=
  (if gomory = 0 then none else l.gmic,
   if gomory ≤ 0 then some l.solver else l.vpc,
   if gomory ≥ 0 then some l.solver else l.all)

end VPC
