import Verif.Model.GenCut
import Mathlib.Tactic.Linarith
import Mathlib.Tactic.NormNum
import Mathlib.Tactic.Ring

/-!
# Counters, limits and exit reasons (C11, C12, C14, C41, C49, C50)
-/
namespace VPC

/-! ## Helper lemmas -/

theorem bump_same {κ : Type} [DecidableEq κ] (f : κ → ℤ) (k : κ) (d : ℤ) :
    bump f k d k = f k + d := by simp [bump]

theorem bump_ne {κ : Type} [DecidableEq κ] (f : κ → ℤ) {k k' : κ} (h : k' ≠ k) (d : ℤ) :
    bump f k d k' = f k' := by simp [bump, h]

theorem sum_map_bump_of_notMem {κ : Type} [DecidableEq κ] (l : List κ) (f : κ → ℤ) (k : κ) (d : ℤ)
    (h : k ∉ l) : (l.map (bump f k d)).sum = (l.map f).sum := by
  congr 1
  apply List.map_congr_left
  intro x hx
  exact bump_ne f (fun e => h (by rw [← e]; exact hx)) d

theorem sum_map_bump {κ : Type} [DecidableEq κ] (l : List κ) (hn : l.Nodup) (f : κ → ℤ) (k : κ)
    (d : ℤ) (h : k ∈ l) : (l.map (bump f k d)).sum = (l.map f).sum + d := by
  induction l with
  | nil => simp at h
  | cons x xs ih =>
    rw [List.nodup_cons] at hn
    rw [List.map_cons, List.map_cons, List.sum_cons, List.sum_cons]
    by_cases hx : k = x
    · subst hx
      rw [sum_map_bump_of_notMem xs f k d hn.1, bump_same]; ring
    · have : k ∈ xs := by simpa [hx] using h
      rw [ih hn.2 this, bump_ne f (fun e => hx e.symm)]; ring

theorem Fail.mem_all (f : Fail) : f ∈ Fail.all := by cases f <;> simp [Fail.all]
theorem ObjType.mem_all (f : ObjType) : f ∈ ObjType.all := by cases f <;> simp [ObjType.all]
theorem Fail.nodup_all : Fail.all.Nodup := by decide
theorem ObjType.nodup_all : ObjType.all.Nodup := by decide

/-- Sum of a counter vector indexed by failure type. -/
def sumFails (f : Fail → ℤ) : ℤ := (Fail.all.map f).sum
/-- The reasons that are only ever recorded for an objective that was tried. -/
def Fail.perObj : List Fail :=
  [.ABANDONED, .BAD_DYNAMISM, .BAD_SUPPORT, .BAD_VIOLATION, .CUT_LIMIT, .DUAL_INFEASIBLE,
   .DUPLICATE_SIC, .DUPLICATE_VPC, .ITERATION_LIMIT, .ORTHOGONALITY_SIC, .ORTHOGONALITY_VPC,
   .PRIMAL_INFEASIBLE, .TIME_LIMIT]
/-- Sum of a counter vector over those. -/
def sumPerObj (f : Fail → ℤ) : ℤ := (Fail.perObj.map f).sum
/-- Sum of a counter vector indexed by objective type. -/
def sumObj (f : ObjType → ℤ) : ℤ := (ObjType.all.map f).sum

theorem sumFails_bump (f : Fail → ℤ) (k : Fail) (d : ℤ) : sumFails (bump f k d) = sumFails f + d :=
  sum_map_bump _ Fail.nodup_all f k d k.mem_all

theorem sumPerObj_bump (f : Fail → ℤ) (k : Fail) (h : k ∈ Fail.perObj) (d : ℤ) :
    sumPerObj (bump f k d) = sumPerObj f + d :=
  sum_map_bump _ (by decide) f k d h

theorem sumPerObj_bump_note (f : Fail → ℤ) (k : Fail) (h : k ∉ Fail.perObj) (d : ℤ) :
    sumPerObj (bump f k d) = sumPerObj f :=
  sum_map_bump_of_notMem _ f k d h

theorem sumPerObj_bump_le (f : Fail → ℤ) (k : Fail) :
    sumPerObj (bump f k 1) ≤ sumPerObj f + 1 := by
  by_cases h : k ∈ Fail.perObj
  · rw [sumPerObj_bump f k h]
  · rw [sumPerObj_bump_note f k h]; omega

theorem Note.not_perObj (n : Note) : n.toFail ∉ Fail.perObj := by cases n <;> decide

theorem sumObj_bump (f : ObjType → ℤ) (k : ObjType) (d : ℤ) : sumObj (bump f k d) = sumObj f + d :=
  sum_map_bump _ ObjType.nodup_all f k d k.mem_all

theorem howDupLoop_index (ortho : SVec → SVec → ℚ) (MO EPS : ℚ) (tmp : RowCut) (cs : List RowCut) :
    ∀ (i : ℕ) (mi : Option ℕ) (mo : ℚ) (k : ℕ),
      (howDupLoop ortho MO EPS tmp i cs mi mo).minOrthoIndex = some k →
      mi = some k ∨ (i ≤ k ∧ k < i + cs.length) := by
  induction cs with
  | nil => intro i mi mo k h; left; simpa [howDupLoop] using h
  | cons c cs ih =>
    intro i mi mo k h
    simp only [howDupLoop] at h
    split at h
    · simp only at h
      split at h
      · right; simp only [Option.some.injEq] at h; subst h; simp
      · left; exact h
    · rcases ih _ _ _ _ h with h' | h'
      · split at h'
        · right; simp only [Option.some.injEq] at h'; subst h'; simp
        · left; exact h'
      · right; simp only [List.length_cons]; omega

theorem howDuplicate_minOrtho_lt (ortho : SVec → SVec → ℚ) (MO EPS : ℚ) (tmp : RowCut)
    (cs : List RowCut) (k : ℕ) (h : (howDuplicate ortho cs tmp 0 MO EPS).minOrthoIndex = some k) :
    k < cs.length := by
  rcases howDupLoop_index _ _ _ _ _ _ _ _ _ h with h' | h'
  · simp at h'
  · simpa using h'.2

/-- The state after the first three lines of `genCut`. -/
def Gen.tick (g : Gen) (heur : ObjType) : Gen :=
  { g with numObj := g.numObj + 1, numObjFromHeur := bump g.numObjFromHeur heur 1 }

/-- The bookkeeping of a failure. -/
def Gen.failed (g : Gen) (heur : ObjType) : Gen :=
  { g with numFailures := g.numFailures + 1, numFailsFromHeur := bump g.numFailsFromHeur heur 1 }

/-- All possible effects of one call of `genCut`. -/
inductive Eff (g : Gen) (heur : ObjType) : Gen → Ret → Prop
  | added (c : GCut) (h : g.reachedCutLimit = false) :
      Eff g heur ((g.tick heur).addCut c .VPC heur g.currDisj) (.num 1)
  | failed (f : Fail) :
      Eff g heur ({ g.tick heur with numFails := bump g.numFails f 1 }.failed heur) (.fail f)
  | kept : Eff g heur ((g.tick heur).failed heur) (.num 0)
  | replaced (c : GCut) (k : ℕ) (h1 : (if g.canReplace then 0 else g.initNumCuts) ≤ k)
      (h2 : k < g.cuts.length) :
      Eff g heur ((((g.tick heur).replaceCut k (if g.canReplace then 0 else g.initNumCuts) c
        heur)).failed heur) (.num 0)

theorem tick_reached (g : Gen) (h : ObjType) : (g.tick h).reachedCutLimit = g.reachedCutLimit := rfl

theorem genCutHelper_eff (e : GenEnv) (g : Gen) (sol : List ℚ) (heur : ObjType) :
    ∃ p, exitGenCut (genCutHelper e (g.tick heur) sol heur).1 (.optimal sol)
      (genCutHelper e (g.tick heur) sol heur).2 heur = some p ∧ Eff g heur p.1 p.2 := by
  unfold genCutHelper
  rw [tick_reached]
  split
  · exact ⟨_, rfl, .failed .CUT_LIMIT⟩
  · rename_i hr
    have hr : g.reachedCutLimit = false := by simpa using hr
    dsimp only
    split
    · rename_i f hf
      exact ⟨_, rfl, .failed f.toFail⟩
    · split
      · rename_i k hk
        split at hk
        · rw [Option.filter_eq_some_iff] at hk
          obtain ⟨hk1, hk2⟩ := hk
          have hlt := howDuplicate_minOrtho_lt _ _ _ _ _ _ hk1
          rw [List.length_map] at hlt
          have hge : (if g.canReplace then 0 else g.initNumCuts) ≤ k := by
            exact of_decide_eq_true hk2
          split
          · exact ⟨_, rfl, .replaced _ k hge hlt⟩
          · exact ⟨_, rfl, .kept⟩
        · exact absurd hk (by simp)
      · split
        · exact ⟨_, rfl, .added _ hr⟩
        · split
          · exact ⟨_, rfl, .failed .DUPLICATE_VPC⟩
          · exact ⟨_, rfl, .failed .ORTHOGONALITY_VPC⟩

theorem genCut_eff (e : GenEnv) (g : Gen) (old : Option (List ℚ)) (s : Solve) (heur : ObjType) :
    ∃ p, genCut e g old s heur = some p ∧ Eff g heur p.1 p.2 := by
  unfold genCut
  simp only []
  change ∃ p, (if (g.tick heur).reachedCutLimit then exitGenCut (g.tick heur) s (.fail .CUT_LIMIT) heur
    else _) = some p ∧ _
  split
  · exact ⟨_, rfl, .failed .CUT_LIMIT⟩
  · rename_i hr
    split
    · split
      · exact ⟨_, rfl, .failed .DUPLICATE_VPC⟩
      · exact genCutHelper_eff e g _ heur
    · exact ⟨_, rfl, .failed .DUAL_INFEASIBLE⟩
    · rename_i hno hnd
      revert hno hnd
      cases s with
      | optimal sol => intro hno; exact absurd rfl (hno sol)
      | dualInfeasible => intro _ hnd; exact absurd rfl hnd
      | iterationLimit => intro _ _; exact ⟨_, rfl, .failed .ITERATION_LIMIT⟩
      | timeLimit => intro _ _; exact ⟨_, rfl, .failed .TIME_LIMIT⟩
      | abandoned => intro _ _; exact ⟨_, rfl, .failed .ABANDONED⟩
      | other => intro _ _; exact ⟨_, rfl, .failed .UNKNOWN⟩

theorem run_cons (g : Gen) (o : Op) (ops : List Op) :
    g.run (o :: ops) = (g.step o).bind fun g' => g'.run ops := by
  simp [Gen.run, List.foldlM_cons]

theorem run_nil (g : Gen) : g.run [] = some g := rfl

/-- Invariants of single steps are invariants of whole histories. -/
theorem run_induct {P : Gen → Prop} (hstep : ∀ g o g', P g → g.step o = some g' → P g')
    (g g' : Gen) (ops : List Op) (h0 : P g) (hr : g.run ops = some g') : P g' := by
  induction ops generalizing g with
  | nil => rw [run_nil] at hr; simp only [Option.some.injEq] at hr; exact hr ▸ h0
  | cons o ops ih =>
    rw [run_cons] at hr
    cases hs : g.step o with
    | none => rw [hs] at hr; simp at hr
    | some g1 => rw [hs] at hr; exact ih g1 (hstep g o g1 h0 hs) hr

theorem step_tryObj {e : GenEnv} {g g' : Gen} {old : Option (List ℚ)} {s : Solve} {heur : ObjType}
    (h : g.step (.tryObj e old s heur) = some g') : ∃ r, Eff g heur g' r := by
  obtain ⟨p, hp, he⟩ := genCut_eff e g old s heur
  rw [Gen.step, hp] at h
  simp only [Option.map_some, Option.some.injEq] at h
  exact ⟨p.2, h ▸ he⟩

/-! ## C11: the counters -/

/-- `genCut` never reaches its `exit(1)` ("Somehow we generated cuts from a non-optimal PRLP"), so
no history aborts. -/
theorem run_never_aborts (g : Gen) (ops : List Op) : (g.run ops).isSome := by
  induction ops generalizing g with
  | nil => rfl
  | cons o ops ih =>
    rw [run_cons]
    cases o with
    | note n => exact ih _
    | rootCut e c => exact ih _
    | nextDisj d => exact ih _
    | tryObj e old s heur =>
      obtain ⟨p, hp, _⟩ := genCut_eff e g old s heur
      rw [Gen.step, hp]
      exact ih _

/-- Is this operation an objective that is tried? -/
def Op.isTry : Op → Bool
  | .tryObj .. => true
  | _ => false

/-- Is this operation an inequality added at the root? -/
def Op.isRoot : Op → Bool
  | .rootCut .. => true
  | _ => false

/-- Over any part of a run in which objectives are tried (whatever the LP solver answers), the
number of objectives tried goes up by the number of calls, and equals the number of new cuts plus
the number of new failures. Hence the consistency check at the end of `tryObjectives`
(src/cut/CglVPC.cpp:1559-1568, `exit(1)` otherwise) can never fail. -/
theorem tried_eq_cuts_plus_failures (g g' : Gen) (ops : List Op)
    (hops : ∀ o ∈ ops, o.isRoot = false) (hr : g.run ops = some g') :
    g'.numObj = g.numObj + ops.countP (·.isTry) ∧
    (g'.numObj : ℤ) - g.numObj
      = (g'.numCuts + g'.numFailures : ℤ) - (g.numCuts + g.numFailures) := by
  induction ops generalizing g with
  | nil => rw [run_nil] at hr; simp only [Option.some.injEq] at hr; subst hr; simp
  | cons o ops ih =>
    rw [run_cons] at hr
    cases hs : g.step o with
    | none => rw [hs] at hr; simp at hr
    | some g1 =>
      rw [hs] at hr
      obtain ⟨h1, h2⟩ := ih g1 (fun o ho => hops o (by simp [ho])) hr
      rw [List.countP_cons]
      cases o with
      | note n =>
        simp only [Gen.step, Option.some.injEq] at hs
        subst hs
        simpa [Op.isTry] using ⟨h1, h2⟩
      | rootCut e c => exact absurd (hops (.rootCut e c) (by simp)) (by simp [Op.isRoot])
      | nextDisj d =>
        simp only [Gen.step, Option.some.injEq] at hs
        subst hs
        simpa [Op.isTry] using ⟨h1, h2⟩
      | tryObj e old s heur =>
        obtain ⟨r, he⟩ := step_tryObj hs
        have hone : (if Op.isTry (.tryObj e old s heur) then 1 else 0) = 1 := rfl
        rw [hone]
        generalize List.countP _ ops = m at *
        cases he <;> simp only [Gen.addCut, Gen.tick, Gen.failed, Gen.replaceCut] at h1 h2 ⊢ <;>
          push_cast at * <;> omega

/-- What the counters of a round claim about the cuts and objectives of that round. -/
structure Ledger (g : Gen) : Prop where
  /-- every cut beyond the given ones was counted -/
  cuts : g.cuts.length = g.initNumCuts + g.numCuts
  types : g.cutType.length = g.numCuts
  heurs : g.objType.length = g.numCuts
  disjs : g.disjID.length = g.numCuts
  ofType : ∀ t, g.numCutsOfType t = g.cutType.count t
  fromHeur : ∀ h, g.numCutsFromHeur h = g.objType.count h
  obj : sumObj g.numObjFromHeur = g.numObj
  fails : sumObj g.numFailsFromHeur = g.numFailures
  /-- reasons recorded for tried objectives (a replaced or kept duplicate has no reason) -/
  byReason : sumPerObj g.numFails ≤ g.numFailures
  start : g.canReplace = false ∨ g.initNumCuts = 0

theorem addCut_ledger {g : Gen} (h : Ledger g) (c : GCut) (t : CutType) (u : ObjType) (d : ℤ) :
    Ledger (g.addCut c t u d) where
  cuts := by simp [Gen.addCut, h.cuts]; omega
  types := by simp [Gen.addCut, h.types]
  heurs := by simp [Gen.addCut, h.heurs]
  disjs := by simp [Gen.addCut, h.disjs]
  ofType := fun t' => by
    by_cases e : t' = t
    · subst e; simp [Gen.addCut, bump_same, h.ofType]
    · have : t ≠ t' := fun h => e h.symm
      simp [Gen.addCut, bump_ne _ e, h.ofType, List.count_append, List.count_singleton, this]
  fromHeur := fun t' => by
    by_cases e : t' = u
    · subst e; simp [Gen.addCut, bump_same, h.fromHeur]
    · have : u ≠ t' := fun h => e h.symm
      simp [Gen.addCut, bump_ne _ e, h.fromHeur, List.count_append, List.count_singleton, this]
  obj := h.obj
  fails := h.fails
  byReason := h.byReason
  start := h.start

theorem tick_ledger {g : Gen} (h : Ledger g) (u : ObjType) : Ledger (g.tick u) :=
  { h with
    obj := by
      have := h.obj
      simp only [Gen.tick, sumObj_bump]; push_cast; omega }

theorem failed_ledger {g : Gen} (h : Ledger g) (u : ObjType) : Ledger (g.failed u) :=
  { h with
    fails := by
      have := h.fails
      simp only [Gen.failed, sumObj_bump]; push_cast; omega
    byReason := by
      have := h.byReason
      simp only [Gen.failed]; push_cast; omega }

theorem count_set_aux {α : Type} [DecidableEq α] (l : List α) (p : ℕ) (d a : α) (hp : p < l.length)
    (x : α) : ((l.set p a).count x : ℤ) =
      l.count x + (if x = l.getD p d then -1 else 0) + (if x = a then 1 else 0) := by
  induction l generalizing p with
  | nil => simp at hp
  | cons y ys ih =>
    cases p with
    | zero =>
      simp only [List.set_cons_zero, List.count_cons, List.getD_cons_zero]
      by_cases h1 : x = y <;> by_cases h2 : x = a
      · subst h1; subst h2; simp
      · subst h1; have : a ≠ x := fun h => h2 h.symm
        simp [h2, this]
      · subst h2; have : y ≠ x := fun h => h1 h.symm
        simp [h1, this]
      · have h3 : a ≠ x := fun h => h2 h.symm
        have h4 : y ≠ x := fun h => h1 h.symm
        simp [h1, h2, h3, h4]
    | succ p =>
      simp only [List.set_cons_succ, List.count_cons, List.getD_cons_succ]
      have := ih p (by simpa using hp)
      push_cast
      rw [this]; ring

theorem replace_ledger {g : Gen} (h : Ledger g) (k : ℕ) (c : GCut) (u : ObjType)
    (h1 : (if g.canReplace then 0 else g.initNumCuts) ≤ k) (h2 : k < g.cuts.length) :
    Ledger (g.replaceCut k (if g.canReplace then 0 else g.initNumCuts) c u) := by
  have hst : (if g.canReplace then 0 else g.initNumCuts) = g.initNumCuts := by
    rcases h.start with h' | h' <;> simp [h']
  rw [hst] at h1 ⊢
  have hp : k - g.initNumCuts < g.numCuts := by have := h.cuts; omega
  refine { h with cuts := ?_, types := ?_, heurs := ?_, ofType := ?_, fromHeur := ?_ }
  · simp [Gen.replaceCut, h.cuts]
  · simp [Gen.replaceCut, h.types]
  · simp [Gen.replaceCut, h.heurs]
  · intro t
    simp only [Gen.replaceCut]
    rw [count_set_aux g.cutType _ .VPC .VPC (by rw [h.types]; exact hp), bump, bump, h.ofType]
    split <;> split <;> simp_all
  · intro t
    simp only [Gen.replaceCut]
    rw [count_set_aux g.objType _ .DUMMY_OBJ u (by rw [h.heurs]; exact hp), bump, bump, h.fromHeur]
    split <;> split <;> simp_all

theorem eff_ledger {g g' : Gen} {u : ObjType} {r : Ret} (h : Ledger g) (he : Eff g u g' r) :
    Ledger g' := by
  cases he with
  | added c _ => exact addCut_ledger (tick_ledger h u) c .VPC u _
  | failed f =>
    have h1 := tick_ledger h u
    exact
      { h1 with
        fails := by
          have := h1.fails
          simp only [Gen.failed, sumObj_bump, Gen.tick] at *; push_cast; omega
        byReason := by
          have := h1.byReason
          have h2 := sumPerObj_bump_le g.numFails f
          simp only [Gen.failed, Gen.tick] at *; push_cast; omega }
  | kept => exact failed_ledger (tick_ledger h u) u
  | replaced c k h1 h2 => exact failed_ledger (replace_ledger (tick_ledger h u) k c u h1 h2) u

theorem step_ledger (g : Gen) (o : Op) (g' : Gen) (h : Ledger g) (hs : g.step o = some g') :
    Ledger g' := by
  cases o with
  | note n =>
    simp only [Gen.step, Option.some.injEq] at hs
    subst hs
    exact
      { h with
        byReason := by
          have := h.byReason
          simp only [sumPerObj_bump_note _ _ n.not_perObj]; exact this }
  | rootCut e c =>
    simp only [Gen.step, Option.some.injEq] at hs
    subst hs
    unfold VPC.rootCut
    split
    · exact h
    · split
      · exact h
      · exact addCut_ledger h _ _ _ _
  | nextDisj d =>
    simp only [Gen.step, Option.some.injEq] at hs
    subst hs
    exact { h with }
  | tryObj e old s heur =>
    obtain ⟨r, he⟩ := step_tryObj hs
    exact eff_ledger h he

theorem startRound_go {g g0 : Gen} {given : List GCut} {nf nf0 : ℕ}
    (h : g.startRound given nf nf0 = .go g0) :
    g0.cuts = given ∧ g0.initNumCuts = given.length ∧ g0.numCuts = 0 ∧ g0.numObj = 0 ∧
    g0.numFailures = 0 ∧ g0.perDisj = g.perDisj ∧ g0.currDisj = g.currDisj ∧
    g0.cutLimit = getCutLimit g.cutLimit nf ∧ g0.reachedCutLimit = false ∧ g0.userObjectives = [] ∧
    (∀ t, g0.numCutsOfType t = 0) ∧ (∀ t, g0.numCutsFromHeur t = 0) ∧ (∀ t, g0.numObjFromHeur t = 0) ∧
    (∀ t, g0.numFailsFromHeur t = 0) ∧ (∀ t, g0.numFails t = 0) ∧
    ((g.repeatedUse = false ∨ given = []) →
      g0.cutType = [] ∧ g0.objType = [] ∧ g0.disjID = [] ∧
      (g0.canReplace = false ∨ g0.initNumCuts = 0)) := by
  unfold Gen.startRound at h
  dsimp only at h
  split at h
  · simp at h
  · split at h
    · simp at h
    · rename_i hlim
      simp only [RoundStart.go.injEq] at h
      subst h
      refine ⟨rfl, rfl, rfl, rfl, rfl, rfl, rfl, rfl, by simpa using hlim, rfl, fun _ => rfl,
        fun _ => rfl, fun _ => rfl, fun _ => rfl, fun _ => rfl, ?_⟩
      intro hh
      rcases hh with hh | hh <;> simp [Gen.roundState, Gen.setupAsNew, hh]

/-- In a round in which the generator is not set up for repeated use, or that starts without
given cuts, the counters are exactly right at every moment, whatever objectives are tried and
whatever the LP solver answers: the number of cuts reported is the number of cuts added to the
collection, there is one type, one objective and one disjunction recorded per cut, the totals per type and per
objective are the numbers of recorded cuts of that type and objective, and the per-objective totals
of tries and failures add up to the overall totals. -/
theorem counters_exact (g g0 g' : Gen) (given : List GCut) (nf nf0 : ℕ) (ops : List Op)
    (hs : g.startRound given nf nf0 = .go g0) (hf : g.repeatedUse = false ∨ given = [])
    (hr : g0.run ops = some g') : Ledger g' := by
  refine run_induct step_ledger g0 g' ops ?_ hr
  obtain ⟨h1, h2, h3, h4, h5, _, _, _, _, _, h6, h7, h8, h9, h10, h11⟩ := startRound_go hs
  obtain ⟨h12, h13, h14, h15⟩ := h11 hf
  have e1 : g0.numObjFromHeur = fun _ => 0 := funext h8
  have e2 : g0.numFailsFromHeur = fun _ => 0 := funext h9
  have e3 : g0.numFails = fun _ => 0 := funext h10
  exact
    { cuts := by rw [h1, h2, h3]; simp
      types := by rw [h12, h3]; rfl
      heurs := by rw [h13, h3]; rfl
      disjs := by rw [h14, h3]; rfl
      ofType := fun t => by rw [h6, h12]; rfl
      fromHeur := fun t => by rw [h7, h13]; rfl
      obj := by rw [e1, h4]; rfl
      fails := by rw [e2, h5]; rfl
      byReason := by rw [e3, h5]; decide
      start := h15 }

/-! ## C50: given cuts are left alone -/

/-- Unless replacing given cuts is allowed, the cuts handed to the generator stay in the
collection, unchanged and in place. -/
theorem given_cuts_preserved (g g0 g' : Gen) (given : List GCut) (nf nf0 : ℕ) (ops : List Op)
    (hs : g.startRound given nf nf0 = .go g0) (hc : g0.canReplace = false)
    (hr : g0.run ops = some g') : g'.cuts.take given.length = given := by
  have key : g'.cuts.take given.length = given ∧ g'.canReplace = false ∧
      g'.initNumCuts = given.length ∧ given.length ≤ g'.cuts.length := by
    refine run_induct (P := fun g => g.cuts.take given.length = given ∧ g.canReplace = false ∧
      g.initNumCuts = given.length ∧ given.length ≤ g.cuts.length) ?_ g0 g' ops ?_ hr
    · intro g o g1 ⟨h1, h2, h3, h4⟩ hs
      have hadd : ∀ c : GCut, (g.cuts ++ [c]).take given.length = given := fun c => by
        rw [List.take_append_of_le_length h4, h1]
      cases o with
      | rootCut e c =>
        simp only [Gen.step, Option.some.injEq] at hs
        subst hs
        unfold VPC.rootCut
        split
        · exact ⟨h1, h2, h3, h4⟩
        · split
          · exact ⟨h1, h2, h3, h4⟩
          · exact ⟨hadd _, h2, h3, by simp [Gen.addCut]; omega⟩
      | note n =>
        simp only [Gen.step, Option.some.injEq] at hs
        subst hs
        exact ⟨h1, h2, h3, h4⟩
      | nextDisj d =>
        simp only [Gen.step, Option.some.injEq] at hs
        subst hs
        exact ⟨h1, h2, h3, h4⟩
      | tryObj e old s heur =>
        obtain ⟨r, he⟩ := step_tryObj hs
        cases he with
        | added c _ => exact ⟨hadd c, h2, h3, by simp [Gen.addCut, Gen.tick]; omega⟩
        | failed f => exact ⟨h1, h2, h3, h4⟩
        | kept => exact ⟨h1, h2, h3, h4⟩
        | replaced c k k1 k2 =>
          refine ⟨?_, h2, h3, by simpa [Gen.replaceCut, Gen.failed, Gen.tick] using h4⟩
          rw [h2, h3] at k1
          simp only [Gen.failed, Gen.replaceCut, Gen.tick]
          rw [List.take_set_of_le (by simpa using k1)]
          exact h1
    · obtain ⟨h1, h2, _⟩ := startRound_go hs
      exact ⟨by rw [h1]; simp, hc, h2, by rw [h1]⟩
  exact key.1

/-! ## C12: the cut limit -/

/-- Total limit: with a single disjunction the number of cuts never exceeds the limit. -/
theorem cut_limit_total (g g0 g' : Gen) (given : List GCut) (nf nf0 : ℕ) (ops : List Op)
    (hs : g.startRound given nf nf0 = .go g0) (hm : g.perDisj = false)
    (hr : g0.run ops = some g') : (g'.numCuts : ℤ) ≤ getCutLimit g.cutLimit nf := by
  obtain ⟨_, _, h3, _, _, h6, _, h8, h9, _⟩ := startRound_go hs
  have key : g'.perDisj = false ∧ g'.cutLimit = getCutLimit g.cutLimit nf ∧
      (g'.numCuts : ℤ) ≤ g'.cutLimit := by
    refine run_induct (P := fun x => x.perDisj = false ∧ x.cutLimit = getCutLimit g.cutLimit nf ∧
      (x.numCuts : ℤ) ≤ x.cutLimit) ?_ g0 g' ops ⟨by rw [h6, hm], h8, ?_⟩ hr
    · intro x o x' ⟨k1, k2, k3⟩ hx
      have hlt : x.reachedCutLimit = false → (x.numCuts : ℤ) + 1 ≤ x.cutLimit := by
        intro h
        simp only [Gen.reachedCutLimit, k1, reachedLimit, Bool.false_eq_true, if_false,
          decide_eq_false_iff_not, ge_iff_le, not_le] at h
        omega
      cases o with
      | rootCut e c =>
        simp only [Gen.step, Option.some.injEq] at hx
        subst hx
        unfold VPC.rootCut
        split
        · exact ⟨k1, k2, k3⟩
        · rename_i hh
          split
          · exact ⟨k1, k2, k3⟩
          · exact ⟨k1, k2, by simpa [Gen.addCut] using hlt (by simpa using hh)⟩
      | note n =>
        simp only [Gen.step, Option.some.injEq] at hx
        subst hx
        exact ⟨k1, k2, k3⟩
      | nextDisj d =>
        simp only [Gen.step, Option.some.injEq] at hx
        subst hx
        exact ⟨k1, k2, k3⟩
      | tryObj e old s heur =>
        obtain ⟨r, he⟩ := step_tryObj hx
        cases he with
        | added c hh => exact ⟨k1, k2, by simpa [Gen.addCut, Gen.tick] using hlt hh⟩
        | failed f => exact ⟨k1, k2, k3⟩
        | kept => exact ⟨k1, k2, k3⟩
        | replaced c k _ _ => exact ⟨k1, k2, k3⟩
    · simp only [Gen.reachedCutLimit, h6, hm, reachedLimit, Bool.false_eq_true, if_false,
        decide_eq_false_iff_not, ge_iff_le, not_le] at h9
      rw [h3] at *
      push_cast at *
      omega
  rw [← key.2.1]
  exact key.2.2

/-- Limit per disjunction (modes with a set of disjunctions): in a fresh round no disjunction gets
more cuts than the limit. -/
theorem cut_limit_per_disjunction (g g0 g' : Gen) (given : List GCut) (nf nf0 : ℕ) (ops : List Op)
    (hs : g.startRound given nf nf0 = .go g0) (hf : g.repeatedUse = false ∨ given = [])
    (hm : g.perDisj = true) (hr : g0.run ops = some g') (d : ℤ) :
    (g'.disjID.count d : ℤ) ≤ getCutLimit g.cutLimit nf := by
  obtain ⟨_, _, h3, _, _, h6, _, h8, h9, _, _, _, _, _, _, h11⟩ := startRound_go hs
  obtain ⟨_, _, h14, _⟩ := h11 hf
  have key : g'.perDisj = true ∧ g'.cutLimit = getCutLimit g.cutLimit nf ∧
      g'.disjID.length = g'.numCuts ∧ ∀ d, (g'.disjID.count d : ℤ) ≤ g'.cutLimit := by
    refine run_induct (P := fun x => x.perDisj = true ∧ x.cutLimit = getCutLimit g.cutLimit nf ∧
      x.disjID.length = x.numCuts ∧ ∀ d, (x.disjID.count d : ℤ) ≤ x.cutLimit) ?_ g0 g' ops
      ⟨by rw [h6, hm], h8, by rw [h14, h3]; rfl, ?_⟩ hr
    · intro x o x' ⟨k1, k2, k3, k4⟩ hx
      have hlt : x.reachedCutLimit = false → ∀ d,
          ((x.disjID ++ [x.currDisj]).count d : ℤ) ≤ x.cutLimit := by
        intro h d
        rw [List.count_append, List.count_singleton]
        by_cases hd : x.currDisj = d
        · subst hd
          simp only [Gen.reachedCutLimit, k1, Gen.reachedForDisj, reachedLimit, if_true,
            decide_eq_false_iff_not, ge_iff_le, not_le, ← k3, List.take_length] at h
          simp
          omega
        · simp [hd, k4 d]
      cases o with
      | rootCut e c =>
        simp only [Gen.step, Option.some.injEq] at hx
        subst hx
        unfold VPC.rootCut
        split
        · exact ⟨k1, k2, k3, k4⟩
        · rename_i hh
          split
          · exact ⟨k1, k2, k3, k4⟩
          · exact ⟨k1, k2, by simp [Gen.addCut, k3], hlt (by simpa using hh)⟩
      | note n =>
        simp only [Gen.step, Option.some.injEq] at hx
        subst hx
        exact ⟨k1, k2, k3, k4⟩
      | nextDisj d =>
        simp only [Gen.step, Option.some.injEq] at hx
        subst hx
        exact ⟨k1, k2, k3, k4⟩
      | tryObj e old s heur =>
        obtain ⟨r, he⟩ := step_tryObj hx
        cases he with
        | added c hh => exact ⟨k1, k2, by simp [Gen.addCut, Gen.tick, k3], hlt hh⟩
        | failed f => exact ⟨k1, k2, k3, k4⟩
        | kept => exact ⟨k1, k2, k3, k4⟩
        | replaced c k _ _ => exact ⟨k1, k2, k3, k4⟩
    · intro d
      simp only [Gen.reachedCutLimit, h6, hm, Gen.reachedForDisj, reachedLimit, if_true, h14,
        decide_eq_false_iff_not, ge_iff_le, not_le] at h9
      rw [h14]
      simp only [List.take_nil, List.count_nil] at *
      push_cast at *
      omega
  rw [← key.2.1]
  exact key.2.2.2 d

/-- Once the limit is reached every further objective fails with `CUT_LIMIT` and adds nothing. -/
theorem at_limit_adds_nothing (e : GenEnv) (g : Gen) (old : Option (List ℚ)) (s : Solve)
    (heur : ObjType) (h : g.reachedCutLimit = true) :
    ∃ g', genCut e g old s heur = some (g', .fail .CUT_LIMIT) ∧ g'.cuts = g.cuts ∧
      g'.numCuts = g.numCuts := by
  refine ⟨{ g.tick heur with numFails := bump g.numFails .CUT_LIMIT 1 }.failed heur, ?_, rfl, rfl⟩
  unfold genCut
  simp only []
  change (if (g.tick heur).reachedCutLimit then exitGenCut (g.tick heur) s (.fail .CUT_LIMIT) heur
    else _) = _
  rw [tick_reached, if_pos h]
  rfl

end VPC
