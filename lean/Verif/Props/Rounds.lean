import Verif.Props.GenCut
import Verif.Props.GenLimits
import Verif.Model.Rounds
import Mathlib.Tactic.Linarith
import Mathlib.Tactic.NormNum

/-!
# A whole call of the generator, and the rounds of the main program (C33, C63, C64, C65, C66)
-/
namespace VPC

/-! ## Helper lemmas -/

theorem runRes_ok {g g' : Gen} {ops : List Op} (h : runRes g ops = .ok g') : g.run ops = some g' := by
  unfold runRes at h
  cases e : g.run ops with
  | none => rw [e] at h; cases h
  | some x => rw [e] at h; cases h; rfl

theorem runRes_total (g : Gen) (ops : List Op) : ∃ g', runRes g ops = .ok g' := by
  have := run_never_aborts g ops
  unfold runRes
  cases e : g.run ops with
  | none => rw [e] at this; cases this
  | some x => exact ⟨x, rfl⟩

theorem tryPRLP_total (c : GenCfg) (w : TryWorld) (g : Gen) : ∃ r, tryPRLP c w g = .ok r := by
  unfold tryPRLP
  split
  · exact ⟨_, rfl⟩
  · split
    · obtain ⟨g2, e2⟩ := runRes_total g w.ops
      rw [e2]; exact ⟨_, rfl⟩
    · exact ⟨_, rfl⟩

/-- What a property of generators must satisfy to survive a call. -/
structure RoundStable (P : Gen → Prop) : Prop where
  step : ∀ g o g', P g → g.step o = some g' → P g'
  cur : ∀ g d, P g → P { g with currDisj := d }

theorem RoundStable.run {P : Gen → Prop} (hP : RoundStable P) {g g' : Gen} {ops : List Op} (h : P g)
    (hr : runRes g ops = .ok g') : P g' :=
  run_induct hP.step g g' ops h (runRes_ok hr)

theorem RoundStable.tryPRLP {P : Gen → Prop} (hP : RoundStable P) {c : GenCfg} {w : TryWorld} {g : Gen}
    {r : Gen × ExitReason} (h : P g) (hr : VPC.tryPRLP c w g = .ok r) : P r.1 := by
  unfold VPC.tryPRLP at hr
  split at hr
  · cases hr; exact h
  · split at hr
    · obtain ⟨g', h1, h2⟩ := Res.bind_ok hr
      cases h2
      exact hP.run h h1
    · cases hr; exact h

theorem RoundStable.tryObj {P : Gen → Prop} (hP : RoundStable P) {c : GenCfg} {w : TryWorld} {g : Gen}
    {r : Gen × ExitReason} (h : P g) (hr : tryObjectives c w g = .ok r) : P r.1 := by
  unfold tryObjectives at hr
  split at hr
  · cases hr; exact h
  · split at hr
    · cases hr; exact h
    · obtain ⟨g', h1, h2⟩ := Res.bind_ok hr
      have h' := hP.run h h1
      split at h2
      · cases h2; exact h'
      · obtain ⟨r', h3, h4⟩ := Res.bind_ok h2
        split at h4
        · cases h4
        · cases h4; exact hP.tryPRLP h' h3

theorem RoundStable.pass {P : Gen → Prop} (hP : RoundStable P) {c : GenCfg} {w : DisjWorld} {d : ℕ} {g : Gen}
    {r : Gen × ExitReason × Bool} (h : P g) (hr : disjPass c w d g = .ok r) : P r.1 := by
  unfold disjPass at hr
  have h0 := hP.cur g d h
  dsimp only at hr
  split at hr
  · cases hr; exact h0
  · split at hr
    · cases hr; exact h0
    · obtain ⟨g', h1, h2⟩ := Res.bind_ok hr
      have h' := hP.run h0 h1
      split at h2
      · cases h2; exact h'
      · obtain ⟨r', h3, h4⟩ := Res.bind_ok h2
        cases h4
        exact hP.tryObj h' h3

theorem RoundStable.loop {P : Gen → Prop} (hP : RoundStable P) {c : GenCfg} {w : ℕ → DisjWorld} {r : Gen × ExitReason} :
    ∀ (k d : ℕ) (g : Gen) (st : ExitReason), P g → disjLoop c w k d g st = .ok r → P r.1 := by
  intro k
  induction k with
  | zero => intro d g st h hr; cases hr; exact h
  | succ k ih =>
    intro d g st h hr
    unfold disjLoop at hr
    obtain ⟨p, h1, h2⟩ := Res.bind_ok hr
    have h' := hP.pass h h1
    split at h2
    · cases h2; exact h'
    · exact ih _ _ _ h' h2

theorem RoundStable.cuts {P : Gen → Prop} (hP : RoundStable P) {c : GenCfg} {w : GenWorld} {m : Mode} {n : ℕ}
    {g : Gen} {r : Gen × ExitReason} (h : P g) (hr : cutsFromDisj c w m n g = .ok r) : P r.1 := by
  unfold cutsFromDisj at hr
  split at hr
  · cases hr
  · obtain ⟨g', h1, h2⟩ := Res.bind_ok hr
    have h' := hP.run (hP.cur g 0 h) h1
    split at h2
    · cases h2; exact h'
    · exact hP.loop _ _ _ _ h' h2

theorem RoundStable.prep {P : Gen → Prop} (hP : RoundStable P)
    (hadd : ∀ g c d, P g → P (g.addCut c .OPTIMALITY_CUT .OBJ_CUT d))
    {c : GenCfg} {w : GenWorld} {m : Mode} {n : ℕ}
    {g : Gen} {r : Gen × ExitReason} (h : P g) (hr : prepareAndCut c w m n g = .ok r) : P r.1 := by
  unfold prepareAndCut at hr
  split at hr
  · exact hP.cuts h hr
  · dsimp only at hr
    have h' : P (if prepStatus w m n = .OPTIMAL_SOLUTION_FOUND then addObjCut w m g else g) := by
      split
      · exact hadd _ _ _ (hP.cur g _ h)
      · exact h
    split at hr
    · cases hr; exact h'
    · exact hP.cuts h' hr

theorem RoundStable.disj {P : Gen → Prop} (hP : RoundStable P)
    (hadd : ∀ g c d, P g → P (g.addCut c .OPTIMALITY_CUT .OBJ_CUT d))
    {c : GenCfg} {w : GenWorld} {g : Gen} {o : GenOut} (h : P g)
    (hr : disjAndCut c w g = .ok o) : P o.gen := by
  unfold disjAndCut at hr
  obtain ⟨ch, _, h2⟩ := Res.bind_ok hr
  match ch, h2 with
  | none, h2 => cases h2; exact h
  | some (m, n), h2 =>
    dsimp only at h2
    split at h2
    · cases h2
    · obtain ⟨r, h3, h4⟩ := Res.bind_ok h2
      cases h4
      exact hP.prep hadd h h3

theorem step_init (g : Gen) (o : Op) (g' : Gen) (hs : g.step o = some g') :
    g'.initNumCuts = g.initNumCuts := by
  cases o with
  | note n => simp only [Gen.step, Option.some.injEq] at hs; subst hs; rfl
  | rootCut e c =>
    simp only [Gen.step, Option.some.injEq] at hs; subst hs
    unfold VPC.rootCut
    split
    · rfl
    · split <;> rfl
  | nextDisj d => simp only [Gen.step, Option.some.injEq] at hs; subst hs; rfl
  | tryObj e old s heur =>
    obtain ⟨r, he⟩ := step_tryObj hs
    cases he <;> rfl

/-- The counters are right and the number of given cuts is `n`. -/
def Books (n : ℕ) (g : Gen) : Prop := Ledger g ∧ g.initNumCuts = n

theorem books_stable (n : ℕ) : RoundStable (Books n) where
  step := fun g o g' h hs => ⟨step_ledger g o g' h.1 hs, by rw [step_init g o g' hs]; exact h.2⟩
  cur := fun _ _ h => ⟨{ h.1 with }, h.2⟩

/-- The result of a call on a fresh generator and an empty collection. -/
theorem generate_books {c : GenCfg} {w : GenWorld} {L : ℤ} {o : GenOut}
    (h : generateCuts c w (Gen.fresh L) [] = .ok o) :
    o.gen.cuts.length = o.gen.numCuts ∧ (o.disjs = none → o.gen.cuts = []) := by
  unfold generateCuts at h
  dsimp only at h
  split at h
  · cases h; exact ⟨rfl, fun _ => rfl⟩
  · split at h
    · cases h; exact ⟨rfl, fun _ => rfl⟩
    · split at h
      · cases h
      · rename_i g' r hs
        cases h
        unfold Gen.startRound at hs
        dsimp only at hs
        split at hs
        · cases hs
        · split at hs
          · cases hs; exact ⟨rfl, fun _ => rfl⟩
          · cases hs
      · rename_i g0 hs
        have hb : Books 0 g0 := by
          refine ⟨counters_exact _ g0 g0 [] w.numFrac w.numFrac0 [] hs (Or.inr rfl) rfl, ?_⟩
          exact (startRound_go hs).2.1
        have hb' := (books_stable 0).disj (fun g c d hg => ⟨addCut_ledger hg.1 _ _ _ _, hg.2⟩) hb h
        refine ⟨by rw [hb'.1.cuts, hb'.2]; omega, ?_⟩
        intro hd
        unfold disjAndCut at h
        obtain ⟨ch, h1, h2⟩ := Res.bind_ok h
        match ch, h2 with
        | none, h2 => cases h2; exact (startRound_go hs).1
        | some (m, n), h2 =>
          dsimp only at h2
          split at h2
          · cases h2
          · obtain ⟨r, _, h4⟩ := Res.bind_ok h2
            cases h4
            cases hd

/-! ## C63: a disjunction supplied by the caller -/

/-- **C63 (negation).** Whatever disjunction the caller supplies, whatever the mode, the limits and the
solver do: if `generateCuts` returns at all, it has not added or changed a single cut. -/
theorem supplied_disjunction_never_used (c : GenCfg) (hc : c.hasDisj = true) (w : GenWorld) (g : Gen)
    (given : List GCut) (o : GenOut) (h : generateCuts c w g given = .ok o) : o.gen.cuts = given := by
  unfold generateCuts at h
  dsimp only at h
  split at h
  · cases h; rfl
  · split at h
    · cases h; rfl
    · split at h
      · cases h
      · rename_i g' r hs
        cases h
        unfold Gen.startRound at hs
        dsimp only at hs
        split at hs
        · cases hs
        · split at hs
          · cases hs; rfl
          · cases hs
      · unfold disjAndCut chooseDisj at h
        rw [if_pos hc] at h
        simp only [Res.bind, prepareAndCut, cutsFromDisj] at h
        split at h <;> cases h

/-- **C63 (negation).** Unless a limit stops it before it starts, a call with a supplied disjunction
terminates the process. -/
theorem supplied_disjunction_exits (c : GenCfg) (hc : c.hasDisj = true) (w : GenWorld) (g g0 : Gen)
    (given : List GCut) (h1 : c.mode = .DISJ_SET_PBB ∨ c.disjTerms ≠ 0) (h2 : w.timeUp = false)
    (h3 : { g with perDisj := c.mode.perDisj, cuts := given }.startRound given w.numFrac w.numFrac0
      = .go g0) :
    generateCuts c w g given = .exit := by
  unfold generateCuts
  dsimp only
  rw [if_neg (by rintro ⟨a, b⟩; rcases h1 with h | h <;> contradiction), h2, h3]
  simp only [Bool.false_eq_true, if_false, disjAndCut, chooseDisj, hc, if_true, Res.bind,
    prepareAndCut, cutsFromDisj]
  split <;> rfl

/-- A world in which nothing special happens. -/
def quietTry : TryWorld := ⟨false, false, false, .SUCCESS, [], false, 0⟩
/-- A world in which nothing special happens. -/
def quietDisj : DisjWorld := ⟨false, [], .SUCCESS, quietTry⟩
/-- A world in which nothing special happens: 3 fractional variables, the disjunction is prepared. -/
def quietGen : GenWorld :=
  { timeUp := false, numFrac := 3, numFrac0 := 3, numSplits := 2, optimal := true, prep := .SUCCESS
    objCut := ⟨⟨[(0, 1)], 5⟩, 0⟩, objDisj := 0, initOps := [], init := .SUCCESS
    disj := fun _ => quietDisj }

/-- Partial trees with 4 terms. -/
def pbbCfg : GenCfg := ⟨.PARTIAL_BB, 4, [], false, 5, false, 0⟩

/-- The hypotheses of `supplied_disjunction_exits` are met: 4 terms requested, cut limit 10, one
supplied disjunction. -/
example : ∃ g0, { Gen.fresh 10 with perDisj := Mode.CUSTOM.perDisj, cuts := [] }.startRound []
    quietGen.numFrac quietGen.numFrac0 = .go g0 := ⟨_, rfl⟩

example : generateCuts { pbbCfg with mode := .CUSTOM, hasDisj := true } quietGen (Gen.fresh 10) []
    = .exit := rfl

/-! ## C64: the round number -/

/-- **C64 (negation).** A generator that is not set up for repeated use passes the round number 0 to its
disjunction, whatever round it was constructed for. -/
theorem round_number_lost (c : GenCfg) (w : GenWorld) (g : Gen) (given : List GCut)
    (hg : g.repeatedUse = false) (o : GenOut) (h : generateCuts c w g given = .ok o) :
    o.disjRound = 0 := by
  unfold generateCuts at h
  dsimp only at h
  split at h
  · cases h; rfl
  · split at h
    · cases h; rfl
    · split at h
      · cases h
      · cases h; rfl
      · rename_i g0 hs
        have hrep : g0.repeatedUse = false := by
          unfold Gen.startRound at hs
          dsimp only at hs
          split at hs
          · cases hs
          · split at hs
            · cases hs
            · cases hs; exact hg
        unfold disjAndCut at h
        obtain ⟨ch, _, h2⟩ := Res.bind_ok h
        match ch, h2 with
        | none, h2 => cases h2; rfl
        | some (m, n), h2 =>
          dsimp only at h2
          split at h2
          · cases h2
          · obtain ⟨r, _, h4⟩ := Res.bind_ok h2
            cases h4
            simp [hrep]

/-- The generator of round 7 makes a disjunction that believes to be in round 0. -/
example : ∃ o, generateCuts { pbbCfg with roundInd := 7 } quietGen (Gen.fresh 10) [] = .ok o ∧
    o.disjs = some 1 ∧ o.disjRound = 0 := ⟨_, rfl, rfl, rfl⟩

/-! ## C65: documented modes and options -/

/-- **C65 (negation).** Mode `CROSSES` and (without a supplied disjunction) mode `CUSTOM` never get
past the choice of a disjunction: the process ends. -/
theorem crosses_and_custom_exit (c : GenCfg) (w : GenWorld) (h : c.hasDisj = false)
    (hm : c.mode = .CROSSES ∨ c.mode = .CUSTOM) (g : Gen) : disjAndCut c w g = .exit := by
  unfold disjAndCut chooseDisj
  rw [h]
  rcases hm with hm | hm <;> rw [hm] <;> rfl

/-- **C65 (negation).** With `PRLP_FLIP_BETA > 0` the process ends whenever objectives could be tried. -/
theorem flip_beta_exits (c : GenCfg) (hf : c.flipBeta = true) (w : TryWorld) (g : Gen)
    (h1 : w.timeUp = false) (h2 : g.reachedCutLimit = false) : tryObjectives c w g = .exit := by
  unfold tryObjectives
  rw [h1, h2]
  simp only [Bool.false_eq_true, if_false]
  obtain ⟨g1, e1⟩ := runRes_total g (tryNotes w)
  rw [e1]
  simp only [Res.bind, hf, Bool.not_true, Bool.and_false, Bool.false_eq_true, if_false, if_true]
  obtain ⟨r, e2⟩ := tryPRLP_total c w g1
  rw [e2]

/-- **C65 (negation).** In mode `DISJ_SET_PBB` an option below 2 is undefined behaviour (erasing from
the vector being iterated). -/
theorem small_option_undefined (c : GenCfg) (w : GenWorld) (h : c.hasDisj = false)
    (hm : c.mode = .DISJ_SET_PBB) (t : ℤ) (ht : t ∈ c.disjOptions) (h2 : t < 2) (g : Gen) :
    disjAndCut c w g = .undef := by
  unfold disjAndCut chooseDisj
  rw [h, hm]
  have : c.disjOptions.any (fun t => decide (t < 2)) = true :=
    List.any_eq_true.mpr ⟨t, ht, by simpa using h2⟩
  simp [this, Res.bind]

/-- The LP relaxation handed to the generator is optimal and flipping is off. -/
def GoodCall (c : GenCfg) (w : GenWorld) : Prop :=
  c.hasDisj = false ∧ c.flipBeta = false ∧ w.optimal = true

theorem tryObjectives_total (c : GenCfg) (hf : c.flipBeta = false) (w : TryWorld) (g : Gen) :
    ∃ r, tryObjectives c w g = .ok r := by
  unfold tryObjectives
  split
  · exact ⟨_, rfl⟩
  · split
    · exact ⟨_, rfl⟩
    · obtain ⟨g1, e1⟩ := runRes_total g (tryNotes w)
      rw [e1]
      simp only [Res.bind]
      split
      · exact ⟨_, rfl⟩
      · simp only [hf, Bool.false_eq_true, if_false]
        obtain ⟨r, e2⟩ := tryPRLP_total c w g1
        rw [e2]; exact ⟨_, rfl⟩

theorem disjLoop_total (c : GenCfg) (hf : c.flipBeta = false) (w : ℕ → DisjWorld) :
    ∀ (k d : ℕ) (g : Gen) (st : ExitReason), ∃ r, disjLoop c w k d g st = .ok r := by
  intro k
  induction k with
  | zero => intro d g st; exact ⟨_, rfl⟩
  | succ k ih =>
    intro d g st
    unfold disjLoop
    have hp : ∃ p, disjPass c (w d) d g = .ok p := by
      unfold disjPass
      dsimp only
      split
      · exact ⟨_, rfl⟩
      · split
        · exact ⟨_, rfl⟩
        · obtain ⟨g1, e1⟩ := runRes_total { g with currDisj := (d : ℤ) } (w d).setupOps
          rw [e1]
          simp only [Res.bind]
          split
          · exact ⟨_, rfl⟩
          · obtain ⟨r, e2⟩ := tryObjectives_total c hf (w d).tryW g1
            rw [e2]; exact ⟨_, rfl⟩
    obtain ⟨p, hp⟩ := hp
    rw [hp]
    simp only [Res.bind]
    split
    · exact ⟨_, rfl⟩
    · exact ih _ _ _

theorem disjAndCut_total (c : GenCfg) (w : GenWorld) (hgood : GoodCall c w) (g : Gen)
    (hm : c.mode = .PARTIAL_BB ∨ c.mode = .SPLITS ∨
      (c.mode = .DISJ_SET_PBB ∧ ∀ t ∈ c.disjOptions, 2 ≤ t)) :
    ∃ o, disjAndCut c w g = .ok o := by
  obtain ⟨h1, h2, h3⟩ := hgood
  have hc : ∃ ch, chooseDisj c w = .ok ch ∧ ∀ m n, ch = some (m, n) → m ≠ .CUSTOM := by
    unfold chooseDisj
    rw [h1]
    rcases hm with hm | hm | ⟨hm, ho⟩
    · rw [hm]
      simp only [Bool.false_eq_true, if_false]
      split
      · exact ⟨_, rfl, fun _ _ h => by cases h⟩
      · exact ⟨_, rfl, fun _ _ h => by cases h; decide⟩
    · rw [hm]; exact ⟨_, rfl, fun _ _ h => by cases h; decide⟩
    · rw [hm]
      have : c.disjOptions.any (fun t => decide (t < 2)) = false := by
        rw [List.any_eq_false]; intro t ht; have := ho t ht; simp; omega
      simp only [Bool.false_eq_true, if_false, this]
      exact ⟨_, rfl, fun _ _ h => by cases h; decide⟩
  obtain ⟨ch, e1, hne⟩ := hc
  unfold disjAndCut
  rw [e1]
  simp only [Res.bind]
  match ch, hne with
  | none, _ => exact ⟨_, rfl⟩
  | some (m, n), hne =>
    have hne := hne m n rfl
    simp only [h3, Bool.not_true, Bool.false_eq_true, if_false]
    have hp : ∃ r, prepareAndCut c w m n g = .ok r := by
      unfold prepareAndCut
      rw [if_neg hne]
      dsimp only
      split
      · exact ⟨_, rfl⟩
      · unfold cutsFromDisj
        rw [if_neg hne]
        generalize { (if prepStatus w m n = .OPTIMAL_SOLUTION_FOUND then addObjCut w m g else g) with
          currDisj := 0 } = x
        obtain ⟨g1, e2⟩ := runRes_total x w.initOps
        rw [e2]
        simp only [Res.bind]
        split
        · exact ⟨_, rfl⟩
        · exact disjLoop_total c h2 w.disj n 0 g1 w.init
    obtain ⟨r, hr⟩ := hp
    rw [hr]
    exact ⟨_, rfl⟩

/-- **C65, what holds.** In the three implemented modes (tree, splits, set of trees with at least two
terms each), with flipping off, a solved LP and a fresh generator, the call always returns. -/
theorem implemented_modes_return_partial (c : GenCfg) (w : GenWorld) (hgood : GoodCall c w) (L : ℤ)
    (hm : c.mode = .PARTIAL_BB ∨ c.mode = .SPLITS ∨
      (c.mode = .DISJ_SET_PBB ∧ ∀ t ∈ c.disjOptions, 2 ≤ t)) :
    ∃ o, generateCuts c w (Gen.fresh L) [] = .ok o := by
  unfold generateCuts
  dsimp only
  split
  · exact ⟨_, rfl⟩
  · split
    · exact ⟨_, rfl⟩
    · split
      · rename_i hs
        unfold Gen.startRound at hs
        dsimp only at hs
        split at hs
        · rename_i h; exact absurd rfl h.1
        · split at hs <;> cases hs
      · exact ⟨_, rfl⟩
      · exact disjAndCut_total c w hgood _ hm

example : GoodCall pbbCfg quietGen ∧ pbbCfg.mode = .PARTIAL_BB := ⟨⟨rfl, rfl, rfl⟩, rfl⟩

/-! ## C66: the reported reason -/

/-- **C66.** `tryObjectives` reports success only if no limit is reached (the time limit was not up at
either check, the number of cuts is below the limit, the failure limit does not apply), and reports the
cut limit only if it is reached (or `PRLP::setup` said so). -/
theorem try_reason_true (c : GenCfg) (w : TryWorld) (g : Gen) (g' : Gen) (r : ExitReason)
    (hs : w.prlp ≠ .CUT_LIMIT) (h : tryObjectives c w g = .ok (g', r)) :
    (r = .SUCCESS → w.timeUp = false ∧ w.timeUpEnd = false ∧ g'.reachedCutLimit = false ∧
      reachedFailureLimit g'.cutLimit w.time c.prlpTimeLimit (g'.numCuts - g.numCuts)
        (g'.numFailures - g.numFailures) = false) ∧
    (r = .CUT_LIMIT → g'.reachedCutLimit = true) := by
  unfold tryObjectives at h
  split at h
  · cases h; exact ⟨fun h => (by cases h), fun h => (by cases h)⟩
  · rename_i ht
    split at h
    · rename_i hl
      cases h; exact ⟨fun h => (by cases h), fun _ => hl⟩
    · obtain ⟨g1, h1, h2⟩ := Res.bind_ok h
      have hnote : g1.numCuts = g.numCuts ∧ g1.numFailures = g.numFailures := by
        have hr := runRes_ok h1
        unfold tryNotes at hr
        cases hb1 : w.lpNotCut <;> cases hb2 : w.dlbEqDub <;>
          simp only [hb1, hb2, if_true, Bool.false_eq_true, if_false, List.append_nil,
            List.nil_append, List.singleton_append, run_cons, run_nil, Gen.step, Option.bind_some,
            Option.some.injEq] at hr <;> subst hr <;> exact ⟨rfl, rfl⟩
      split at h2
      · cases h2; exact ⟨fun h => (by cases h), fun h => (by cases h)⟩
      · obtain ⟨r', h3, h4⟩ := Res.bind_ok h2
        split at h4
        · cases h4
        · cases h4
          unfold tryPRLP at h3
          split at h3
          · cases h3; exact ⟨fun h => (by cases h), fun h => (by cases h)⟩
          · split at h3
            · obtain ⟨g2, h5, h6⟩ := Res.bind_ok h3
              simp only [Res.ok.injEq, Prod.mk.injEq] at h6
              obtain ⟨e1, e2⟩ := h6
              subst e1
              unfold tryStatus at e2
              rw [hnote.1, hnote.2] at e2
              split at e2
              · subst e2; exact ⟨fun h => (by cases h), fun h => (by cases h)⟩
              · rename_i k1
                split at e2
                · rename_i k2
                  subst e2; exact ⟨fun h => (by cases h), fun _ => k2⟩
                · rename_i k2
                  split at e2
                  · subst e2; exact ⟨fun h => (by cases h), fun h => (by cases h)⟩
                  · rename_i k3
                    subst e2
                    exact ⟨fun _ => ⟨by simpa using ht, by simpa using k1, by simpa using k2,
                      by simpa using k3⟩, fun h => (by cases h)⟩
            · rename_i hne
              simp only [Res.ok.injEq, Prod.mk.injEq] at h3
              obtain ⟨_, e2⟩ := h3
              exact ⟨fun h => absurd (e2.trans h) hne, fun h => absurd (e2.trans h) hs⟩

example : ∃ g', tryObjectives pbbCfg quietTry (Gen.fresh 10) = .ok (g', .SUCCESS) := ⟨_, rfl⟩

/-! ## C33: totals over rounds -/

theorem plainRound_cuts {c : MainCfg} {w : RoundWorld} {terms : ℤ} {round : ℕ} {p : VpcPart}
    (h : plainRound c w terms round = .ok p) :
    p.dTotal = p.cuts.length ∧ p.dRound = p.cuts.length ∧ p.objs = p.objsRound := by
  unfold plainRound at h
  obtain ⟨o, h1, h2⟩ := Res.bind_ok h
  obtain ⟨k1, k2⟩ := generate_books h1
  split at h2
  · rename_i hd
    cases h2
    simp [k2 hd]
  · cases h2
    simp [k1]

theorem customLoop_cuts {c : MainCfg} {w : RoundWorld} {terms : ℤ} {round : ℕ} {limit : ℤ} :
    ∀ (k d : ℕ) (g : Gen) (p p' : VpcPart), p.cuts = [] → p.dTotal = 0 → g.numCuts = 0 →
      customLoop c w terms round limit k d g p = .ok p' →
      p'.cuts = [] ∧ p'.dTotal = 0 ∧ p'.dRound = p.dRound ∧ p'.objsRound = p.objsRound := by
  intro k
  induction k with
  | zero => intro d g p p' h1 h2 _ h; cases h; exact ⟨h1, h2, rfl, rfl⟩
  | succ k ih =>
    intro d g p p' h1 h2 h3 h
    unfold customLoop at h
    obtain ⟨o, e1, e2⟩ := Res.bind_ok h
    have hc := supplied_disjunction_never_used _ rfl _ _ _ _ e1
    have hn : o.gen.numCuts = 0 := by
      unfold generateCuts at e1
      dsimp only at e1
      split at e1
      · cases e1; exact h3
      · split at e1
        · cases e1; exact h3
        · split at e1
          · cases e1
          · rename_i hs
            cases e1
            unfold Gen.startRound at hs
            dsimp only at hs
            split at hs
            · cases hs
            · split at hs
              · cases hs; rfl
              · cases hs
          · unfold disjAndCut chooseDisj at e1
            simp only [MainCfg.toGen, if_true, Res.bind, prepareAndCut, cutsFromDisj] at e1
            split at e1 <;> cases e1
    obtain ⟨k1, k2, k3, k4⟩ := ih _ _ _ _ (by rw [hc]; exact h1) (by rw [h2, hn]; rfl) hn e2
    exact ⟨k1, k2, k3, k4⟩

theorem vpcPart_cuts {c : MainCfg} {w : RoundWorld} {terms : ℤ} {round : ℕ} {r : ExitReason}
    {p : VpcPart} (h : vpcPart c w terms round r = .ok p) :
    p.dTotal = p.cuts.length ∧ p.dRound = p.cuts.length ∧
      (c.mode = .CUSTOM → p.cuts = []) ∧ (c.mode ≠ .CUSTOM → p.objs = p.objsRound) := by
  unfold vpcPart at h
  split at h
  · split at h
    · rename_i hm
      unfold customRound at h
      dsimp only at h
      split at h
      · cases h; exact ⟨rfl, rfl, fun _ => rfl, fun h => absurd hm h⟩
      · obtain ⟨k1, k2, k3, k4⟩ := customLoop_cuts _ _ _ _ _ (by rfl) (by rfl) (by rfl) h
        exact ⟨by rw [k1, k2]; rfl, by rw [k1, k3]; rfl, fun _ => k1, fun h => absurd hm h⟩
    · rename_i hm
      obtain ⟨k1, k2, k3⟩ := plainRound_cuts h
      exact ⟨k1, k2, fun h => absurd h hm, fun _ => k3⟩
  · cases h; exact ⟨rfl, rfl, fun _ => rfl, fun _ => rfl⟩

/-- What the totals say about the cuts collected. -/
structure RoundBooks (s : MainState) : Prop where
  numVpc : s.numVpc = s.vpcs.length
  numGmic : s.numGmic = s.gmics.length
  vpcs : s.vpcs = s.byRound.flatten
  infos : s.infos.length = s.byRound.length
  perRound : ∀ (i : ℕ) (p : RoundInfo) (l : List GCut), s.infos[i]? = some p → s.byRound[i]? = some l → p.numVpc = l.length

theorem recordRound_books {c : MainCfg} {w : RoundWorld} {s : MainState} {terms : ℤ} {p : VpcPart}
    (h : RoundBooks s) (h1 : p.dTotal = p.cuts.length) (h2 : p.dRound = p.cuts.length) :
    RoundBooks (recordRound c w s terms p) where
  numVpc := by simp [recordRound, h.numVpc, h1]
  numGmic := by simp [recordRound, h.numGmic]
  vpcs := by simp [recordRound, h.vpcs]
  infos := by simp [recordRound, h.infos]
  perRound := by
    intro i q l hq hl
    simp only [recordRound] at hq hl
    rcases Nat.lt_trichotomy i s.infos.length with hi | hi | hi
    · rw [List.getElem?_append_left hi] at hq
      rw [List.getElem?_append_left (by rw [← h.infos]; exact hi)] at hl
      exact h.perRound i q l hq hl
    · rw [List.getElem?_append_right (by omega), hi, Nat.sub_self] at hq
      rw [List.getElem?_append_right (by rw [← h.infos]; omega), hi, h.infos, Nat.sub_self] at hl
      simp only [List.getElem?_cons_zero, Option.some.injEq] at hq hl
      subst hq; subst hl
      exact h2
    · rw [List.getElem?_eq_none (by simp; omega)] at hq; cases hq

theorem roundsLoop_books {c : MainCfg} {w : ℕ → RoundWorld} :
    ∀ (k r : ℕ) (s s' : MainState) (r' : ℕ), RoundBooks s → s.byRound.length = r →
      roundsLoop c w k r s = .ok (s', r') →
      RoundBooks s' ∧ r ≤ r' ∧ r' ≤ r + k ∧
        s'.byRound.length = (if r' < r + k then r' + 1 else r + k) := by
  intro k
  induction k with
  | zero =>
    intro r s s' r' h hl hr
    cases hr
    exact ⟨h, le_refl _, by omega, by simp [hl]⟩
  | succ k ih =>
    intro r s s' r' h hl hr
    unfold roundsLoop at hr
    dsimp only at hr
    obtain ⟨p, e1, e2⟩ := Res.bind_ok hr
    obtain ⟨k1, k2, _⟩ := vpcPart_cuts e1
    have hb := recordRound_books (c := c) (w := w r) (terms := roundTerms c r s.disjTerms) h k1 k2
    have hlen : (recordRound c (w r) s (roundTerms c r s.disjTerms) p).byRound.length = r + 1 := by
      simp [recordRound, hl]
    split at e2
    · cases e2
      exact ⟨hb, le_refl _, by omega, by rw [hlen, if_pos (by omega)]⟩
    · obtain ⟨a1, a2, a3, a4⟩ := ih (r + 1) _ s' r' hb hlen e2
      refine ⟨a1, by omega, by omega, ?_⟩
      rw [a4, show r + 1 + k = r + (k + 1) by omega]

/-- **C33.** After any number of rounds, whatever happens in them: the reported number of cuts is the
number of cuts in the returned collection, which consists of the cuts of the rounds in order; the
reported number of Gomory cuts is the number collected; the number of rounds reported is the number of
rounds performed and at most the number requested; and each round's count is the number of its cuts. -/
theorem rounds_totals (c : MainCfg) (w : ℕ → RoundWorld) (ROUNDS : ℕ) (terms : ℤ) (s : MainState)
    (n : ℕ) (h : mainRounds c w ROUNDS terms = .ok (s, n)) :
    s.numVpc = s.vpcs.length ∧ s.vpcs = s.byRound.flatten ∧ s.numGmic = s.gmics.length ∧
    n = s.byRound.length ∧ n ≤ ROUNDS ∧ s.infos.length = n ∧
    ∀ (i : ℕ) (p : RoundInfo) (l : List GCut), s.infos[i]? = some p → s.byRound[i]? = some l → p.numVpc = l.length := by
  unfold mainRounds at h
  obtain ⟨q, h1, h2⟩ := Res.bind_ok h
  obtain ⟨s', r'⟩ := q
  simp only [Res.ok.injEq, Prod.mk.injEq] at h2
  obtain ⟨e1, e2⟩ := h2
  subst e1
  have hb0 : RoundBooks { disjTerms := terms } :=
    ⟨rfl, rfl, rfl, rfl, fun i p l h => by cases h⟩
  obtain ⟨a1, a2, a3, a4⟩ := roundsLoop_books ROUNDS 0 _ _ _ hb0 rfl h1
  rw [Nat.zero_add] at a4 a3
  rw [e2] at a4
  refine ⟨a1.numVpc, a1.vpcs, a1.numGmic, a4.symm, ?_, by rw [a1.infos, a4], a1.perRound⟩
  rw [← e2]; split <;> omega

/-- **C63 / C33, custom mode.** In `CUSTOM` mode no cuts are ever collected. -/
theorem custom_rounds_no_cuts (c : MainCfg) (hc : c.mode = .CUSTOM) (w : ℕ → RoundWorld)
    (ROUNDS : ℕ) (terms : ℤ) (s : MainState) (n : ℕ)
    (h : mainRounds c w ROUNDS terms = .ok (s, n)) : s.vpcs = [] := by
  unfold mainRounds at h
  obtain ⟨q, h1, h2⟩ := Res.bind_ok h
  obtain ⟨s', r'⟩ := q
  simp only [Res.ok.injEq, Prod.mk.injEq] at h2
  obtain ⟨e1, _⟩ := h2
  subst e1
  have key : ∀ (k r : ℕ) (s s' : MainState) (r' : ℕ), s.vpcs = [] →
      roundsLoop c w k r s = .ok (s', r') → s'.vpcs = [] := by
    intro k
    induction k with
    | zero => intro r s s' r' h hr; cases hr; exact h
    | succ k ih =>
      intro r s s' r' h hr
      unfold roundsLoop at hr
      dsimp only at hr
      obtain ⟨p, e1, e2⟩ := Res.bind_ok hr
      have hp := (vpcPart_cuts e1).2.2.1 hc
      have hv : (recordRound c (w r) s (roundTerms c r s.disjTerms) p).vpcs = [] := by
        simp [recordRound, h, hp]
      split at e2
      · cases e2; exact hv
      · exact ih _ _ _ _ hv e2
  exact key _ _ _ _ _ rfl h1

/-- The conditions under which another round is started: cuts were found (Gomory cuts if only those
are asked for), the LP with the cuts is solved with a finite value, there is time left. -/
def GoOn (c : MainCfg) (w : RoundWorld) (terms : ℤ) (cuts : List GCut) : Prop :=
  w.timeUp = false ∧ w.optimal = true ∧ w.objInfinite = false ∧
  (if terms ≠ 0 ∨ c.disjOptions ≠ [] then cuts ≠ [] else roundGmics c w ≠ [])

theorem stop_iff (c : MainCfg) (w : RoundWorld) (terms : ℤ) (p : VpcPart) :
    stopRounds c w terms p = false ↔ GoOn c w terms p.cuts ∧ p.reason ≠ .OPTIMAL_SOLUTION_FOUND := by
  unfold stopRounds GoOn shouldGenerate
  by_cases h1 : terms = 0 <;> by_cases h2 : c.disjOptions = [] <;>
    simp [h1, h2, List.length_pos_iff, and_assoc, and_comm, and_left_comm]

theorem roundsLoop_mono {c : MainCfg} {w : ℕ → RoundWorld} :
    ∀ (k r : ℕ) (s s' : MainState) (r' : ℕ), roundsLoop c w k r s = .ok (s', r') →
      (∃ t, s'.byRound = s.byRound ++ t) := by
  intro k
  induction k with
  | zero => intro r s s' r' hr; cases hr; exact ⟨[], by simp⟩
  | succ k ih =>
    intro r s s' r' hr
    unfold roundsLoop at hr
    dsimp only at hr
    obtain ⟨p, e1, e2⟩ := Res.bind_ok hr
    split at e2
    · cases e2; exact ⟨_, rfl⟩
    · obtain ⟨t, ht⟩ := ih _ _ _ _ e2
      exact ⟨p.cuts :: t, by rw [ht]; simp [recordRound]⟩

theorem roundsLoop_stops {c : MainCfg} {w : ℕ → RoundWorld} (T : ℕ → ℤ)
    (hT : ∀ r, T (r + 1) = roundTerms c r (T r)) :
    ∀ (k r : ℕ) (s s' : MainState) (r' : ℕ), s.byRound.length = r → s.disjTerms = T r →
      roundsLoop c w k r s = .ok (s', r') →
      (∀ i, r ≤ i → i < r' → ∀ l, s'.byRound[i]? = some l → GoOn c (w i) (T (i + 1)) l) ∧
      (r' < r + k → ∃ l, s'.byRound[r']? = some l ∧
        (¬ GoOn c (w r') (T (r' + 1)) l ∨ s'.reason = .OPTIMAL_SOLUTION_FOUND)) ∧
      s'.disjTerms = T (s'.byRound.length) := by
  intro k
  induction k with
  | zero =>
    intro r s s' r' hl ht hr
    cases hr
    exact ⟨fun i h1 h2 => absurd h2 (by omega), fun h => absurd h (by omega), by rw [ht, hl]⟩
  | succ k ih =>
    intro r s s' r' hl ht hr
    unfold roundsLoop at hr
    dsimp only at hr
    obtain ⟨p, e1, e2⟩ := Res.bind_ok hr
    have hat : (recordRound c (w r) s (roundTerms c r s.disjTerms) p).byRound[r]? = some p.cuts := by
      simp only [recordRound]
      rw [List.getElem?_append_right (by omega), hl, Nat.sub_self]; rfl
    split at e2
    · rename_i hstop
      cases e2
      refine ⟨fun i h1 h2 => absurd h2 (by omega), fun _ => ⟨p.cuts, hat, ?_⟩, ?_⟩
      · by_contra hcon
        push Not at hcon
        have : stopRounds c (w r) (roundTerms c r s.disjTerms) p = false := by
          rw [stop_iff]
          rw [hT r, ← ht] at hcon
          exact hcon
        rw [this] at hstop; cases hstop
      · simp only [recordRound, List.length_append, List.length_cons, List.length_nil]
        rw [hl, zero_add, hT r, ht]
    · rename_i hstop
      have hgo := (stop_iff c (w r) (roundTerms c r s.disjTerms) p).mp (by simpa using hstop)
      obtain ⟨a1, a2, a3⟩ := ih (r + 1) _ s' r' (by simp [recordRound, hl])
        (by rw [hT r, ← ht]; rfl) e2
      refine ⟨?_, fun h => a2 (by omega), a3⟩
      intro i h1 h2 l hil
      rcases Nat.eq_or_lt_of_le h1 with h1 | h1
      · subst h1
        obtain ⟨t, ht'⟩ := roundsLoop_mono _ _ _ _ _ e2
        rw [ht', List.getElem?_append_left (by simp [recordRound, hl]), hat] at hil
        cases hil
        rw [hT r, ← ht]
        exact hgo.1
      · exact a1 i h1 h2 l hil

/-- The number of terms requested in round `r` (0-based): the `r`-th entry of the option list if there is
one (and the mode is not a set of trees), otherwise what was requested before. -/
def requestedTerms (c : MainCfg) (terms : ℤ) (r : ℕ) : ℤ :=
  if c.mode = .DISJ_SET_PBB then terms
  else (c.disjOptions[r]?).getD (c.disjOptions.getLast?.getD terms)

theorem requested_step (c : MainCfg) (terms : ℤ) (T : ℕ → ℤ) (h0 : T 0 = terms)
    (hT : ∀ r, T (r + 1) = roundTerms c r (T r)) (r : ℕ) : T (r + 1) = requestedTerms c terms r := by
  have key : ∀ r, (c.mode ≠ .DISJ_SET_PBB → c.disjOptions.length ≤ r →
      T r = c.disjOptions.getLast?.getD terms) ∧
      (c.mode = .DISJ_SET_PBB → T r = terms) ∧
      (c.mode ≠ .DISJ_SET_PBB → ∀ x, c.disjOptions[r]? = some x → T (r + 1) = x) := by
    have hx : ∀ r, c.mode ≠ .DISJ_SET_PBB → ∀ x, c.disjOptions[r]? = some x → T (r + 1) = x := by
      intro r hm x hx
      have hlt : r < c.disjOptions.length := (List.getElem?_eq_some_iff.mp hx).1
      rw [hT r, roundTerms, if_pos ⟨hm, hlt⟩, List.getD_eq_getElem?_getD, hx]; rfl
    intro r
    refine ⟨?_, ?_, hx r⟩
    · induction r with
      | zero =>
        intro _ hl
        have : c.disjOptions = [] := List.length_eq_zero_iff.mp (by omega)
        rw [this, h0]; rfl
      | succ r ih =>
        intro hm hl
        rcases Nat.eq_or_lt_of_le hl with he | hlt
        · have hlast : c.disjOptions[r]? = c.disjOptions.getLast? := by
            rw [List.getLast?_eq_getElem?, he]; rfl
          cases hg : c.disjOptions.getLast? with
          | none =>
            rw [List.getLast?_eq_none_iff] at hg
            rw [hg] at he; cases he
          | some x => rw [hg] at hlast; exact hx r hm x hlast
        · rw [hT r, roundTerms, if_neg (by rintro ⟨_, h⟩; omega)]
          exact ih hm (by omega)
    · intro hm
      induction r with
      | zero => exact h0
      | succ r ih => rw [hT r, roundTerms, if_neg (fun h => h.1 hm), ih]
  obtain ⟨k1, k2, k3⟩ := key r
  unfold requestedTerms
  split
  · rename_i hm
    rw [hT r, roundTerms, if_neg (fun h => h.1 hm), k2 hm]
  · rename_i hm
    cases hg : c.disjOptions[r]? with
    | some x => rw [k3 hm x hg]; rfl
    | none =>
      rw [List.getElem?_eq_none_iff] at hg
      rw [hT r, roundTerms, if_neg (by rintro ⟨_, h⟩; omega), k1 hm hg]; rfl

/-- **C33, stopping.** Every round before the last found cuts, left the LP solved with a finite value
and time to spare; and if fewer rounds than requested were performed, in the last one this failed or
the problem was reported as solved. The terms requested in round `i` are `requestedTerms c terms i`. -/
theorem rounds_stop (c : MainCfg) (w : ℕ → RoundWorld) (ROUNDS : ℕ) (terms : ℤ) (s : MainState)
    (n : ℕ) (h : mainRounds c w ROUNDS terms = .ok (s, n)) :
    (∀ i l, i + 1 < n → s.byRound[i]? = some l → GoOn c (w i) (requestedTerms c terms i) l) ∧
    (n < ROUNDS → ∃ i l, n = i + 1 ∧ s.byRound[i]? = some l ∧
      (¬ GoOn c (w i) (requestedTerms c terms i) l ∨ s.reason = .OPTIMAL_SOLUTION_FOUND)) := by
  unfold mainRounds at h
  obtain ⟨q, h1, h2⟩ := Res.bind_ok h
  obtain ⟨s', r'⟩ := q
  simp only [Res.ok.injEq, Prod.mk.injEq] at h2
  obtain ⟨e1, e2⟩ := h2
  subst e1
  let T : ℕ → ℤ := fun r => Nat.rec terms (fun r t => roundTerms c r t) r
  have hT : ∀ r, T (r + 1) = roundTerms c r (T r) := fun r => rfl
  obtain ⟨a1, a2, _⟩ := roundsLoop_stops T hT _ _ _ _ _ (by rfl) (by rfl) h1
  have hreq := requested_step c terms T rfl hT
  have hle : r' ≤ ROUNDS := by
    have hb0 : RoundBooks { disjTerms := terms } :=
      ⟨rfl, rfl, rfl, rfl, fun i p l h => by cases h⟩
    have := (roundsLoop_books ROUNDS 0 _ _ _ hb0 rfl h1).2.2.1
    omega
  rw [Nat.zero_add] at a2
  refine ⟨?_, ?_⟩
  · intro i l hi hl
    have := a1 i (Nat.zero_le _) (by split at e2 <;> omega) l hl
    rw [hreq i] at this
    exact this
  · intro hn
    have hr : r' < ROUNDS := by
      by_contra hcon
      rw [if_neg hcon] at e2
      omega
    obtain ⟨l, hl, hor⟩ := a2 hr
    rw [if_pos hr] at e2
    refine ⟨r', l, e2.symm, hl, ?_⟩
    rw [hreq r'] at hor
    exact hor

/-- **C33, solved problems.** A round that reports the problem solved is the last one: cutting the
run short after any round but the last shows another reason. -/
theorem rounds_stop_when_solved (c : MainCfg) (w : ℕ → RoundWorld) (ROUNDS : ℕ) (terms : ℤ)
    (s : MainState) (n : ℕ) (h : mainRounds c w ROUNDS terms = .ok (s, n)) (i : ℕ) (hi : i + 1 < n) :
    ∃ s', mainRounds c w (i + 1) terms = .ok (s', i + 1) ∧ s'.reason ≠ .OPTIMAL_SOLUTION_FOUND ∧
      s'.byRound = s.byRound.take (i + 1) := by
  have key : ∀ (k r : ℕ) (s s1 : MainState) (r' : ℕ), s.byRound.length = r →
      roundsLoop c w k r s = .ok (s1, r') → ∀ j, j < r' - r →
      ∃ s', roundsLoop c w (j + 1) r s = .ok (s', r + j + 1) ∧ s'.reason ≠ .OPTIMAL_SOLUTION_FOUND ∧
        s'.byRound = s1.byRound.take (r + j + 1) := by
    intro k
    induction k with
    | zero => intro r s s1 r' _ hr j hj; cases hr; omega
    | succ k ih =>
      intro r s s1 r' hl hr j hj
      unfold roundsLoop at hr
      dsimp only at hr
      obtain ⟨p, e1, e2⟩ := Res.bind_ok hr
      split at e2
      · cases e2; omega
      · rename_i hstop
        have hgo := (stop_iff c (w r) (roundTerms c r s.disjTerms) p).mp (by simpa using hstop)
        have hstep : ∀ m, roundsLoop c w (m + 1) r s =
            roundsLoop c w m (r + 1) (recordRound c (w r) s (roundTerms c r s.disjTerms) p) := by
          intro m
          conv => lhs; unfold roundsLoop
          dsimp only
          rw [e1]
          simp only [Res.bind]
          rw [if_neg hstop]
        rw [hstep]
        cases j with
        | zero =>
          refine ⟨_, rfl, hgo.2, ?_⟩
          obtain ⟨t, ht⟩ := roundsLoop_mono _ _ _ _ _ e2
          rw [ht, List.take_append_of_le_length (by simp [recordRound, hl]),
            List.take_of_length_le (by simp [recordRound, hl])]
        | succ j =>
          obtain ⟨s', k1, k2, k3⟩ := ih (r + 1) _ s1 r' (by simp [recordRound, hl]) e2 j (by omega)
          exact ⟨s', by rw [k1]; congr 2; omega, k2, by rw [k3]; congr 1; omega⟩
  unfold mainRounds at h
  obtain ⟨q, h1, h2⟩ := Res.bind_ok h
  obtain ⟨s1, r'⟩ := q
  simp only [Res.ok.injEq, Prod.mk.injEq] at h2
  obtain ⟨e1, e2⟩ := h2
  subst e1
  have hr' : i < r' := by split at e2 <;> omega
  obtain ⟨s', k1, k2, k3⟩ := key ROUNDS 0 _ s1 r' rfl h1 i (by omega)
  rw [Nat.zero_add] at k1 k3
  refine ⟨s', ?_, k2, k3⟩
  unfold mainRounds
  rw [k1]
  simp [Res.bind]

theorem foldl_runMax (l : List ℚ) (a : ℚ) :
    a ≤ l.foldl runMax a ∧ (∀ x ∈ l, x ≤ l.foldl runMax a) ∧
    (l.foldl runMax a = a ∨ l.foldl runMax a ∈ l) := by
  induction l generalizing a with
  | nil => exact ⟨le_refl _, fun x hx => absurd hx List.not_mem_nil, Or.inl rfl⟩
  | cons y ys ih =>
    obtain ⟨h1, h2, h3⟩ := ih (runMax a y)
    have ha : a ≤ runMax a y := by unfold runMax; split <;> linarith
    have hy : y ≤ runMax a y := by unfold runMax; split <;> linarith
    rw [List.foldl_cons]
    refine ⟨ha.trans h1, ?_, ?_⟩
    · intro x hx
      rcases List.mem_cons.mp hx with hx | hx
      · subst hx; exact hy.trans h1
      · exact h2 x hx
    · rcases h3 with h3 | h3
      · rw [h3]
        unfold runMax
        split
        · exact Or.inr (by simp)
        · exact Or.inl rfl
      · exact Or.inr (List.mem_cons_of_mem _ h3)

/-- **C33, bound.** Outside `CUSTOM` mode the reported disjunctive bound is the largest of the rounds'
disjunctive bounds (`lowest()` if no disjunction was seen). -/
theorem rounds_best (c : MainCfg) (hc : c.mode ≠ .CUSTOM) (w : ℕ → RoundWorld) (ROUNDS : ℕ)
    (terms : ℤ) (s : MainState) (n : ℕ) (h : mainRounds c w ROUNDS terms = .ok (s, n)) :
    (∀ p ∈ s.infos, p.best ≤ s.best) ∧ (s.best = -dblMax ∨ ∃ p ∈ s.infos, p.best = s.best) := by
  have key : ∀ (k r : ℕ) (s s' : MainState) (r' : ℕ),
      -dblMax ≤ s.best → (∀ p ∈ s.infos, p.best ≤ s.best) →
      (s.best = -dblMax ∨ ∃ p ∈ s.infos, p.best = s.best) →
      roundsLoop c w k r s = .ok (s', r') →
      (∀ p ∈ s'.infos, p.best ≤ s'.best) ∧
        (s'.best = -dblMax ∨ ∃ p ∈ s'.infos, p.best = s'.best) := by
    intro k
    induction k with
    | zero => intro r s s' r' _ h1 h2 hr; cases hr; exact ⟨h1, h2⟩
    | succ k ih =>
      intro r s s' r' h0 h1 h2 hr
      unfold roundsLoop at hr
      dsimp only at hr
      obtain ⟨p, e1, e2⟩ := Res.bind_ok hr
      have hp := (vpcPart_cuts e1).2.2.2 hc
      obtain ⟨b1, b2, b3⟩ := foldl_runMax (p.objs.map (·.1)) s.best
      obtain ⟨d1, d2, d3⟩ := foldl_runMax (p.objs.map (·.1)) (-dblMax)
      generalize hs1 : recordRound c (w r) s (roundTerms c r s.disjTerms) p = s1 at e2
      have hbest : s1.best = (p.objs.map (·.1)).foldl runMax s.best := by rw [← hs1]; rfl
      have hinf : ∃ q : RoundInfo, q.best = (p.objs.map (·.1)).foldl runMax (-dblMax) ∧
          s1.infos = s.infos ++ [q] := by
        rw [← hs1]; exact ⟨_, by rw [hp], rfl⟩
      obtain ⟨q, hq, hinf⟩ := hinf
      have c0 : -dblMax ≤ s1.best := by rw [hbest]; exact h0.trans b1
      have c1 : ∀ p ∈ s1.infos, p.best ≤ s1.best := by
        intro x hx
        rw [hinf] at hx
        rcases List.mem_append.mp hx with hx | hx
        · rw [hbest]; exact (h1 x hx).trans b1
        · rw [List.mem_singleton] at hx
          subst hx
          rw [hq, hbest]
          rcases d3 with d3 | d3
          · rw [d3]; exact h0.trans b1
          · exact b2 _ d3
      have c2 : s1.best = -dblMax ∨ ∃ p ∈ s1.infos, p.best = s1.best := by
        rcases b3 with b3 | b3
        · rcases h2 with h2 | ⟨x, hx, hxe⟩
          · left; rw [hbest, b3, h2]
          · right; exact ⟨x, by rw [hinf]; exact List.mem_append_left _ hx, by rw [hbest, b3, hxe]⟩
        · right
          refine ⟨q, by rw [hinf]; simp, ?_⟩
          have hle := c1 q (by rw [hinf]; simp)
          have hge := d2 _ b3
          rw [hbest] at hle ⊢
          rw [hq] at hle ⊢
          exact le_antisymm hle hge
      split at e2
      · cases e2; exact ⟨c1, c2⟩
      · exact ih _ _ _ _ c0 c1 c2 e2
  unfold mainRounds at h
  obtain ⟨q, h1, h2⟩ := Res.bind_ok h
  obtain ⟨s1, r'⟩ := q
  simp only [Res.ok.injEq, Prod.mk.injEq] at h2
  obtain ⟨e1, _⟩ := h2
  subst e1
  exact key _ _ _ _ _ (le_refl _) (fun p h => by cases h) (Or.inl rfl) h1

/-- Three rounds are requestedTerms, the first finds one cut (an objective that works), the second reports
the optimal solution: two rounds, two cuts. -/
def demoRounds : ℕ → RoundWorld := fun r =>
  { gmics := [⟨⟨[(0, 1)], 1⟩, 0⟩]
    gen := fun _ => if r = 0 then
        { quietGen with disj := fun _ => { quietDisj with tryW := { quietTry with
            ops := [.tryObj { demoEnv with ortho := fun _ _ => 1 } none (.optimal [1, 1]) .ALL_ONES] } } }
      else { quietGen with prep := .OPTIMAL_SOLUTION_FOUND }
    objs := fun _ => ((r : ℚ), (r : ℚ) + 1)
    timeUp := false, optimal := true, objInfinite := false }

/-- Configuration for the example. -/
def demoMain : MainCfg := ⟨1, .PARTIAL_BB, [], -1, false, 5⟩

/-- The hypotheses of the theorems on rounds are met by a run with cuts in two rounds that stops
before the requestedTerms three. -/
example : (match mainRounds demoMain demoRounds 3 4 with
    | .ok (s, n) => (s.numVpc, s.vpcs.length, s.numGmic, n, s.best)
    | _ => (0, 0, 0, 0, 0)) = (2, 2, 2, 2, 1) := by decide +kernel

/-- How many disjunctions a call of the generator works on: the one that was supplied, one tree, one per size listed in the
options (all at least 2), or one per split found. -/
theorem disjunctions_used {c : GenCfg} {w : GenWorld} {m : Mode} {n : ℕ} (h : chooseDisj c w = .ok (some (m, n))) :
    (c.hasDisj = true ∧ m = .CUSTOM ∧ n = 1) ∨
    (c.hasDisj = false ∧ m = c.mode ∧ ((m = .PARTIAL_BB ∧ 2 ≤ c.disjTerms ∧ n = 1) ∨
      (m = .DISJ_SET_PBB ∧ n = c.disjOptions.length ∧ ∀ t ∈ c.disjOptions, 2 ≤ t) ∨ (m = .SPLITS ∧ n = w.numSplits))) := by
  unfold chooseDisj at h
  cases hd : c.hasDisj <;> simp only [hd, if_true, Bool.false_eq_true, if_false] at h
  · right
    cases hm : c.mode <;> simp only [hm] at h
    case CUSTOM => cases h
    case CROSSES => cases h
    case PARTIAL_BB =>
      split at h
      · simp at h
      · simp only [Res.ok.injEq, Option.some.injEq, Prod.mk.injEq] at h
        obtain ⟨rfl, rfl⟩ := h
        exact ⟨rfl, rfl, .inl ⟨rfl, by omega, rfl⟩⟩
    case DISJ_SET_PBB =>
      split at h
      · simp at h
      · rename_i hx
        simp only [Res.ok.injEq, Option.some.injEq, Prod.mk.injEq] at h
        obtain ⟨rfl, rfl⟩ := h
        refine ⟨rfl, rfl, .inr (.inl ⟨rfl, rfl, fun t ht => ?_⟩)⟩
        by_contra h2
        exact hx (List.any_eq_true.2 ⟨t, ht, by simpa using h2⟩)
    case SPLITS =>
      simp only [Res.ok.injEq, Option.some.injEq, Prod.mk.injEq] at h
      obtain ⟨rfl, rfl⟩ := h
      exact ⟨rfl, rfl, .inr (.inr ⟨rfl, rfl⟩)⟩
  · simp only [Res.ok.injEq, Option.some.injEq, Prod.mk.injEq] at h
    exact .inl ⟨rfl, h.1.symm, h.2.symm⟩

/-- Non-vacuity of `disjunctions_used`: a set of two trees. -/
example (w : GenWorld) : chooseDisj ⟨.DISJ_SET_PBB, 0, [4, 8], false, 0, false, 0⟩ w = .ok (some (.DISJ_SET_PBB, 2)) := rfl

end VPC
