import Verif.Props.Rounds
import Verif.Props.Pool
import Verif.Props.BBCover

/-!
# What the exit reason of `generateCuts` says, and to which disjunction a cut is attributed (C90, C91)
-/
namespace VPC

/-! ## Specification -/

/-- None of these operations moves on to another disjunction. -/
def StaysPut (ops : List Op) : Prop := ∀ o ∈ ops, ∀ d, o ≠ .nextDisj d

/-- Only the loop over the disjunctions moves on to another disjunction. -/
def GenWorld.Orderly (w : GenWorld) : Prop :=
  StaysPut w.initOps ∧ ∀ d, StaysPut (w.disj d).setupOps ∧ StaysPut (w.disj d).tryW.ops

/-- Disjunction `k` of `n` may be worked on: the time limit was never found to be exceeded up to now and
all earlier disjunctions were set up successfully. -/
def MayWork (w : ℕ → DisjWorld) (n k : ℕ) : Prop :=
  k < n ∧ (w k).timeUp = false ∧ ∀ i < k, (w i).timeUp = false ∧ (w i).setup = .SUCCESS

/-! ## The choice of disjunctions and their preparation -/

/-- **C90 (too few terms requested).** For a partial tree, no disjunction is made exactly if fewer than two
terms are requested; the reason is then "no disjunction" and the collection is returned as it was. -/
theorem pbb_disjunction_made_iff {c : GenCfg} {w : GenWorld} {g g0 : Gen} {given : List GCut} {o : GenOut}
    (hm : c.mode = .PARTIAL_BB) (hd : c.hasDisj = false) (h0 : c.disjTerms ≠ 0) (ht : w.timeUp = false)
    (hs : { g with perDisj := c.mode.perDisj, cuts := given }.startRound given w.numFrac w.numFrac0 = .go g0)
    (h : generateCuts c w g given = .ok o) :
    (o.disjs = none ↔ c.disjTerms < 2) ∧
    (c.disjTerms < 2 → o.reason = .NO_DISJUNCTION ∧ o.gen.cuts = given) := by
  unfold generateCuts at h
  dsimp only at h
  rw [if_neg (by simp [h0]), if_neg (by simp [ht]), hs] at h
  dsimp only at h
  have hch : chooseDisj c w = if c.disjTerms < 2 then .ok none else .ok (some (.PARTIAL_BB, 1)) := by
    unfold chooseDisj; rw [hd, hm]; rfl
  unfold disjAndCut at h
  rw [hch] at h
  by_cases hlt : c.disjTerms < 2
  · rw [if_pos hlt] at h
    cases h
    exact ⟨⟨fun _ => hlt, fun _ => rfl⟩, fun _ => ⟨rfl, (startRound_go hs).1⟩⟩
  · rw [if_neg hlt] at h
    simp only [Res.bind] at h
    split at h
    · cases h
    · obtain ⟨r, h1, h2⟩ := Res.bind_ok h
      cases h2
      exact ⟨⟨fun hh => (by cases hh), fun hh => absurd hh hlt⟩, fun hh => absurd hh hlt⟩

/-- What is reported when the preparation of the disjunctions did not succeed. -/
def prepReason : DisjExit → ExitReason
  | .OPTIMAL_SOLUTION_FOUND => .OPTIMAL_SOLUTION_FOUND
  | .TOO_FEW_TERMS => .TOO_FEW_TERMS
  | .NO_DISJUNCTION => .NO_DISJUNCTION
  | _ => .UNKNOWN

/-- **C90 (outcome of the preparation).** If the preparation of the disjunctions does not succeed, or there
are none, the reason reported is that of the preparation (`UNKNOWN` if there are none); no cut is
generated, except that an integer-optimal solution yields exactly one cut, the objective cut, attributed
to the disjunction that found it. -/
theorem reason_of_preparation {c : GenCfg} {w : GenWorld} {m : Mode} {n : ℕ} {g : Gen}
    {r : Gen × ExitReason} (hm : m ≠ .CUSTOM) (hbad : w.prep ≠ .SUCCESS ∨ (m.perDisj = true ∧ n = 0))
    (h : prepareAndCut c w m n g = .ok r) :
    (m.perDisj = true ∧ n = 0 → r = (g, .UNKNOWN)) ∧
    (¬ (m.perDisj = true ∧ n = 0) → r.2 = prepReason w.prep ∧
      (w.prep ≠ .OPTIMAL_SOLUTION_FOUND → r.1 = g) ∧
      (w.prep = .OPTIMAL_SOLUTION_FOUND → r.1.cuts = g.cuts ++ [w.objCut] ∧
        r.1.numCuts = g.numCuts + 1 ∧
        r.1.cutType = g.cutType ++ [.OPTIMALITY_CUT] ∧ r.1.objType = g.objType ++ [.OBJ_CUT] ∧
        r.1.disjID = g.disjID ++ [if m.perDisj then w.objDisj else 0])) := by
  unfold prepareAndCut at h
  rw [if_neg hm] at h
  dsimp only at h
  by_cases he : m.perDisj = true ∧ n = 0
  · have hst : prepStatus w m n = .UNKNOWN := by
      unfold prepStatus; rw [if_pos (by simp [he])]; rfl
    rw [hst] at h
    simp at h
    exact ⟨fun _ => h.symm, fun hh => absurd he hh⟩
  · have hp : w.prep ≠ .SUCCESS := by
      rcases hbad with hb | hb
      · exact hb
      · exact absurd hb he
    have hst : prepStatus w m n = matchStatus w.prep := by
      unfold prepStatus; rw [if_neg (by simpa using he)]
    rw [hst] at h
    refine ⟨fun hh => absurd hh he, fun _ => ?_⟩
    cases hpe : w.prep <;> rw [hpe] at h <;> simp [matchStatus] at h <;>
      first | exact absurd hpe hp | (subst h; simp [prepReason, addObjCut, Gen.addCut])

/-- Non-vacuity: an integer-optimal solution found by disjunction 1 of a set of two splits. -/
example : ∃ r, prepareAndCut { pbbCfg with mode := .SPLITS }
    { quietGen with prep := .OPTIMAL_SOLUTION_FOUND, objDisj := 1 } .SPLITS 2 (Gen.fresh 10) = .ok r ∧
    r.1.disjID = [1] ∧ r.2 = .OPTIMAL_SOLUTION_FOUND := ⟨_, rfl, rfl, rfl⟩

/-- Non-vacuity of `pbb_disjunction_made_iff`. -/
example : ∃ g0 o, { Gen.fresh 10 with perDisj := Mode.PARTIAL_BB.perDisj, cuts := [] }.startRound []
      quietGen.numFrac quietGen.numFrac0 = .go g0 ∧
    generateCuts { pbbCfg with disjTerms := 1 } quietGen (Gen.fresh 10) [] = .ok o :=
  ⟨_, _, rfl, rfl⟩

/-! ## The loop over the disjunctions -/

/-- New entries of the list of disjunctions are all `d`. -/
def Appends (g : Gen) (d : ℤ) (g' : Gen) : Prop :=
  g'.currDisj = g.currDisj ∧ ∃ k, g'.disjID = g.disjID ++ List.replicate k d

theorem Appends.refl (g : Gen) (d : ℤ) : Appends g d g := ⟨rfl, 0, by simp⟩

theorem Appends.trans {g1 g2 g3 : Gen} {d : ℤ} (h1 : Appends g1 d g2) (h2 : Appends g2 d g3) :
    Appends g1 d g3 := by
  obtain ⟨a, k, e⟩ := h1
  obtain ⟨a', k', e'⟩ := h2
  exact ⟨a'.trans a, k + k', by rw [e', e, List.append_assoc, List.replicate_append_replicate]⟩

theorem step_appends {g g' : Gen} {o : Op} (hs : g.step o = some g') (hn : ∀ d, o ≠ .nextDisj d) :
    Appends g g.currDisj g' := by
  cases o with
  | note n => simp only [Gen.step, Option.some.injEq] at hs; subst hs; exact ⟨rfl, 0, by simp⟩
  | rootCut e c =>
    simp only [Gen.step, Option.some.injEq] at hs; subst hs
    unfold VPC.rootCut
    split
    · exact ⟨rfl, 0, by simp⟩
    · split
      · exact ⟨rfl, 0, by simp⟩
      · exact ⟨rfl, 1, rfl⟩
  | nextDisj d => exact absurd rfl (hn d)
  | tryObj e old s heur =>
    obtain ⟨r, he⟩ := step_tryObj hs
    cases he <;> first | exact ⟨rfl, 1, rfl⟩ | exact ⟨rfl, 0, (List.append_nil _).symm⟩

theorem run_appends {ops : List Op} : ∀ {g g' : Gen}, g.run ops = some g' → StaysPut ops →
    Appends g g.currDisj g' := by
  induction ops with
  | nil => intro g g' h _; rw [run_nil] at h; cases h; exact Appends.refl _ _
  | cons o ops ih =>
    intro g g' h hn
    rw [run_cons] at h
    cases hs : g.step o with
    | none => rw [hs] at h; cases h
    | some g1 =>
      rw [hs] at h
      have h1 := step_appends hs (hn o (by simp))
      have h2 := ih (by simpa using h) (fun o' ho => hn o' (by simp [ho]))
      rw [h1.1] at h2
      exact h1.trans h2

theorem tryNotes_stay (w : TryWorld) : StaysPut (tryNotes w) := by
  intro o ho d
  unfold tryNotes at ho
  cases h1 : w.lpNotCut <;> cases h2 : w.dlbEqDub <;> simp [h1, h2] at ho
  all_goals first | (subst ho; simp) | (rcases ho with rfl | rfl <;> simp)

theorem try_appends {c : GenCfg} {w : TryWorld} {g : Gen} {r : Gen × ExitReason} (hw : StaysPut w.ops)
    (h : tryObjectives c w g = .ok r) : Appends g g.currDisj r.1 := by
  unfold tryObjectives at h
  split at h
  · cases h; exact Appends.refl _ _
  · split at h
    · cases h; exact Appends.refl _ _
    · obtain ⟨g1, h1, h2⟩ := Res.bind_ok h
      have a1 := run_appends (runRes_ok h1) (tryNotes_stay w)
      split at h2
      · cases h2; exact a1
      · obtain ⟨r', h3, h4⟩ := Res.bind_ok h2
        split at h4
        · cases h4
        · cases h4
          refine a1.trans ?_
          rw [← a1.1]
          unfold tryPRLP at h3
          split at h3
          · cases h3; exact Appends.refl _ _
          · split at h3
            · obtain ⟨g2, h5, h6⟩ := Res.bind_ok h3
              cases h6
              exact run_appends (runRes_ok h5) hw
            · cases h3; exact Appends.refl _ _

theorem pass_appends {c : GenCfg} {w : DisjWorld} {d : ℕ} {g : Gen} {p : Gen × ExitReason × Bool}
    (h1 : StaysPut w.setupOps) (h2 : StaysPut w.tryW.ops) (h : disjPass c w d g = .ok p) :
    (∃ k, p.1.disjID = g.disjID ++ List.replicate k (d : ℤ) ∧ (w.timeUp = true → k = 0)) ∧
    (p.2.2 = false → w.timeUp = false ∧ w.setup = .SUCCESS) := by
  unfold disjPass at h
  dsimp only at h
  split at h
  · cases h; exact ⟨⟨0, by simp, fun _ => rfl⟩, fun h => by cases h⟩
  · rename_i ht
    have ht' : w.timeUp = false := by simpa using ht
    split at h
    · cases h; exact ⟨⟨0, by simp, fun _ => rfl⟩, fun h => by cases h⟩
    · obtain ⟨g1, h3, h4⟩ := Res.bind_ok h
      have a1 := run_appends (runRes_ok h3) h1
      split at h4
      · cases h4
        obtain ⟨-, k, e⟩ := a1
        exact ⟨⟨k, e, fun hh => absurd hh ht⟩, fun h => by cases h⟩
      · rename_i hs
        obtain ⟨r, h5, h6⟩ := Res.bind_ok h4
        cases h6
        have a2 := try_appends h2 h5
        rw [a1.1] at a2
        obtain ⟨-, k, e⟩ := a1.trans a2
        exact ⟨⟨k, e, fun hh => absurd hh ht⟩, fun _ => ⟨ht', by simpa using hs⟩⟩

/-- The loop appends, in increasing order, only disjunctions that may be worked on. -/
theorem loop_attribution {c : GenCfg} {w : ℕ → DisjWorld} {n : ℕ}
    (hw : ∀ d, StaysPut (w d).setupOps ∧ StaysPut (w d).tryW.ops) :
    ∀ (k d : ℕ) (g : Gen) (st : ExitReason) (r : Gen × ExitReason), k + d = n →
      (∀ i < d, (w i).timeUp = false ∧ (w i).setup = .SUCCESS) →
      disjLoop c w k d g st = .ok r →
      ∃ ids : List ℕ, r.1.disjID = g.disjID ++ ids.map Int.ofNat ∧
        ids.Pairwise (· ≤ ·) ∧ (∀ i ∈ ids, d ≤ i) ∧ ∀ i ∈ ids, MayWork w n i := by
  intro k
  induction k with
  | zero =>
    intro d g st r _ _ h
    cases h
    exact ⟨[], by simp, List.Pairwise.nil, by simp, by simp⟩
  | succ k ih =>
    intro d g st r hn hprev h
    unfold disjLoop at h
    obtain ⟨p, h1, h2⟩ := Res.bind_ok h
    obtain ⟨⟨j, hj, ht⟩, hcont⟩ := pass_appends (hw d).1 (hw d).2 h1
    have hfirst : ∀ i ∈ List.replicate j d, MayWork w n i := by
      intro i hi
      obtain ⟨hj0, rfl⟩ := List.mem_replicate.mp hi
      refine ⟨by omega, ?_, hprev⟩
      cases hT : (w i).timeUp with
      | false => rfl
      | true => exact absurd (ht hT) hj0
    split at h2
    · cases h2
      refine ⟨List.replicate j d, by rw [hj]; simp, ?_, ?_, hfirst⟩
      · exact List.pairwise_replicate.mpr (Or.inr (le_refl d))
      · intro i hi; exact le_of_eq (List.mem_replicate.mp hi).2.symm
    · rename_i hb
      have hb' := hcont (by simpa using hb)
      obtain ⟨ids, e, hsrt, hge, hmay⟩ := ih (d + 1) p.1 p.2.1 r (by omega) (by
        intro i hi
        rcases Nat.lt_succ_iff_lt_or_eq.mp hi with hi | rfl
        · exact hprev i hi
        · exact hb') h2
      refine ⟨List.replicate j d ++ ids, by rw [e, hj]; simp, ?_, ?_, ?_⟩
      · rw [List.pairwise_append]
        refine ⟨List.pairwise_replicate.mpr (Or.inr (le_refl d)), hsrt, ?_⟩
        intro a ha b hb
        rw [(List.mem_replicate.mp ha).2]
        have := hge b hb; omega
      · intro i hi
        rcases List.mem_append.mp hi with hi | hi
        · exact le_of_eq (List.mem_replicate.mp hi).2.symm
        · have := hge i hi; omega
      · intro i hi
        rcases List.mem_append.mp hi with hi | hi
        · exact hfirst i hi
        · exact hmay i hi

/-- **C91 (attribution, part).** In a call of `generateCuts` whose disjunctions were prepared successfully,
the new cuts are attributed to disjunctions in increasing order: first those made before the loop (from
changed bounds, attributed to disjunction 0), then only disjunctions that exist, before which no
disjunction failed to be set up, and up to which the time limit was not found to be exceeded. -/
theorem attribution_partial {c : GenCfg} {w : GenWorld} {m : Mode} {n : ℕ} {g : Gen}
    {r : Gen × ExitReason} (hw : w.Orderly) (h : cutsFromDisj c w m n g = .ok r) :
    ∃ (k : ℕ) (ids : List ℕ),
      r.1.disjID = g.disjID ++ List.replicate k (0 : ℤ) ++ ids.map Int.ofNat ∧
      ids.Pairwise (· ≤ ·) ∧ (∀ i ∈ ids, MayWork w.disj n i) ∧
      (w.init ≠ .SUCCESS → ids = [] ∧ r.2 = w.init) := by
  unfold cutsFromDisj at h
  split at h
  · cases h
  · obtain ⟨g1, h1, h2⟩ := Res.bind_ok h
    obtain ⟨-, k, e⟩ := run_appends (runRes_ok h1) hw.1
    split at h2
    · cases h2
      exact ⟨k, [], by rw [e]; simp, List.Pairwise.nil, by simp, fun _ => ⟨rfl, rfl⟩⟩
    · rename_i hi
      obtain ⟨ids, e2, hs, -, hm⟩ := loop_attribution (n := n) hw.2 n 0 g1 _ r (by omega)
        (by intro i hi; omega) h2
      exact ⟨k, ids, by rw [e2, e], hs, hm, fun hh => absurd hh hi⟩

/-- Two splits; the first objective of each yields a cut; the setup of the third one fails. -/
def twoWorld : GenWorld :=
  { quietGen with
    disj := fun d =>
      { timeUp := false, setupOps := [], setup := if d = 2 then .UNKNOWN else .SUCCESS
        tryW := { timeUp := false, lpNotCut := false, dlbEqDub := false, prlp := .SUCCESS
                  ops := [.tryObj poolEnv none (.optimal (if d = 0 then [30, 40] else [40, 30])) .ALL_ONES]
                  timeUpEnd := false, time := 0 } } }

/-- Non-vacuity of `attribution_partial`: four disjunctions, cuts from the first two. -/
example : twoWorld.Orderly ∧
    ∃ r, cutsFromDisj { pbbCfg with mode := .SPLITS } twoWorld .SPLITS 4
      { demoGen 5 false false false [] [] [] with perDisj := true } = .ok r ∧
      decide (r.1.disjID = [0, 1] ∧ r.2 = .UNKNOWN) = true := by
  refine ⟨⟨by simp [StaysPut, twoWorld, quietGen], fun d => ⟨by simp [StaysPut, twoWorld], by
    simp [StaysPut, twoWorld]⟩⟩, Res.okAnd_iff (by decide +kernel)⟩

/-- **C91 fails** when a cut is replaced: the cut in the pool comes from disjunction 1 (the only one that
offered it), but the pool says disjunction 0. -/
theorem replaced_cut_wrong_disjunction :
    ((demoGen 5 false false false [] [] []).run
      [.nextDisj 0, .tryObj poolEnv none (.optimal [30, 40]) .ALL_ONES,
       .nextDisj 1, .tryObj poolEnv none (.optimal [20, 21]) .DISJ_LB]).map
         (fun g => (g.cuts.map (·.cut), g.objType, g.disjID))
    = some ([⟨[(0, 20), (1, 21)], 100⟩], [.DISJ_LB], [0]) := by decide +kernel

/-! ## The reason after the loop -/

/-- **C90 (failed setup).** If disjunction `d` cannot be set up (and the loop gets there), that is the
reason reported and no later disjunction is looked at. -/
theorem failed_setup_reported {c : GenCfg} {w : ℕ → DisjWorld} {k d : ℕ} {g : Gen} {st : ExitReason}
    {r : Gen × ExitReason} (hf : (w d).setup ≠ .SUCCESS) (ht : (w d).timeUp = false)
    (hl : { g with currDisj := (d : ℤ) }.reachedCutLimit = false)
    (h : disjLoop c w (k + 1) d g st = .ok r) :
    r.2 = (w d).setup ∧ ({ g with currDisj := (d : ℤ) } : Gen).run (w d).setupOps = some r.1 := by
  unfold disjLoop at h
  obtain ⟨p, h1, h2⟩ := Res.bind_ok h
  unfold disjPass at h1
  dsimp only at h1
  rw [if_neg (by simp [ht]), if_neg (by simp [hl])] at h1
  obtain ⟨g1, h3, h4⟩ := Res.bind_ok h1
  rw [if_pos hf] at h4
  cases h4
  simp only [if_true] at h2
  cases h2
  exact ⟨rfl, runRes_ok h3⟩

example : ∃ r, disjLoop { pbbCfg with mode := .SPLITS } twoWorld.disj 2 2
    (demoGen 5 false false false [] [] []) .SUCCESS = .ok r := ⟨_, rfl⟩

/-! ## Main program -/

/-- **C90 (Gomory cuts).** Gomory cuts are generated in every round exactly for `GOMORY = ±1`. -/
theorem gmics_iff (c : MainCfg) (w : RoundWorld) :
    ((c.gomory = 1 ∨ c.gomory = -1) → roundGmics c w = w.gmics) ∧
    (c.gomory ≠ 1 → c.gomory ≠ -1 → roundGmics c w = []) := by
  unfold roundGmics
  constructor
  · intro h; rw [if_pos (by tauto)]
  · intro h1 h2; rw [if_neg (by tauto)]

example : roundGmics ⟨-1, .PARTIAL_BB, [], 10, false, 5⟩
    ⟨[⟨⟨[(0, 1)], 1⟩, 0⟩], fun _ => quietGen, fun _ => (0, 0), false, true, false⟩ ≠ [] := by
  rw [(gmics_iff _ _).1 (Or.inr rfl)]; simp

/-- **C63/C65 (custom rounds).** A round in mode `CUSTOM` in which at least one split is found ends the
process, unless the first call already stops because of a limit. -/
theorem custom_round_exits (c : MainCfg) (w : RoundWorld) (terms : ℤ) (round : ℕ)
    (reason : ExitReason) (hm : c.mode = .CUSTOM) (hn : 0 < (w.gen 0).numSplits) (h0 : terms ≠ 0)
    (ht : (w.gen 0).timeUp = false)
    (hs : ∀ g r, Gen.startRound { Gen.fresh c.cutLimit with
        repeatedUse := true, perDisj := false
        cutLimit := (getCutLimit c.cutLimit (w.gen 0).numFrac0).tdiv (w.gen 0).numSplits } []
          (w.gen 0).numFrac (w.gen 0).numFrac0 ≠ .early g r) :
    customRound c w terms round reason = .exit := by
  unfold customRound
  dsimp only
  rw [if_neg (by omega)]
  obtain ⟨k, hk⟩ : ∃ k, (w.gen 0).numSplits = k + 1 := ⟨(w.gen 0).numSplits - 1, by omega⟩
  generalize hL : (getCutLimit c.cutLimit (w.gen 0).numFrac0).tdiv ((w.gen 0).numSplits : ℤ) = L at *
  rw [hk]
  unfold customLoop
  have key : generateCuts (c.toGen terms true round) (w.gen 0)
      { { Gen.fresh c.cutLimit with repeatedUse := true } with cutLimit := L } [] = .exit := by
    have hp : (c.toGen terms true round).mode.perDisj = false := by
      show c.mode.perDisj = false
      rw [hm]; rfl
    unfold generateCuts
    dsimp only
    rw [if_neg (by simp [MainCfg.toGen, hm, h0]), if_neg (by simp [ht]), hp]
    cases e : Gen.startRound { Gen.fresh c.cutLimit with
        repeatedUse := true, perDisj := false, cutLimit := L } [] (w.gen 0).numFrac
        (w.gen 0).numFrac0 with
    | abort =>
      have : Gen.startRound { { { Gen.fresh c.cutLimit with repeatedUse := true } with cutLimit := L }
        with perDisj := false, cuts := [] } [] (w.gen 0).numFrac (w.gen 0).numFrac0 = .abort := e
      rw [this]
    | early g r => exact absurd e (hs g r)
    | go g0 =>
      have : Gen.startRound { { { Gen.fresh c.cutLimit with repeatedUse := true } with cutLimit := L }
        with perDisj := false, cuts := [] } [] (w.gen 0).numFrac (w.gen 0).numFrac0 = .go g0 := e
      rw [this]
      dsimp only
      unfold disjAndCut chooseDisj
      simp only [MainCfg.toGen, if_true, Res.bind]
      split
      · rfl
      · unfold prepareAndCut cutsFromDisj
        simp
  rw [key]
  rfl

/-- Non-vacuity of `custom_round_exits`: one split, cut limit 10. -/
example : customRound ⟨0, .CUSTOM, [], 10, false, 5⟩
    ⟨[], fun _ => { quietGen with numSplits := 1 }, fun _ => (0, 0), false, true, false⟩ 2 0 .UNKNOWN
    = .exit := by
  refine custom_round_exits _ _ _ _ _ rfl (by decide) (by decide) rfl ?_
  intro g r h
  cases h

end VPC
