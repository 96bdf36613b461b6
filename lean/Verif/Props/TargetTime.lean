import Verif.Props.TargetEx

/-!
# C146: the time limit during the loop over objectives
-/
namespace VPC

/-! ## Specification -/

/-- How many of the first `k` readings of the clock were below the time limit. -/
def earlyReadings (up : ℕ → Bool) (k : ℕ) : ℕ := (List.range k).countP fun t => !(up t)

/-- Objectives tried, those of the post-Gomory iterations not counted. -/
def timedTries (log : List Attempt) : ℕ := log.countP fun a => a.heur ≠ .ITER_BILINEAR

/-! ## Traversal -/

variable {W : TWorld}

theorem earlyReadings_succ (up : ℕ → Bool) (k : ℕ) :
    earlyReadings up (k + 1) = earlyReadings up k + if up k then 0 else 1 := by
  unfold earlyReadings
  rw [List.range_succ, List.countP_append]
  cases h : up k <;> simp [h]

/-- Every objective tried has its own reading. -/
def Paid (W : TWorld) (st : TSt) : Prop := timedTries st.log ≤ earlyReadings W.timeUp st.tick

/-- And there is one reading more. -/
def Credit (W : TWorld) (st : TSt) : Prop := timedTries st.log + 1 ≤ earlyReadings W.timeUp st.tick

theorem Credit.paid {st : TSt} (h : Credit W st) : Paid W st := by unfold Credit at h; unfold Paid; omega

theorem Paid.congr {a b : TSt} (h : Paid W a) (hl : b.log = a.log) (ht : b.tick = a.tick) : Paid W b := by
  unfold Paid at *; rw [hl, ht]; exact h

theorem Credit.congr {a b : TSt} (h : Credit W a) (hl : b.log = a.log) (ht : b.tick = a.tick) : Credit W b := by
  unfold Credit at *; rw [hl, ht]; exact h

theorem Paid.ticked {st : TSt} (h : Paid W st) : Paid W st.ticked := by
  show timedTries st.log ≤ earlyReadings W.timeUp (st.tick + 1)
  rw [earlyReadings_succ]
  unfold Paid at h
  omega

theorem Credit.ticked {st : TSt} (h : Credit W st) : Credit W st.ticked := by
  show timedTries st.log + 1 ≤ earlyReadings W.timeUp (st.tick + 1)
  rw [earlyReadings_succ]
  unfold Credit at h
  omega

/-- A test that is passed is a reading below the limit. -/
theorem Paid.test {st : TSt} (h : Paid W st) {b : Bool} (hl : ¬ ((b || limits W st) = true)) : Credit W st.ticked := by
  show timedTries st.log + 1 ≤ earlyReadings W.timeUp (st.tick + 1)
  have hu : W.timeUp st.tick = false := by
    simp only [limits, Bool.or_eq_true, not_or, Bool.not_eq_true] at hl
    exact hl.2.1.2
  rw [earlyReadings_succ, hu]
  unfold Paid at h
  simpa using h

theorem attempt_paid {heur : ObjType} {st st' : TSt} {r : Ret} (hc : Credit W st)
    (h : attempt W heur st = .ok (st', r)) : Paid W st' := by
  obtain ⟨g', -, rfl⟩ := attempt_ok h
  show timedTries (st.log ++ _) ≤ earlyReadings W.timeUp st.tick
  unfold Credit at hc
  unfold timedTries at *
  rw [List.countP_append]
  have : List.countP (fun a : Attempt => decide (a.heur ≠ .ITER_BILINEAR))
      [⟨heur, st.lp, .tryObj W.env st.cur (W.solve st.n st.lp) heur⟩] ≤ 1 := List.countP_le_length
  omega

theorem attempt_gomory {st st' : TSt} {r : Ret} (h : attempt W .ITER_BILINEAR st = .ok (st', r)) :
    (Paid W st → Paid W st') ∧ (Credit W st → Credit W st') := by
  obtain ⟨g', -, rfl⟩ := attempt_ok h
  have e : timedTries (st.log ++ [⟨ObjType.ITER_BILINEAR, st.lp, .tryObj W.env st.cur (W.solve st.n st.lp) .ITER_BILINEAR⟩]) =
      timedTries st.log := by
    unfold timedTries; rw [List.countP_append]; simp
  constructor <;> intro hc
  · show timedTries (st.log ++ _) ≤ _
    rw [e]; exact hc
  · show timedTries (st.log ++ _) + 1 ≤ _
    rw [e]; exact hc

theorem updateTight_tick (st : TSt) : (updateTight st).tick = st.tick := by
  unfold updateTight; split <;> rfl

theorem tryOne_paid {heur : ObjType} {st st' : TSt} {r : Ret} (hc : Credit W st)
    (h : tryOne W heur st = .ok (st', r)) : Paid W st' := by
  obtain ⟨s1, h1, rfl⟩ := tryOne_ok h
  exact (attempt_paid hc h1).congr (updateTight_same s1).2.1 (updateTight_tick s1)

theorem addCand_tick (st : TSt) (cs : List PCand) : (addCand st cs).tick = st.tick := by
  cases cs <;> rfl

theorem candLoop_paid {heur : ObjType} {saved : TSt} :
    ∀ (k : ℕ) (cs : List PCand) (r : Ret) (st st' : TSt), Paid W st →
      candLoop W heur saved k cs r st = .ok st' → Paid W st' := by
  intro k
  induction k with
  | zero => intro cs r st st' hp h; simp only [candLoop, Res.ok.injEq] at h; subst h; exact hp
  | succ k ih =>
    intro cs r st st' hp h
    unfold candLoop at h
    split at h
    · simp only [Res.ok.injEq] at h; subst h; exact hp.ticked
    rename_i hlim
    have hc := hp.test hlim
    match cs, h with
    | [], h => simp only [Res.ok.injEq] at h; subst h; exact hp.ticked
    | [c], h => simp only [Res.ok.injEq] at h; subst h; exact hp.ticked
    | c :: c' :: rest, h =>
      simp only at h
      obtain ⟨p, hp', h⟩ := Res.bind_ok h
      obtain ⟨p1, p2⟩ := p
      have h1 := tryOne_paid hc hp'
      simp only at h
      split at h
      · simp only [Res.ok.injEq] at h; subst h; exact h1
      · refine ih _ _ _ _ ?_ h
        exact h1.congr (addCand_same _ _).2.1 (addCand_tick _ _)

theorem findCuts_paid {heur : ObjType} {row : ℕ} {maxObj : ℤ} {st st' : TSt} (hc : Credit W st)
    (h : findCuts W heur row maxObj st = .ok st') : Paid W st' := by
  unfold findCuts at h
  simp only at h
  obtain ⟨p, hp, h⟩ := Res.bind_ok h
  obtain ⟨p1, p2⟩ := p
  have h1 : Paid W p1 := tryOne_paid (by exact Credit.congr (a := st) hc rfl rfl) hp
  simp only at h
  set s := p1.setObj (clearObj p1.lp.obj (st.lp.base.vec row)) with hs
  have h2 : Paid W s := h1.congr rfl rfl
  unfold findCont at h
  split at h
  · simp only [Res.ok.injEq] at h; subst h; exact h2.ticked
  split at h
  · simp only [Res.ok.injEq] at h; subst h; exact h2.ticked
  split at h
  · simp only [Res.ok.injEq] at h; subst h; exact h2.ticked
  · unfold findMore at h
    simp only at h
    generalize W.order _ _ = cs at h
    split at h
    · simp only [Res.ok.injEq] at h
      subst h
      exact h2.ticked.congr (addCand_same (s.ticked.setEq (some row)) cs).2.1
        (addCand_tick (s.ticked.setEq (some row)) cs)
    · obtain ⟨u, hu, h⟩ := Res.bind_ok h
      simp only [Res.ok.injEq] at h
      subst h
      refine Paid.congr (a := u) ?_ rfl rfl
      refine candLoop_paid _ _ _ _ _ ?_ hu
      exact h2.ticked.congr (addCand_same (s.ticked.setEq (some row)) cs).2.1
        (addCand_tick (s.ticked.setEq (some row)) cs)

/-- After a phase: paid, and if the function goes on, a reading in hand. -/
def After (W : TWorld) (q : TSt × Bool) : Prop := Paid W q.1 ∧ (q.2 = false → Credit W q.1)

theorem abandonTest_after {st : TSt} {q : TSt × Bool} (hp : Paid W st) (h : abandonTest W st = .ok q) : After W q := by
  simp only [abandonTest, Res.ok.injEq] at h
  subst h
  refine ⟨hp.ticked, fun hf => hp.test (b := badRet st.rc) ?_⟩
  dsimp only at hf
  rw [hf]
  simp

theorem Credit.after {st : TSt} (h : Credit W st) : After W (st, false) := ⟨h.paid, fun _ => h⟩

theorem phaseAllOnes_after {st : TSt} {q : TSt × Bool} (hc : Credit W st) (h : phaseAllOnes W st = .ok q) :
    After W q := by
  unfold phaseAllOnes at h
  split at h
  · obtain ⟨p, hp, h⟩ := Res.bind_ok h
    obtain ⟨p1, p2⟩ := p
    have h1 : Paid W p1 := tryOne_paid (by exact Credit.congr (a := st) hc rfl rfl) hp
    refine abandonTest_after ?_ h
    exact Paid.congr (a := p1) h1 rfl rfl
  · simp only [Res.ok.injEq] at h; subst h; exact hc.after

theorem gomoryLoop_paid : ∀ (k j : ℕ) (st st' : TSt), Paid W st → gomoryLoop W k j st = .ok st' → Paid W st' := by
  intro k
  induction k with
  | zero => intro j st st' hp h; simp only [gomoryLoop, Res.ok.injEq] at h; subst h; exact hp
  | succ k ih =>
    intro j st st' hp h
    unfold gomoryLoop at h
    split at h
    · simp only [Res.ok.injEq] at h; subst h; exact hp.ticked
    split at h
    · simp only [Res.ok.injEq] at h; subst h; exact hp.ticked
    · cases h
    · simp only [Res.ok.injEq] at h; subst h; exact hp.ticked
    · dsimp only at h
      split at h
      · simp only [Res.ok.injEq] at h; subst h; exact hp.ticked.congr rfl rfl
      · obtain ⟨p, hp', h⟩ := Res.bind_ok h
        obtain ⟨p1, p2⟩ := p
        have h1 : Paid W p1 := (attempt_gomory hp').1 (hp.ticked.congr rfl rfl)
        simp only at h
        split at h
        · simp only [Res.ok.injEq] at h; subst h; exact h1
        · exact ih _ _ _ h1 h

theorem phaseGomory_after {st : TSt} {q : TSt × Bool} (hc : Credit W st) (h : phaseGomory W st = .ok q) :
    After W q := by
  unfold phaseGomory at h
  split at h
  · obtain ⟨s, hs, h⟩ := Res.bind_ok h
    refine abandonTest_after ?_ h
    refine Paid.congr (a := s) ?_ rfl rfl
    unfold iterate at hs
    split at hs
    · simp only [Res.ok.injEq] at hs; subst hs; exact hc.paid
    split at hs
    · simp only [Res.ok.injEq] at hs; subst hs; exact hc.paid
    · cases hs
    · obtain ⟨p, hp, hs⟩ := Res.bind_ok hs
      obtain ⟨p1, p2⟩ := p
      have h1 : Paid W p1 := (attempt_gomory hp).1 (hc.paid.congr rfl rfl)
      simp only at hs
      split at hs
      · simp only [Res.ok.injEq] at hs; subst hs; exact h1
      · split at hs
        · simp only [Res.ok.injEq] at hs; subst hs; exact h1
        · exact gomoryLoop_paid _ _ _ _ h1 hs
  · simp only [Res.ok.injEq] at h; subst h; exact hc.after

theorem phaseDisjLB_after {first : ℕ} {maxObj : ℤ} {st : TSt} {q : TSt × Bool} (hc : Credit W st)
    (h : phaseDisjLB W first maxObj st = .ok q) : After W q := by
  unfold phaseDisjLB at h
  split at h
  · obtain ⟨s, hs, h⟩ := Res.bind_ok h
    exact abandonTest_after (findCuts_paid hc hs) h
  · simp only [Res.ok.injEq] at h; subst h; exact hc.after

theorem pointsLoop_paid {maxObj : ℤ} : ∀ (ks : List ℕ) (tried : ℕ) (st : TSt) (q : TSt × Bool × ℕ),
    Paid W st → pointsLoop W maxObj ks tried st = .ok q → Paid W q.1 := by
  intro ks
  induction ks with
  | nil => intro tried st q hp h; simp only [pointsLoop, Res.ok.injEq] at h; subst h; exact hp
  | cons k ks ih =>
    intro tried st q hp h
    rw [pointsLoop] at h
    split at h
    · simp only [Res.ok.injEq] at h; subst h; exact hp.ticked
    rename_i hlim
    split at h
    · simp only [Res.ok.injEq] at h; subst h; exact hp.ticked
    split at h
    · exact ih _ _ _ hp.ticked h
    · obtain ⟨s, hs, h⟩ := Res.bind_ok h
      exact ih _ _ _ (findCuts_paid (hp.test hlim) hs) h

theorem phasePoints_after {ps : List ℕ} {maxObj : ℤ} {st : TSt} {q : TSt × Bool × ℕ} (hc : Credit W st)
    (h : phasePoints W ps maxObj st = .ok q) : After W (q.1, q.2.1) := by
  unfold phasePoints at h
  obtain ⟨q1, hq1, h⟩ := Res.bind_ok h
  have h1 : Paid W q1.1 := by
    split at hq1
    · exact pointsLoop_paid _ _ _ _ hc.paid hq1
    · simp only [Res.ok.injEq] at hq1; subst hq1; exact hc.paid
  split at h
  · rename_i ht
    simp only [Res.ok.injEq] at h; subst h
    exact ⟨h1, fun hf => by dsimp only at hf; rw [hf] at ht; cases ht⟩
  · obtain ⟨p, hp, h⟩ := Res.bind_ok h
    simp only [Res.ok.injEq] at h
    subst h
    exact abandonTest_after h1 hp

theorem tryUnit_paid {j : ℕ} {st st' : TSt} (hc : Credit W st) (h : tryUnit W j st = .ok st') : Paid W st' := by
  unfold tryUnit at h
  obtain ⟨p, hp, h⟩ := Res.bind_ok h
  obtain ⟨p1, p2⟩ := p
  have h1 : Paid W p1 := tryOne_paid (by exact Credit.congr (a := st) hc rfl rfl) hp
  simp only [Res.ok.injEq] at h
  subst h
  have e : (raiseLower j { p1 with rc := p2 }).log = p1.log ∧ (raiseLower j { p1 with rc := p2 }).tick = p1.tick := by
    unfold raiseLower; dsimp only; split <;> exact ⟨rfl, rfl⟩
  exact h1.congr e.1 e.2

theorem unitsLoop_paid {max : ℤ} : ∀ (js : List ℕ) (tried : ℕ) (st : TSt) (q : TSt × Bool),
    Paid W st → unitsLoop W max js tried st = .ok q → Paid W q.1 := by
  intro js
  induction js with
  | nil => intro tried st q hp h; simp only [unitsLoop, Res.ok.injEq] at h; subst h; exact hp
  | cons j js ih =>
    intro tried st q hp h
    rw [unitsLoop] at h
    split at h
    · simp only [Res.ok.injEq] at h; subst h; exact hp
    split at h
    · simp only [Res.ok.injEq] at h; subst h; exact hp.ticked
    rename_i hlim
    split at h
    · exact ih _ _ _ hp.ticked h
    · obtain ⟨s, hs, h⟩ := Res.bind_ok h
      exact ih _ _ _ (tryUnit_paid (hp.test hlim) hs) h

theorem next_test_after {p : Phase} {q : TSt × Bool} (h : Phase.next p (abandonTest W) = .ok q)
    (hp : ∀ r, p = .ok r → Paid W r.1) : After W q := by
  unfold Phase.next at h
  obtain ⟨r, hr, h⟩ := Res.bind_ok h
  have h1 := hp r hr
  split at h
  · rename_i hs
    simp only [Res.ok.injEq] at h; subst h
    exact ⟨h1, fun hf => by rw [hf] at hs; cases hs⟩
  · exact abandonTest_after h1 h

theorem phaseUnits_after {max : ℤ} {st : TSt} {q : TSt × Bool} (hc : Credit W st)
    (h : phaseUnits W max st = .ok q) : After W q := by
  unfold phaseUnits at h
  refine next_test_after h fun r hr => ?_
  split at hr
  · exact unitsLoop_paid _ _ _ _ hc.paid hr
  · simp only [Res.ok.injEq] at hr; subst hr; exact hc.paid

theorem tryRay_paid {heur : ObjType} {mark : Bool} {k : ℕ} {st st' : TSt} (hc : Credit W st)
    (h : tryRay W heur mark k st = .ok st') : Paid W st' := by
  unfold tryRay at h
  obtain ⟨p, hp, h⟩ := Res.bind_ok h
  obtain ⟨p1, p2⟩ := p
  have h1 : Paid W p1 := tryOne_paid (by exact Credit.congr (a := st) hc rfl rfl) hp
  simp only [Res.ok.injEq] at h
  subst h
  exact h1.congr rfl rfl

theorem raysLoop_paid {max : ℤ} : ∀ (ks : List ℕ) (tried : ℕ) (st : TSt) (q : TSt × Bool × ℕ),
    Paid W st → raysLoop W max ks tried st = .ok q → Paid W q.1 := by
  intro ks
  induction ks with
  | nil => intro tried st q hp h; simp only [raysLoop, Res.ok.injEq] at h; subst h; exact hp
  | cons k ks ih =>
    intro tried st q hp h
    rw [raysLoop] at h
    split at h
    · simp only [Res.ok.injEq] at h; subst h; exact hp
    split at h
    · simp only [Res.ok.injEq] at h; subst h; exact hp.ticked
    rename_i hlim
    split at h
    · exact ih _ _ _ hp.ticked h
    · obtain ⟨s, hs, h⟩ := Res.bind_ok h
      exact ih _ _ _ (tryRay_paid (hp.test hlim) hs) h

theorem phaseRays_after {rs : List ℕ} {max : ℤ} {st : TSt} {q : TSt × Bool × ℕ} (hc : Credit W st)
    (h : phaseRays W rs max st = .ok q) : After W (q.1, q.2.1) := by
  unfold phaseRays at h
  obtain ⟨q1, hq1, h⟩ := Res.bind_ok h
  have h1 : Paid W q1.1 := by
    split at hq1
    · exact raysLoop_paid _ _ _ _ hc.paid hq1
    · simp only [Res.ok.injEq] at hq1; subst hq1; exact hc.paid
  split at h
  · rename_i ht
    simp only [Res.ok.injEq] at h; subst h
    exact ⟨h1, fun hf => by dsimp only at hf; rw [hf] at ht; cases ht⟩
  · obtain ⟨p, hp, h⟩ := Res.bind_ok h
    simp only [Res.ok.injEq] at h
    subst h
    exact abandonTest_after h1 hp

theorem points2Loop_paid {first : ℕ} {maxObj : ℤ} : ∀ (ks : List ℕ) (tried : ℕ) (st : TSt) (q : TSt × Bool),
    Paid W st → points2Loop W first maxObj ks tried st = .ok q → Paid W q.1 := by
  intro ks
  induction ks with
  | nil => intro tried st q hp h; simp only [points2Loop, Res.ok.injEq] at h; subst h; exact hp
  | cons k ks ih =>
    intro tried st q hp h
    rw [points2Loop] at h
    split at h
    · simp only [Res.ok.injEq] at h; subst h; exact hp.ticked
    rename_i hlim
    split at h
    · simp only [Res.ok.injEq] at h; subst h; exact hp.ticked
    split at h
    · exact ih _ _ _ hp.ticked h
    split at h
    · exact ih _ _ _ hp.ticked h
    · obtain ⟨s, hs, h⟩ := Res.bind_ok h
      exact ih _ _ _ (findCuts_paid (hp.test hlim) hs) h

theorem phasePoints2_after {ps : List ℕ} {first : ℕ} {maxObj : ℤ} {tried : ℕ} {st : TSt} {q : TSt × Bool}
    (hc : Credit W st) (h : phasePoints2 W ps first maxObj tried st = .ok q) : After W q := by
  unfold phasePoints2 at h
  refine next_test_after h fun r hr => ?_
  split at hr
  · exact points2Loop_paid _ _ _ _ hc.paid hr
  · simp only [Res.ok.injEq] at hr; subst hr; exact hc.paid

theorem rays2Loop_paid {max : ℤ} : ∀ (ks : List ℕ) (tried : ℕ) (st : TSt) (q : TSt × Bool),
    Paid W st → rays2Loop W max ks tried st = .ok q → Paid W q.1 := by
  intro ks
  induction ks with
  | nil => intro tried st q hp h; simp only [rays2Loop, Res.ok.injEq] at h; subst h; exact hp
  | cons k ks ih =>
    intro tried st q hp h
    rw [rays2Loop] at h
    split at h
    · simp only [Res.ok.injEq] at h; subst h; exact hp.ticked
    rename_i hlim
    split at h
    · simp only [Res.ok.injEq] at h; subst h; exact hp.ticked
    split at h
    · exact ih _ _ _ hp.ticked h
    · obtain ⟨s, hs, h⟩ := Res.bind_ok h
      exact ih _ _ _ (tryRay_paid (hp.test hlim) hs) h

theorem phasesLate_paid {L : BuiltLP} {first : ℕ} {maxObj : ℤ} {tried : ℕ} {st : TSt} {q : TSt × Bool}
    (hc : Credit W st) (h : phasesLate W L first maxObj tried st = .ok q) : Paid W q.1 := by
  unfold phasesLate Phase.next at h
  obtain ⟨r, hr, h⟩ := Res.bind_ok h
  have h1 := phaseUnits_after hc hr
  split at h
  · simp only [Res.ok.injEq] at h; subst h; exact h1.1
  rename_i hs
  obtain ⟨r2, hr2, h⟩ := Res.bind_ok h
  have h2 := phaseRays_after (h1.2 (by simpa using hs)) hr2
  split at h
  · simp only [Res.ok.injEq] at h; subst h; exact h2.1
  rename_i hs2
  obtain ⟨r3, hr3, h⟩ := Res.bind_ok h
  have h3 := phasePoints2_after (h2.2 (by simpa using hs2)) hr3
  split at h
  · simp only [Res.ok.injEq] at h; subst h; exact h3.1
  unfold phaseRays2 at h
  split at h
  · exact rays2Loop_paid _ _ _ _ h3.1 h
  · simp only [Res.ok.injEq] at h; subst h; exact h3.1

theorem phasesPoints_paid {L : BuiltLP} {maxObj : ℤ} {st : TSt} {q : TSt × Bool} (hc : Credit W st)
    (h : phasesPoints W L maxObj st = .ok q) : Paid W q.1 := by
  unfold phasesPoints at h
  split at h
  · cases h
  unfold Phase.next at h
  obtain ⟨r, hr, h⟩ := Res.bind_ok h
  have h1 := phaseDisjLB_after hc hr
  split at h
  · simp only [Res.ok.injEq] at h; subst h; exact h1.1
  rename_i hs
  obtain ⟨r2, hr2, h⟩ := Res.bind_ok h
  have h2 := phasePoints_after (h1.2 (by simpa using hs)) hr2
  split at h
  · simp only [Res.ok.injEq] at h; subst h; exact h2.1
  rename_i hs2
  exact phasesLate_paid (h2.2 (by simpa using hs2)) h

/-! ## The theorems -/

/-- **C146.** Whatever the LP solver, the clock and the sorts answer: for every objective tried, other than those of the
post-Gomory iterations, the clock was read once more before, and it was below the time limit. So if the limit has passed from
the reading with number `n` on, at most `n` such objectives are tried; if it has passed at the start, none at all. -/
theorem time_limit_stops_partial {L : BuiltLP} {cur : Option (List ℚ)} {g : Gen} {st : TSt}
    (h : targetCuts W L cur g = .ok st) :
    timedTries st.log ≤ earlyReadings W.timeUp st.tick ∧
      (∀ n, (∀ t, n ≤ t → W.timeUp t = true) → timedTries st.log ≤ n) ∧
      (W.timeUp 0 = true → st.log = []) := by
  have key : timedTries st.log ≤ earlyReadings W.timeUp st.tick ∧ (W.timeUp 0 = true → st.log = []) := by
    unfold targetCuts at h
    dsimp only at h
    split at h
    · simp only [Res.ok.injEq] at h
      subst h
      exact ⟨by simp [timedTries], fun _ => rfl⟩
    · rename_i hn
      simp only [Bool.or_eq_true, not_or, Bool.not_eq_true] at hn
      obtain ⟨q, hq, h⟩ := Res.bind_ok h
      simp only [Res.ok.injEq] at h
      subst h
      refine ⟨?_, fun ht => by rw [ht] at hn; cases hn.2⟩
      show Paid W q.1
      unfold Phase.next at hq
      obtain ⟨r, hr, hq⟩ := Res.bind_ok hq
      have h1 := phaseAllOnes_after (by
        show timedTries [] + 1 ≤ earlyReadings W.timeUp (0 + 1)
        rw [earlyReadings_succ, hn.2]
        simp [timedTries]) hr
      split at hq
      · simp only [Res.ok.injEq] at hq; subst hq; exact h1.1
      rename_i hs
      obtain ⟨r2, hr2, hq⟩ := Res.bind_ok hq
      have h2 := phaseGomory_after (h1.2 (by simpa using hs)) hr2
      split at hq
      · simp only [Res.ok.injEq] at hq; subst hq; exact h2.1
      rename_i hs2
      dsimp only at hq
      refine phasesPoints_paid ?_ hq
      exact Credit.congr (a := r2.1) (h2.2 (by simpa using hs2)) rfl rfl
  refine ⟨key.1, fun n hn => le_trans key.1 ?_, key.2⟩
  have : ∀ k, earlyReadings W.timeUp k ≤ min k n := by
    intro k
    induction k with
    | zero => simp [earlyReadings]
    | succ k ih =>
      rw [earlyReadings_succ]
      by_cases hk : n ≤ k
      · rw [hn k hk]; simp; omega
      · split <;> omega
  exact le_trans (this _) (min_le_right _ _)

namespace Tri

/-- The example of `TargetEx` with a clock that is past the limit from reading 3 on. -/
def tW3 : TWorld := { tW with timeUp := fun t => decide (3 ≤ t) }

/-- Three readings below the limit, and three objectives tried, of which one is post-Gomory, instead of nine: `time_limit_stops_partial` applies
with `n = 3`. -/
example : (targetCuts tW3 L none tG).bind (fun st => Res.ok (st.log.map (·.heur), st.tick)) =
    .ok ([.ALL_ONES, .ITER_BILINEAR, .DISJ_LB], 5) ∧ (∀ t, 3 ≤ t → tW3.timeUp t = true) :=
  ⟨by decide +kernel, fun t ht => by simpa [tW3] using ht⟩

/-- The example with the clock past the limit from reading 1 on, and four post-Gomory iterations. -/
def tWlate : TWorld :=
  { tW with timeUp := fun t => decide (1 ≤ t), useAllOnes := 0, useIterBilinear := 4, gomoryStep := fun _ => .point [1, 1] }

/-- Why `_partial`: between post-Gomory iterations the time limit is not looked at
(src/cut/PRLP.cpp:1778-1781 tests the other limits only), so more objectives are tried than readings were below it. -/
theorem time_limit_gomory_ignores : ¬ ∀ (W : TWorld) (L : BuiltLP) (cur : Option (List ℚ)) (g : Gen) (st : TSt) (n : ℕ),
    targetCuts W L cur g = .ok st → (∀ t, n ≤ t → W.timeUp t = true) → st.log.length ≤ n := by
  intro h
  have e : (targetCuts tWlate L none tG).bind (fun st => Res.ok st.log.length) = .ok 2 := by decide +kernel
  obtain ⟨st, hst, e⟩ := Res.bind_ok e
  simp only [Res.ok.injEq] at e
  have := h tWlate L none tG st 1 hst (fun t ht => by simpa [tWlate] using ht)
  omega

end Tri
end VPC
