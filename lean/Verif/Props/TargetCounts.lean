import Verif.Props.TargetProps

/-!
# How often each heuristic is used
-/
namespace VPC

/-! ## Specification -/

/-- Objectives tried by a heuristic. -/
def usesOf (h : ObjType) (log : List Attempt) : ℕ := log.countP fun a => a.heur = h

/-- Points a heuristic set out to be tight on: each is started with an objective in which no row is an
equation. -/
def pointsOf (h : ObjType) (log : List Attempt) : ℕ :=
  log.countP fun a => a.heur = h && a.lp.eqRow.isNone

/-! ## Traversal -/

/-- The log grew by `new`, all by heuristic `h`, and no row is left as an equation. -/
structure Grew (h : ObjType) (st st' : TSt) (new : List Attempt) : Prop where
  log : st'.log = st.log ++ new
  heur : ∀ a ∈ new, a.heur = h
  eq : st'.lp.eqRow = st.lp.eqRow

theorem Grew.refl' {h : ObjType} {st st' : TSt} (hl : st'.log = st.log) (he : st'.lp.eqRow = st.lp.eqRow) :
    Grew h st st' [] := ⟨by simp [hl], by simp, he⟩

theorem Grew.trans {h : ObjType} {a b c : TSt} {n m : List Attempt} (h1 : Grew h a b n)
    (h2 : Grew h b c m) : Grew h a c (n ++ m) :=
  ⟨by rw [h2.log, h1.log, List.append_assoc],
    fun x hx => by rcases List.mem_append.1 hx with h | h; exacts [h1.heur x h, h2.heur x h],
    h2.eq.trans h1.eq⟩

/-- Changing only other parts of the state before and after. -/
theorem Grew.of_eq {h : ObjType} {a a' b b' : TSt} {n : List Attempt} (h1 : Grew h a b n)
    (hl : a'.log = a.log) (he : a'.lp.eqRow = a.lp.eqRow) (hl' : b'.log = b.log)
    (he' : b'.lp.eqRow = b.lp.eqRow) : Grew h a' b' n :=
  ⟨by rw [hl', hl]; exact h1.log, h1.heur, by rw [he', he]; exact h1.eq⟩

variable {W : TWorld}

theorem attempt_grew {heur : ObjType} {st st' : TSt} {r : Ret} (h : attempt W heur st = .ok (st', r)) :
    ∃ a, Grew heur st st' [a] ∧ a.lp.eqRow = st.lp.eqRow := by
  obtain ⟨g', -, rfl⟩ := attempt_ok h
  exact ⟨_, ⟨after_log _ _ _ _ _ _, by simp, rfl⟩, rfl⟩

theorem tryOne_grew {heur : ObjType} {st st' : TSt} {r : Ret} (h : tryOne W heur st = .ok (st', r)) :
    ∃ a, Grew heur st st' [a] ∧ a.lp.eqRow = st.lp.eqRow := by
  obtain ⟨s1, h1, rfl⟩ := tryOne_ok h
  obtain ⟨a, ha, he⟩ := attempt_grew h1
  have hu := updateTight_same s1
  exact ⟨a, ha.of_eq rfl rfl hu.2.1 (by rw [hu.2.2.2.2.1]), he⟩

theorem candLoop_grew {heur : ObjType} {saved : TSt} :
    ∀ (k : ℕ) (cs : List PCand) (r : Ret) (st st' : TSt),
      candLoop W heur saved k cs r st = .ok st' →
      ∃ new, Grew heur st st' new ∧ new.length ≤ k ∧ ∀ a ∈ new, a.lp.eqRow = st.lp.eqRow := by
  intro k
  induction k with
  | zero =>
    intro cs r st st' h
    simp only [candLoop, Res.ok.injEq] at h
    subst h
    exact ⟨[], .refl' rfl rfl, by simp, by simp⟩
  | succ k ih =>
    intro cs r st st' h
    unfold candLoop at h
    split at h
    · simp only [Res.ok.injEq] at h
      subst h
      exact ⟨[], .refl' rfl rfl, by simp, by simp⟩
    match cs, h with
    | [], h =>
      simp only [Res.ok.injEq] at h
      subst h
      exact ⟨[], .refl' rfl rfl, by simp, by simp⟩
    | [c], h =>
      simp only [Res.ok.injEq] at h
      subst h
      exact ⟨[], .refl' rfl rfl, by simp, by simp⟩
    | c :: c' :: rest, h =>
      simp only at h
      obtain ⟨p, hp, h⟩ := Res.bind_ok h
      obtain ⟨p1, p2⟩ := p
      obtain ⟨a, ha, hae⟩ := tryOne_grew hp
      simp only at h
      split at h
      · simp only [Res.ok.injEq] at h
        subst h
        exact ⟨[a], ha.of_eq rfl rfl rfl rfl, by simp, fun b hb => by
          rw [List.mem_singleton] at hb; subst hb; exact hae⟩
      · obtain ⟨new, hn, hl, he⟩ := ih _ _ _ _ h
        have hs := addCand_same (p1.setObj (clearObj p1.lp.obj (candVec p1.lp.base c)))
          ((c' :: rest).dropWhile (changed (p1.setObj (clearObj p1.lp.obj (candVec p1.lp.base c))) saved))
        have heq : (addCand (p1.setObj (clearObj p1.lp.obj (candVec p1.lp.base c)))
          ((c' :: rest).dropWhile (changed (p1.setObj (clearObj p1.lp.obj (candVec p1.lp.base c)))
            saved))).lp.eqRow = st.lp.eqRow := by
          rw [hs.2.2.2.2.2]; exact ha.eq
        refine ⟨[a] ++ new, ?_, by simpa using hl, ?_⟩
        · refine Grew.trans (b := p1) (ha.of_eq rfl rfl rfl rfl) ?_
          exact hn.of_eq hs.2.1.symm hs.2.2.2.2.2.symm rfl rfl
        · intro b hb
          rcases List.mem_append.1 hb with hb | hb
          · rw [List.mem_singleton] at hb
            subst hb
            exact hae
          · rw [he b hb, heq]

/-- Objectives tried for one point: the first without, the others with the row as an equation. -/
structure OnePoint (maxObj : ℤ) (row : ℕ) (new : List Attempt) : Prop where
  len : (new.length : ℤ) ≤ max 1 maxObj
  shape : ∃ a l, new = a :: l ∧ a.lp.eqRow = none ∧ ∀ b ∈ l, b.lp.eqRow = some row

theorem findMore_grew {heur : ObjType} {row : ℕ} {maxObj : ℤ} {x : List ℚ} {r : Ret} {st st' : TSt}
    (he : st.lp.eqRow = none) (h : findMore W heur row maxObj x r st = .ok st') :
    ∃ new, Grew heur st st' new ∧ new.length ≤ (maxObj - 1).toNat ∧ ∀ a ∈ new, a.lp.eqRow = some row := by
  unfold findMore at h
  simp only at h
  generalize W.order _ _ = cs at h
  have hs := addCand_same (st.setEq (some row)) cs
  split at h
  · simp only [Res.ok.injEq] at h
    subst h
    refine ⟨[], .refl' ?_ ?_, by simp, by simp⟩
    · exact hs.2.1
    · rw [he]; rfl
  · obtain ⟨s, hs', h⟩ := Res.bind_ok h
    simp only [Res.ok.injEq] at h
    subst h
    obtain ⟨new, hn, hl, hq⟩ := candLoop_grew _ _ _ _ _ hs'
    refine ⟨new, ⟨?_, hn.heur, ?_⟩, hl, ?_⟩
    · show s.log = _
      rw [hn.log, hs.2.1]; rfl
    · rw [he]; rfl
    · intro a ha
      rw [hq a ha, hs.2.2.2.2.2]; rfl

theorem findCuts_grew {heur : ObjType} {row : ℕ} {maxObj : ℤ} {st st' : TSt}
    (he : st.lp.eqRow = none) (h : findCuts W heur row maxObj st = .ok st') :
    ∃ new, Grew heur st st' new ∧ OnePoint maxObj row new := by
  unfold findCuts at h
  simp only at h
  obtain ⟨p, hp, h⟩ := Res.bind_ok h
  obtain ⟨p1, p2⟩ := p
  obtain ⟨a, ha, hae⟩ := tryOne_grew hp
  have hone : OnePoint maxObj row [a] := ⟨by simp, a, [], rfl, by rw [hae]; exact he, by simp⟩
  have ha' : Grew heur st p1 [a] := ha.of_eq rfl rfl rfl rfl
  simp only at h
  unfold findCont at h
  split at h
  · simp only [Res.ok.injEq] at h
    subst h
    exact ⟨[a], ha'.of_eq rfl rfl rfl rfl, hone⟩
  split at h
  · simp only [Res.ok.injEq] at h
    subst h
    exact ⟨[a], ha'.of_eq rfl rfl rfl rfl, hone⟩
  split at h
  · simp only [Res.ok.injEq] at h
    subst h
    exact ⟨[a], ha'.of_eq rfl rfl rfl rfl, hone⟩
  · have he1 : p1.lp.eqRow = none := by rw [ha'.eq]; exact he
    obtain ⟨new, hn, hl, hq⟩ := findMore_grew
      (st := (p1.setObj (clearObj p1.lp.obj (st.lp.base.vec row))).ticked) he1 h
    refine ⟨[a] ++ new, ha'.trans (hn.of_eq rfl rfl rfl rfl), ?_, a, new, rfl, by rw [hae]; exact he, hq⟩
    simp only [List.length_append, List.length_singleton]
    push_cast
    omega

/-- Objectives tried for at most `n` points. -/
structure Points (maxObj : ℤ) (n : ℕ) (new : List Attempt) : Prop where
  len : (new.length : ℤ) ≤ n * max 1 maxObj
  pts : (new.countP fun a => a.lp.eqRow.isNone) ≤ n

theorem Points.nil (maxObj : ℤ) (n : ℕ) : Points maxObj n [] :=
  ⟨by simp, by simp⟩

theorem Points.cons {maxObj : ℤ} {row n : ℕ} {new new' : List Attempt} (h1 : OnePoint maxObj row new)
    (h2 : Points maxObj n new') : Points maxObj (n + 1) (new ++ new') := by
  refine ⟨?_, ?_⟩
  · have := h1.len
    have := h2.len
    rw [List.length_append]
    push_cast
    linarith
  · obtain ⟨a, l, rfl, ha, hl⟩ := h1.shape
    rw [List.countP_append, List.countP_cons]
    have : l.countP (fun a => a.lp.eqRow.isNone) = 0 := by
      rw [List.countP_eq_zero]
      intro b hb
      simp [hl b hb]
    have := h2.pts
    split <;> omega

theorem pointsLoop_grew {maxObj : ℤ} :
    ∀ (ks : List ℕ) (tried : ℕ) (st : TSt) (q : TSt × Bool × ℕ), st.lp.eqRow = none →
      pointsLoop W maxObj ks tried st = .ok q →
      ∃ new, Grew .TIGHT_POINTS st q.1 new ∧ tried ≤ q.2.2 ∧ Points maxObj (q.2.2 - tried) new ∧
        ((tried : ℤ) ≤ max 0 W.useTightPoints → (q.2.2 : ℤ) ≤ max 0 W.useTightPoints) := by
  intro ks
  induction ks with
  | nil =>
    intro tried st q he h
    simp only [pointsLoop, Res.ok.injEq] at h
    subst h
    exact ⟨[], .refl' rfl rfl, le_refl _, .nil _ _, fun h => h⟩
  | cons k ks ih =>
    intro tried st q he h
    rw [pointsLoop] at h
    split at h
    · simp only [Res.ok.injEq] at h
      subst h
      exact ⟨[], .refl' rfl rfl, le_refl _, .nil _ _, fun h => h⟩
    split at h
    · simp only [Res.ok.injEq] at h
      subst h
      exact ⟨[], .refl' rfl rfl, le_refl _, .nil _ _, fun h => h⟩
    rename_i hlt
    split at h
    · obtain ⟨new, hn, h1, h2, h3⟩ := ih _ _ _ (show st.ticked.lp.eqRow = none from he) h
      exact ⟨new, hn.of_eq rfl rfl rfl rfl, h1, h2, h3⟩
    · obtain ⟨s, hs, h⟩ := Res.bind_ok h
      obtain ⟨n1, g1, o1⟩ := findCuts_grew (show st.ticked.lp.eqRow = none from he) hs
      obtain ⟨new, hn, h1, h2, h3⟩ := ih _ _ _ (by rw [g1.eq]; exact he) h
      refine ⟨n1 ++ new, Grew.trans (a := st) (b := s) (g1.of_eq rfl rfl rfl rfl) hn,
        by omega, ?_, fun _ => h3 ?_⟩
      · have := Points.cons o1 h2
        have e : q.2.2 - (tried + 1) + 1 = q.2.2 - tried := by omega
        rwa [e] at this
      · push_cast
        have := not_le.1 hlt
        omega

theorem phasePoints_grew {ps : List ℕ} {maxObj : ℤ} {st : TSt} {q : TSt × Bool × ℕ}
    (he : st.lp.eqRow = none) (h : phasePoints W ps maxObj st = .ok q) :
    ∃ new, Grew .TIGHT_POINTS st q.1 new ∧ Points maxObj q.2.2 new ∧
      (q.2.2 : ℤ) ≤ max 0 W.useTightPoints := by
  unfold phasePoints at h
  obtain ⟨q1, hq1, h⟩ := Res.bind_ok h
  have h1 : ∃ new, Grew .TIGHT_POINTS st q1.1 new ∧ Points maxObj q1.2.2 new ∧
      (q1.2.2 : ℤ) ≤ max 0 W.useTightPoints := by
    split at hq1
    · obtain ⟨new, hn, h1, h2, h3⟩ := pointsLoop_grew _ _ _ _ he hq1
      exact ⟨new, hn, h2, h3 (le_max_left _ _)⟩
    · simp only [Res.ok.injEq] at hq1
      subst hq1
      exact ⟨[], .refl' rfl rfl, .nil _ _, le_max_left _ _⟩
  split at h
  · simp only [Res.ok.injEq] at h
    subst h
    exact h1
  · obtain ⟨p, hp, h⟩ := Res.bind_ok h
    simp only [Res.ok.injEq] at h
    simp only [abandonTest, Res.ok.injEq] at hp
    subst hp
    subst h
    obtain ⟨new, hn, h2, h3⟩ := h1
    exact ⟨new, hn.of_eq rfl rfl rfl rfl, h2, h3⟩

theorem points2Loop_grew {first : ℕ} {maxObj : ℤ} :
    ∀ (ks : List ℕ) (tried : ℕ) (st : TSt) (q : TSt × Bool), st.lp.eqRow = none →
      (tried : ℤ) ≤ max 0 W.useTightPoints →
      points2Loop W first maxObj ks tried st = .ok q →
      ∃ new n, Grew .TIGHT_POINTS2 st q.1 new ∧ Points maxObj n new ∧
        ((tried + n : ℕ) : ℤ) ≤ max 0 W.useTightPoints := by
  intro ks
  induction ks with
  | nil =>
    intro tried st q he ht h
    simp only [points2Loop, Res.ok.injEq] at h
    subst h
    exact ⟨[], 0, .refl' rfl rfl, .nil _ _, by simpa using ht⟩
  | cons k ks ih =>
    intro tried st q he ht h
    rw [points2Loop] at h
    split at h
    · simp only [Res.ok.injEq] at h
      subst h
      exact ⟨[], 0, .refl' rfl rfl, .nil _ _, by simpa using ht⟩
    split at h
    · simp only [Res.ok.injEq] at h
      subst h
      exact ⟨[], 0, .refl' rfl rfl, .nil _ _, by simpa using ht⟩
    rename_i hlt
    split at h
    · obtain ⟨new, n, hn, h2, h3⟩ := ih _ _ _ (show st.ticked.lp.eqRow = none from he) ht h
      exact ⟨new, n, hn.of_eq rfl rfl rfl rfl, h2, h3⟩
    split at h
    · obtain ⟨new, n, hn, h2, h3⟩ := ih _ _ _ (show st.ticked.lp.eqRow = none from he) ht h
      exact ⟨new, n, hn.of_eq rfl rfl rfl rfl, h2, h3⟩
    · obtain ⟨s, hs, h⟩ := Res.bind_ok h
      obtain ⟨n1, g1, o1⟩ := findCuts_grew (show st.ticked.lp.eqRow = none from he) hs
      have hlt' := not_le.1 hlt
      obtain ⟨new, n, hn, h2, h3⟩ := ih _ _ _ (by rw [g1.eq]; exact he) (by push_cast; omega) h
      refine ⟨n1 ++ new, n + 1, Grew.trans (a := st) (b := s) (g1.of_eq rfl rfl rfl rfl) hn,
        Points.cons o1 h2, ?_⟩
      push_cast at h3 ⊢
      omega

theorem phasePoints2_grew {ps : List ℕ} {first : ℕ} {maxObj : ℤ} {tried : ℕ} {st : TSt} {q : TSt × Bool}
    (he : st.lp.eqRow = none) (ht : (tried : ℤ) ≤ max 0 W.useTightPoints)
    (h : phasePoints2 W ps first maxObj tried st = .ok q) :
    ∃ new n, Grew .TIGHT_POINTS2 st q.1 new ∧ Points maxObj n new ∧
      ((tried + n : ℕ) : ℤ) ≤ max 0 W.useTightPoints := by
  unfold phasePoints2 Phase.next at h
  obtain ⟨q1, hq1, h⟩ := Res.bind_ok h
  have h1 : ∃ new n, Grew .TIGHT_POINTS2 st q1.1 new ∧ Points maxObj n new ∧
      ((tried + n : ℕ) : ℤ) ≤ max 0 W.useTightPoints := by
    split at hq1
    · exact points2Loop_grew _ _ _ _ he ht hq1
    · simp only [Res.ok.injEq] at hq1
      subst hq1
      exact ⟨[], 0, .refl' rfl rfl, .nil _ _, by simpa using ht⟩
  split at h
  · simp only [Res.ok.injEq] at h
    subst h
    exact h1
  · simp only [abandonTest, Res.ok.injEq] at h
    subst h
    obtain ⟨new, n, hn, h2, h3⟩ := h1
    exact ⟨new, n, hn.of_eq rfl rfl rfl rfl, h2, h3⟩

theorem tryUnit_grew {j : ℕ} {st st' : TSt} (h : tryUnit W j st = .ok st') :
    ∃ a, Grew .UNIT_VECTORS st st' [a] := by
  unfold tryUnit at h
  obtain ⟨p, hp, h⟩ := Res.bind_ok h
  obtain ⟨p1, p2⟩ := p
  obtain ⟨a, ha, -⟩ := tryOne_grew hp
  simp only [Res.ok.injEq] at h
  subst h
  refine ⟨a, ha.of_eq rfl rfl ?_ ?_⟩
  · simp only [TSt.setObj, raiseLower]; split <;> rfl
  · simp only [TSt.setObj]; exact (raiseLower_obj j).2

theorem unitsLoop_grew {max : ℤ} :
    ∀ (js : List ℕ) (tried : ℕ) (st : TSt) (q : TSt × Bool),
      unitsLoop W max js tried st = .ok q →
      ∃ new, Grew .UNIT_VECTORS st q.1 new ∧ new.length ≤ (max - tried).toNat ∧ new.length ≤ js.length := by
  intro js
  induction js with
  | nil =>
    intro tried st q h
    simp only [unitsLoop, Res.ok.injEq] at h
    subst h
    exact ⟨[], .refl' rfl rfl, by simp, by simp⟩
  | cons j js ih =>
    intro tried st q h
    rw [unitsLoop] at h
    split at h
    · simp only [Res.ok.injEq] at h
      subst h
      exact ⟨[], .refl' rfl rfl, by simp, by simp⟩
    rename_i hlt
    split at h
    · simp only [Res.ok.injEq] at h
      subst h
      exact ⟨[], .refl' rfl rfl, by simp, by simp⟩
    split at h
    · obtain ⟨new, hn, h1, h2⟩ := ih _ _ _ h
      exact ⟨new, hn.of_eq rfl rfl rfl rfl, h1, by simp; omega⟩
    · obtain ⟨s, hs, h⟩ := Res.bind_ok h
      obtain ⟨a, ha⟩ := tryUnit_grew hs
      obtain ⟨new, hn, h1, h2⟩ := ih _ _ _ h
      refine ⟨[a] ++ new, Grew.trans (a := st) (b := s) (ha.of_eq rfl rfl rfl rfl) hn, ?_, by simp; omega⟩
      rw [List.length_append, List.length_singleton]
      push_cast at h1
      omega

theorem phaseUnits_grew {max : ℤ} {st : TSt} {q : TSt × Bool} (h : phaseUnits W max st = .ok q) :
    ∃ new, Grew .UNIT_VECTORS st q.1 new ∧ new.length ≤ max.toNat ∧ new.length ≤ W.unitOrder.length := by
  unfold phaseUnits Phase.next at h
  obtain ⟨q1, hq1, h⟩ := Res.bind_ok h
  have h1 : ∃ new, Grew .UNIT_VECTORS st q1.1 new ∧ new.length ≤ max.toNat ∧
      new.length ≤ W.unitOrder.length := by
    split at hq1
    · obtain ⟨new, hn, h1, h2⟩ := unitsLoop_grew _ _ _ _ hq1
      exact ⟨new, hn, by simpa using h1, h2⟩
    · simp only [Res.ok.injEq] at hq1
      subst hq1
      exact ⟨[], .refl' rfl rfl, by simp, by simp⟩
  split at h
  · simp only [Res.ok.injEq] at h
    subst h
    exact h1
  · simp only [abandonTest, Res.ok.injEq] at h
    subst h
    obtain ⟨new, hn, h2, h3⟩ := h1
    exact ⟨new, hn.of_eq rfl rfl rfl rfl, h2, h3⟩

theorem tryRay_grew {heur : ObjType} {mark : Bool} {k : ℕ} {st st' : TSt}
    (h : tryRay W heur mark k st = .ok st') : ∃ a, Grew heur st st' [a] := by
  unfold tryRay at h
  obtain ⟨p, hp, h⟩ := Res.bind_ok h
  obtain ⟨p1, p2⟩ := p
  obtain ⟨a, ha, -⟩ := tryOne_grew hp
  simp only [Res.ok.injEq] at h
  subst h
  exact ⟨a, ha.of_eq rfl rfl rfl rfl⟩

theorem raysLoop_grew {max : ℤ} :
    ∀ (ks : List ℕ) (tried : ℕ) (st : TSt) (q : TSt × Bool × ℕ),
      raysLoop W max ks tried st = .ok q →
      ∃ new, Grew .TIGHT_RAYS st q.1 new ∧ q.2.2 = tried + new.length ∧
        ((tried : ℤ) ≤ max.toNat → (q.2.2 : ℤ) ≤ max.toNat) := by
  intro ks
  induction ks with
  | nil =>
    intro tried st q h
    simp only [raysLoop, Res.ok.injEq] at h
    subst h
    exact ⟨[], .refl' rfl rfl, rfl, fun h => h⟩
  | cons k ks ih =>
    intro tried st q h
    rw [raysLoop] at h
    split at h
    · simp only [Res.ok.injEq] at h
      subst h
      exact ⟨[], .refl' rfl rfl, rfl, fun h => h⟩
    rename_i hlt
    split at h
    · simp only [Res.ok.injEq] at h
      subst h
      exact ⟨[], .refl' rfl rfl, rfl, fun h => h⟩
    split at h
    · obtain ⟨new, hn, h1, h2⟩ := ih _ _ _ h
      exact ⟨new, hn.of_eq rfl rfl rfl rfl, h1, h2⟩
    · obtain ⟨s, hs, h⟩ := Res.bind_ok h
      obtain ⟨a, ha⟩ := tryRay_grew hs
      obtain ⟨new, hn, h1, h2⟩ := ih _ _ _ h
      refine ⟨[a] ++ new, Grew.trans (a := st) (b := s) (ha.of_eq rfl rfl rfl rfl) hn, ?_, fun _ => h2 ?_⟩
      · rw [List.length_append, List.length_singleton]
        omega
      · push_cast
        omega

theorem phaseRays_grew {rs : List ℕ} {max : ℤ} {st : TSt} {q : TSt × Bool × ℕ}
    (h : phaseRays W rs max st = .ok q) :
    ∃ new, Grew .TIGHT_RAYS st q.1 new ∧ q.2.2 = new.length ∧ q.2.2 ≤ max.toNat := by
  unfold phaseRays at h
  obtain ⟨q1, hq1, h⟩ := Res.bind_ok h
  have h1 : ∃ new, Grew .TIGHT_RAYS st q1.1 new ∧ q1.2.2 = new.length ∧ q1.2.2 ≤ max.toNat := by
    split at hq1
    · obtain ⟨new, hn, h1, h2⟩ := raysLoop_grew _ _ _ _ hq1
      refine ⟨new, hn, by omega, ?_⟩
      have := h2 (by simp)
      omega
    · simp only [Res.ok.injEq] at hq1
      subst hq1
      exact ⟨[], .refl' rfl rfl, rfl, by simp⟩
  split at h
  · simp only [Res.ok.injEq] at h
    subst h
    exact h1
  · obtain ⟨p, hp, h⟩ := Res.bind_ok h
    simp only [abandonTest, Res.ok.injEq] at hp
    subst hp
    simp only [Res.ok.injEq] at h
    subst h
    obtain ⟨new, hn, h2, h3⟩ := h1
    exact ⟨new, hn.of_eq rfl rfl rfl rfl, h2, h3⟩

theorem rays2Loop_grew {max : ℤ} :
    ∀ (ks : List ℕ) (tried : ℕ) (st : TSt) (q : TSt × Bool),
      rays2Loop W max ks tried st = .ok q →
      ∃ new, Grew .TIGHT_RAYS2 st q.1 new ∧
        (tried ≤ max.toNat → tried + new.length ≤ max.toNat) := by
  intro ks
  induction ks with
  | nil =>
    intro tried st q h
    simp only [rays2Loop, Res.ok.injEq] at h
    subst h
    exact ⟨[], .refl' rfl rfl, fun h => h⟩
  | cons k ks ih =>
    intro tried st q h
    rw [rays2Loop] at h
    split at h
    · simp only [Res.ok.injEq] at h
      subst h
      exact ⟨[], .refl' rfl rfl, fun h => h⟩
    split at h
    · simp only [Res.ok.injEq] at h
      subst h
      exact ⟨[], .refl' rfl rfl, fun h => h⟩
    rename_i hlt
    split at h
    · obtain ⟨new, hn, h1⟩ := ih _ _ _ h
      exact ⟨new, hn.of_eq rfl rfl rfl rfl, h1⟩
    · obtain ⟨s, hs, h⟩ := Res.bind_ok h
      obtain ⟨a, ha⟩ := tryRay_grew hs
      obtain ⟨new, hn, h1⟩ := ih _ _ _ h
      refine ⟨[a] ++ new, Grew.trans (a := st) (b := s) (ha.of_eq rfl rfl rfl rfl) hn, fun _ => ?_⟩
      have := h1 (by omega)
      rw [List.length_append, List.length_singleton]
      omega

theorem phaseRays2_grew {rs : List ℕ} {max : ℤ} {tried : ℕ} {st : TSt} {q : TSt × Bool}
    (ht : tried ≤ max.toNat) (h : phaseRays2 W rs max tried st = .ok q) :
    ∃ new, Grew .TIGHT_RAYS2 st q.1 new ∧ tried + new.length ≤ max.toNat := by
  unfold phaseRays2 at h
  split at h
  · obtain ⟨new, hn, h1⟩ := rays2Loop_grew _ _ _ _ h
    exact ⟨new, hn, h1 ht⟩
  · simp only [Res.ok.injEq] at h
    subst h
    exact ⟨[], .refl' rfl rfl, ht⟩

theorem phaseAllOnes_grew {st : TSt} {q : TSt × Bool} (h : phaseAllOnes W st = .ok q) :
    ∃ new, Grew .ALL_ONES st q.1 new ∧ new.length = if W.useAllOnes = 1 then 1 else 0 := by
  unfold phaseAllOnes at h
  split at h
  · rename_i hu
    obtain ⟨p, hp, h⟩ := Res.bind_ok h
    obtain ⟨p1, p2⟩ := p
    obtain ⟨a, ha, -⟩ := tryOne_grew hp
    simp only [abandonTest, Res.ok.injEq] at h
    subst h
    exact ⟨[a], ha.of_eq rfl rfl rfl rfl, by simp [hu]⟩
  · rename_i hu
    simp only [Res.ok.injEq] at h
    subst h
    exact ⟨[], .refl' rfl rfl, by simp [hu]⟩

theorem gomoryLoop_grew :
    ∀ (k j : ℕ) (st st' : TSt), gomoryLoop W k j st = .ok st' →
      ∃ new, Grew .ITER_BILINEAR st st' new ∧ new.length ≤ k := by
  intro k
  induction k with
  | zero =>
    intro j st st' h
    simp only [gomoryLoop, Res.ok.injEq] at h
    subst h
    exact ⟨[], .refl' rfl rfl, by simp⟩
  | succ k ih =>
    intro j st st' h
    rw [gomoryLoop] at h
    split at h
    · simp only [Res.ok.injEq] at h
      subst h
      exact ⟨[], .refl' rfl rfl, by simp⟩
    split at h
    · simp only [Res.ok.injEq] at h
      subst h
      exact ⟨[], .refl' rfl rfl, by simp⟩
    · cases h
    · simp only [Res.ok.injEq] at h
      subst h
      exact ⟨[], .refl' rfl rfl, by simp⟩
    · simp only at h
      split at h
      · simp only [Res.ok.injEq] at h
        subst h
        exact ⟨[], .refl' rfl rfl, by simp⟩
      · obtain ⟨p, hp, h⟩ := Res.bind_ok h
        obtain ⟨p1, p2⟩ := p
        obtain ⟨a, ha, -⟩ := attempt_grew hp
        simp only at h
        split at h
        · simp only [Res.ok.injEq] at h
          subst h
          exact ⟨[a], ha.of_eq rfl rfl rfl rfl, by simp⟩
        · obtain ⟨new, hn, h1⟩ := ih _ _ _ h
          exact ⟨[a] ++ new, Grew.trans (a := st) (b := p1) (ha.of_eq rfl rfl rfl rfl) hn, by simpa using h1⟩

theorem iterate_grew {st st' : TSt} (h : iterate W st = .ok st') :
    ∃ new, Grew .ITER_BILINEAR st st' new ∧ new.length ≤ W.useIterBilinear.toNat := by
  unfold iterate at h
  split at h
  · simp only [Res.ok.injEq] at h
    subst h
    exact ⟨[], .refl' rfl rfl, by simp⟩
  rename_i hu
  simp only [Bool.or_eq_true, decide_eq_true_eq, not_or, not_le] at hu
  split at h
  · simp only [Res.ok.injEq] at h
    subst h
    exact ⟨[], .refl' rfl rfl, by simp⟩
  · cases h
  · obtain ⟨p, hp, h⟩ := Res.bind_ok h
    obtain ⟨p1, p2⟩ := p
    obtain ⟨a, ha, -⟩ := attempt_grew hp
    simp only at h
    split at h
    · simp only [Res.ok.injEq] at h
      subst h
      exact ⟨[a], ha.of_eq rfl rfl rfl rfl, by simp; omega⟩
    · split at h
      · simp only [Res.ok.injEq] at h
        subst h
        exact ⟨[a], ha.of_eq rfl rfl rfl rfl, by simp; omega⟩
      · obtain ⟨new, hn, h1⟩ := gomoryLoop_grew _ _ _ _ h
        refine ⟨[a] ++ new, Grew.trans (a := st) (b := p1) (ha.of_eq rfl rfl rfl rfl) hn, ?_⟩
        rw [List.length_append, List.length_singleton]
        omega

theorem phaseGomory_grew {st : TSt} {q : TSt × Bool} (h : phaseGomory W st = .ok q) :
    ∃ new, Grew .ITER_BILINEAR st q.1 new ∧ new.length ≤ W.useIterBilinear.toNat := by
  unfold phaseGomory at h
  split at h
  · obtain ⟨s, hs, h⟩ := Res.bind_ok h
    obtain ⟨new, hn, h1⟩ := iterate_grew hs
    simp only [abandonTest, Res.ok.injEq] at h
    subst h
    exact ⟨new, hn.of_eq rfl rfl rfl rfl, h1⟩
  · simp only [Res.ok.injEq] at h
    subst h
    exact ⟨[], .refl' rfl rfl, by simp⟩

theorem phaseDisjLB_grew {first : ℕ} {maxObj : ℤ} {st : TSt} {q : TSt × Bool} (he : st.lp.eqRow = none)
    (h : phaseDisjLB W first maxObj st = .ok q) :
    ∃ new, Grew .DISJ_LB st q.1 new ∧ Points maxObj (if W.useDisjLB > 0 then 1 else 0) new := by
  unfold phaseDisjLB at h
  split at h
  · rename_i hu
    obtain ⟨s, hs, h⟩ := Res.bind_ok h
    obtain ⟨n1, g1, o1⟩ := findCuts_grew he hs
    simp only [abandonTest, Res.ok.injEq] at h
    subst h
    refine ⟨n1, g1.of_eq rfl rfl rfl rfl, ?_⟩
    rw [if_pos hu]
    have := Points.cons o1 (Points.nil maxObj 0)
    simpa using this
  · simp only [Res.ok.injEq] at h
    subst h
    exact ⟨[], .refl' rfl rfl, .nil _ _⟩

/-! ## The whole function -/

/-- All of `l` by heuristic `h`. -/
def AllBy (h : ObjType) (l : List Attempt) : Prop := ∀ a ∈ l, a.heur = h

/-- What is tried from the second round of points on. -/
structure Tail4 (W : TWorld) (L : BuiltLP) (maxObj : ℤ) (tried rays : ℕ) (l : List Attempt) : Prop where
  ex : ∃ p2 r2 n, l = p2 ++ r2 ∧ AllBy .TIGHT_POINTS2 p2 ∧ AllBy .TIGHT_RAYS2 r2 ∧ Points maxObj n p2 ∧
    ((tried + n : ℕ) : ℤ) ≤ max 0 W.useTightPoints ∧ rays + r2.length ≤ (maxRays W L).toNat

theorem Tail4.nil {L : BuiltLP} {maxObj : ℤ} {tried rays : ℕ} (h1 : (tried : ℤ) ≤ max 0 W.useTightPoints)
    (h2 : rays ≤ (maxRays W L).toNat) : Tail4 W L maxObj tried rays [] :=
  ⟨[], [], 0, rfl, by simp [AllBy], by simp [AllBy], .nil _ _, by simpa using h1, h2⟩

/-- What is tried from the unit vectors on. -/
structure Tail2 (W : TWorld) (L : BuiltLP) (maxObj : ℤ) (tried : ℕ) (l : List Attempt) : Prop where
  ex : ∃ u r t, l = u ++ r ++ t ∧ AllBy .UNIT_VECTORS u ∧ AllBy .TIGHT_RAYS r ∧
    u.length ≤ (maxUnits W L).toNat ∧ u.length ≤ W.unitOrder.length ∧ r.length ≤ (maxRays W L).toNat ∧
    Tail4 W L maxObj tried r.length t

theorem phasesLate_grew {L : BuiltLP} {first : ℕ} {maxObj : ℤ} {tried : ℕ} {st : TSt} {q : TSt × Bool}
    (he : st.lp.eqRow = none) (ht : (tried : ℤ) ≤ max 0 W.useTightPoints)
    (h : phasesLate W L first maxObj tried st = .ok q) :
    ∃ new, q.1.log = st.log ++ new ∧ Tail2 W L maxObj tried new := by
  unfold phasesLate Phase.next at h
  obtain ⟨q1, hq1, h⟩ := Res.bind_ok h
  obtain ⟨u, gu, u1, u2⟩ := phaseUnits_grew hq1
  split at h
  · simp only [Res.ok.injEq] at h
    subst h
    exact ⟨u, gu.log, u, [], [], by simp, gu.heur, by simp [AllBy], u1, u2, by simp,
      .nil ht (by simp)⟩
  obtain ⟨q2, hq2, h⟩ := Res.bind_ok h
  obtain ⟨r, gr, r1, r2⟩ := phaseRays_grew hq2
  split at h
  · simp only [Res.ok.injEq] at h
    subst h
    exact ⟨u ++ r, by rw [gr.log, gu.log, List.append_assoc], u, r, [], by simp, gu.heur, gr.heur, u1, u2,
      by omega, .nil ht (by omega)⟩
  obtain ⟨q3, hq3, h⟩ := Res.bind_ok h
  obtain ⟨p2, n, gp, hp, hn⟩ := phasePoints2_grew (by rw [gr.eq, gu.eq]; exact he) ht hq3
  split at h
  · simp only [Res.ok.injEq] at h
    subst h
    exact ⟨u ++ r ++ p2, by rw [gp.log, gr.log, gu.log]; simp, u, r, p2, rfl, gu.heur, gr.heur, u1, u2,
      by omega, ⟨p2, [], n, by simp, gp.heur, by simp [AllBy], hp, hn, by simp; omega⟩⟩
  obtain ⟨r', gr', hr'⟩ := phaseRays2_grew r2 h
  exact ⟨u ++ r ++ (p2 ++ r'), by rw [gr'.log, gp.log, gr.log, gu.log]; simp, u, r, p2 ++ r', rfl, gu.heur,
    gr.heur, u1, u2, by omega, ⟨p2, r', n, rfl, gp.heur, gr'.heur, hp, hn, by omega⟩⟩

/-- What is tried from the point of lowest objective value on. -/
structure Tail1 (W : TWorld) (L : BuiltLP) (maxObj : ℤ) (l : List Attempt) : Prop where
  ex : ∃ d p n t, l = d ++ p ++ t ∧ AllBy .DISJ_LB d ∧ AllBy .TIGHT_POINTS p ∧
    Points maxObj (if W.useDisjLB > 0 then 1 else 0) d ∧ Points maxObj n p ∧
    (n : ℤ) ≤ max 0 W.useTightPoints ∧ Tail2 W L maxObj n t

theorem Tail2.nil {L : BuiltLP} {maxObj : ℤ} {tried : ℕ} (h1 : (tried : ℤ) ≤ max 0 W.useTightPoints) :
    Tail2 W L maxObj tried [] :=
  ⟨[], [], [], rfl, by simp [AllBy], by simp [AllBy], by simp, by simp, by simp, .nil h1 (by simp)⟩

theorem phasesPoints_grew {L : BuiltLP} {maxObj : ℤ} {st : TSt} {q : TSt × Bool}
    (he : st.lp.eqRow = none) (h : phasesPoints W L maxObj st = .ok q) :
    ∃ new, q.1.log = st.log ++ new ∧ Tail1 W L maxObj new := by
  unfold phasesPoints at h
  split at h
  · cases h
  unfold Phase.next at h
  obtain ⟨q1, hq1, h⟩ := Res.bind_ok h
  obtain ⟨d, gd, hd⟩ := phaseDisjLB_grew he hq1
  split at h
  · simp only [Res.ok.injEq] at h
    subst h
    exact ⟨d, gd.log, d, [], 0, [], by simp, gd.heur, by simp [AllBy], hd, .nil _ _, by simp, .nil (by simp)⟩
  obtain ⟨q2, hq2, h⟩ := Res.bind_ok h
  obtain ⟨p, gp, hp, hn⟩ := phasePoints_grew (by rw [gd.eq]; exact he) hq2
  split at h
  · simp only [Res.ok.injEq] at h
    subst h
    exact ⟨d ++ p, by rw [gp.log, gd.log]; simp, d, p, _, [], by simp, gd.heur, gp.heur, hd, hp, hn,
      .nil hn⟩
  obtain ⟨t, ht, hT⟩ := phasesLate_grew (by rw [gp.eq, gd.eq]; exact he) hn h
  exact ⟨d ++ p ++ t, by rw [ht, gp.log, gd.log]; simp, d, p, _, t, rfl, gd.heur, gp.heur, hd, hp, hn, hT⟩

/-- The schedule: the log is made of the eight phases in their documented order. -/
theorem targetCuts_schedule {L : BuiltLP} {cur : Option (List ℚ)} {g : Gen} {st : TSt}
    (h : targetCuts W L cur g = .ok st) :
    ∃ a b t, st.log = a ++ b ++ t ∧ AllBy .ALL_ONES a ∧ AllBy .ITER_BILINEAR b ∧
      a.length ≤ (if W.useAllOnes = 1 then 1 else 0) ∧ b.length ≤ W.useIterBilinear.toNat ∧
      (b = [] ∨ ∃ q0 q1, phaseGomory W q0 = .ok q1 ∧ q1.1.log = q0.log ++ b) ∧
      Tail1 W L (2 * g.cutLimit) t := by
  have hnil : Tail1 W L (2 * g.cutLimit) [] :=
    ⟨[], [], 0, [], rfl, by simp [AllBy], by simp [AllBy], .nil _ _, .nil _ _, by simp, .nil (by simp)⟩
  unfold targetCuts at h
  simp only at h
  split at h
  · simp only [Res.ok.injEq] at h
    subst h
    exact ⟨[], [], [], rfl, by simp [AllBy], by simp [AllBy], by simp, by simp, .inl rfl, hnil⟩
  obtain ⟨q, hq, h⟩ := Res.bind_ok h
  simp only [Res.ok.injEq] at h
  subst h
  unfold Phase.next at hq
  obtain ⟨q1, hq1, hq⟩ := Res.bind_ok hq
  obtain ⟨a, ga, ha⟩ := phaseAllOnes_grew hq1
  have hal : q1.1.log = a := by rw [ga.log]; rfl
  split at hq
  · simp only [Res.ok.injEq] at hq
    subst hq
    exact ⟨a, [], [], by simpa using hal, ga.heur, by simp [AllBy], by omega, by simp, .inl rfl, hnil⟩
  obtain ⟨q2, hq2, hq⟩ := Res.bind_ok hq
  obtain ⟨b, gb, hb⟩ := phaseGomory_grew hq2
  split at hq
  · simp only [Res.ok.injEq] at hq
    subst hq
    exact ⟨a, b, [], by rw [gb.log, hal]; simp, ga.heur, gb.heur, by omega, hb,
      .inr ⟨_, _, hq2, gb.log⟩, hnil⟩
  have he : (resetSolver W q2.1).lp.eqRow = none := by
    show q2.1.lp.eqRow = none
    rw [gb.eq, ga.eq]; rfl
  obtain ⟨t, ht, hT⟩ := phasesPoints_grew he hq
  refine ⟨a, b, t, ?_, ga.heur, gb.heur, by omega, hb, .inr ⟨_, _, hq2, gb.log⟩, ?_⟩
  · rw [ht]
    show q2.1.log ++ t = _
    rw [gb.log, hal]
  · unfold maxObjPerPoint at hT
    have e : (-1 * (-2) * g.cutLimit : ℤ) = 2 * g.cutLimit := by ring
    rwa [e] at hT

/-! ## Property theorems -/

theorem usesOf_append (h : ObjType) (l m : List Attempt) : usesOf h (l ++ m) = usesOf h l + usesOf h m :=
  List.countP_append

theorem usesOf_all {h h' : ObjType} {l : List Attempt} (hl : AllBy h l) :
    usesOf h' l = if h = h' then l.length else 0 := by
  unfold usesOf
  split
  · rename_i e
    rw [List.countP_eq_length.2]
    intro a ha
    simp [hl a ha, e]
  · rename_i e
    rw [List.countP_eq_zero]
    intro a ha
    simp [hl a ha, e]

theorem pointsOf_append (h : ObjType) (l m : List Attempt) :
    pointsOf h (l ++ m) = pointsOf h l + pointsOf h m := List.countP_append

theorem pointsOf_all {h h' : ObjType} {l : List Attempt} (hl : AllBy h l) :
    pointsOf h' l = if h = h' then l.countP (fun a => a.lp.eqRow.isNone) else 0 := by
  unfold pointsOf
  split
  · rename_i e
    apply List.countP_congr
    intro a ha
    simp [hl a ha, e]
  · rename_i e
    rw [List.countP_eq_zero]
    intro a ha
    simp [hl a ha, e]

/-- **C104.** On one point-ray LP every heuristic stays within the budget its parameter documents: the
all-ones objective at most once and only if `USE_ALL_ONES = 1`; the post-Gomory point at most
`USE_ITER_BILINEAR` times; one point for the disjunctive lower bound, only if `USE_DISJ_LB > 0`; at most
`USE_TIGHT_POINTS` points over both rounds; at most as many unit vectors and (over both rounds) rays as
their limits say; and for a point at most twice the cut limit many objectives. Other heuristics are not
used. -/
theorem heuristic_budgets {L : BuiltLP} {cur : Option (List ℚ)} {g : Gen} {st : TSt}
    (h : targetCuts W L cur g = .ok st) :
    usesOf .ALL_ONES st.log ≤ (if W.useAllOnes = 1 then 1 else 0) ∧
    usesOf .ITER_BILINEAR st.log ≤ W.useIterBilinear.toNat ∧
    pointsOf .DISJ_LB st.log ≤ (if W.useDisjLB > 0 then 1 else 0) ∧
    ((pointsOf .TIGHT_POINTS st.log + pointsOf .TIGHT_POINTS2 st.log : ℕ) : ℤ) ≤ max 0 W.useTightPoints ∧
    usesOf .UNIT_VECTORS st.log ≤ (maxUnits W L).toNat ∧
    usesOf .TIGHT_RAYS st.log + usesOf .TIGHT_RAYS2 st.log ≤ (maxRays W L).toNat ∧
    (usesOf .DISJ_LB st.log : ℤ) ≤ max 1 (2 * g.cutLimit) ∧
    ((usesOf .TIGHT_POINTS st.log + usesOf .TIGHT_POINTS2 st.log : ℕ) : ℤ) ≤
      max 0 W.useTightPoints * max 1 (2 * g.cutLimit) := by
  obtain ⟨a, b, t, hlog, ha, hb, ha1, hb1, -, ⟨d, p, n, t2, rfl, hd, hp, hdp, hpp, hn,
    ⟨u, r, t4, rfl, hu, hr, hu1, -, hr1, ⟨p2, r2, n2, rfl, hp2, hr2, hpp2, hn2, hr3⟩⟩⟩⟩ :=
    targetCuts_schedule h
  rw [hlog]
  simp only [usesOf_append, pointsOf_append, usesOf_all ha, usesOf_all hb, usesOf_all hd, usesOf_all hp,
    usesOf_all hu, usesOf_all hr, usesOf_all hp2, usesOf_all hr2, pointsOf_all ha, pointsOf_all hb,
    pointsOf_all hd, pointsOf_all hp, pointsOf_all hu, pointsOf_all hr, pointsOf_all hp2,
    pointsOf_all hr2, reduceCtorEq, if_true, if_false, Nat.zero_add, Nat.add_zero]
  refine ⟨ha1, hb1, hdp.pts, ?_, hu1, hr3, ?_, ?_⟩
  · have h1 := hpp.pts
    have h2 := hpp2.pts
    have h3 : ((n + n2 : ℕ) : ℤ) ≤ max 0 W.useTightPoints := hn2
    have h4 : (p.countP (fun a => a.lp.eqRow.isNone) + p2.countP (fun a => a.lp.eqRow.isNone)) ≤ n + n2 := by
      omega
    exact le_trans (by exact_mod_cast h4) h3
  · have h1 := hdp.len
    have h2 : (0 : ℤ) ≤ max 1 (2 * g.cutLimit) := le_trans (by norm_num) (le_max_left _ _)
    split at h1
    · simpa using h1
    · simp at h1
      simp [h1]
  · have h1 := hpp.len
    have h2 := hpp2.len
    have h3 : ((n + n2 : ℕ) : ℤ) ≤ max 0 W.useTightPoints := hn2
    have h4 : (0 : ℤ) ≤ max 1 (2 * g.cutLimit) := le_trans (by norm_num) (le_max_left _ _)
    have h5 := mul_le_mul_of_nonneg_right h3 h4
    push_cast at h5 ⊢
    linarith

/-- Position of a heuristic in the documented order. -/
def ObjType.rank : ObjType → ℕ
  | .ALL_ONES => 0
  | .ITER_BILINEAR => 1
  | .DISJ_LB => 2
  | .TIGHT_POINTS => 3
  | .UNIT_VECTORS => 4
  | .TIGHT_RAYS => 5
  | .TIGHT_POINTS2 => 6
  | .TIGHT_RAYS2 => 7
  | _ => 8

/-- **C104.** The heuristics are used one after the other in the documented order, and no others. -/
theorem heuristic_order {L : BuiltLP} {cur : Option (List ℚ)} {g : Gen} {st : TSt}
    (h : targetCuts W L cur g = .ok st) :
    st.log.Pairwise (fun a b => a.heur.rank ≤ b.heur.rank) ∧ ∀ a ∈ st.log, a.heur.rank < 8 := by
  obtain ⟨a, b, t, hlog, ha, hb, -, -, -, ⟨d, p, n, t2, rfl, hd, hp, -, -, -,
    ⟨u, r, t4, rfl, hu, hr, -, -, -, ⟨p2, r2, n2, rfl, hp2, hr2, -, -, -⟩⟩⟩⟩ :=
    targetCuts_schedule h
  have hsame : ∀ {h : ObjType} {l : List Attempt}, AllBy h l →
      l.Pairwise (fun a b => a.heur.rank ≤ b.heur.rank) := by
    intro h l hl
    rw [List.pairwise_iff_forall_sublist]
    intro x y hxy
    have hx := hxy.subset (List.mem_cons_self ..)
    have hy := hxy.subset (List.mem_cons_of_mem _ (List.mem_singleton.2 rfl))
    rw [hl x hx, hl y hy]
  rw [hlog]
  refine ⟨?_, ?_⟩
  · simp only [List.pairwise_append, hsame ha, hsame hb, hsame hd, hsame hp, hsame hu, hsame hr,
      hsame hp2, hsame hr2, true_and]
    have key : ∀ {h h' : ObjType} {l m : List Attempt}, AllBy h l → AllBy h' m → h.rank ≤ h'.rank →
        ∀ x ∈ l, ∀ y ∈ m, x.heur.rank ≤ y.heur.rank := by
      intro h h' l m hl hm hle x hx y hy
      rw [hl x hx, hm y hy]; exact hle
    simp only [List.mem_append]
    refine ⟨key ha hb (by decide), ⟨key hd hp (by decide), ⟨key hu hr (by decide),
      key hp2 hr2 (by decide), ?_⟩, ?_⟩, ?_⟩
    · rintro x (hx | hx) y (hy | hy)
      exacts [key hu hp2 (by decide) x hx y hy, key hu hr2 (by decide) x hx y hy,
        key hr hp2 (by decide) x hx y hy, key hr hr2 (by decide) x hx y hy]
    · rintro x (hx | hx) y ((hy | hy) | (hy | hy))
      exacts [key hd hu (by decide) x hx y hy, key hd hr (by decide) x hx y hy,
        key hd hp2 (by decide) x hx y hy, key hd hr2 (by decide) x hx y hy,
        key hp hu (by decide) x hx y hy, key hp hr (by decide) x hx y hy,
        key hp hp2 (by decide) x hx y hy, key hp hr2 (by decide) x hx y hy]
    · rintro x (hx | hx) y ((hy | hy) | ((hy | hy) | (hy | hy)))
      exacts [key ha hd (by decide) x hx y hy, key ha hp (by decide) x hx y hy,
        key ha hu (by decide) x hx y hy, key ha hr (by decide) x hx y hy,
        key ha hp2 (by decide) x hx y hy, key ha hr2 (by decide) x hx y hy,
        key hb hd (by decide) x hx y hy, key hb hp (by decide) x hx y hy,
        key hb hu (by decide) x hx y hy, key hb hr (by decide) x hx y hy,
        key hb hp2 (by decide) x hx y hy, key hb hr2 (by decide) x hx y hy]
  · intro x hx
    simp only [List.mem_append] at hx
    rcases hx with (hx | hx) | ((hx | hx) | ((hx | hx) | (hx | hx)))
    · rw [ha x hx]; decide
    · rw [hb x hx]; decide
    · rw [hd x hx]; decide
    · rw [hp x hx]; decide
    · rw [hu x hx]; decide
    · rw [hr x hx]; decide
    · rw [hp2 x hx]; decide
    · rw [hr2 x hx]; decide

end VPC
