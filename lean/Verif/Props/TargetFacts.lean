import Verif.Props.TargetValid
import Verif.Props.TargetCounts
import Verif.Props.TargetEx
import Verif.Props.PRLPSetup

/-!
# What the loop over objectives does not do
-/
namespace VPC

/-! ## Post-Gomory iterations -/

/-- The LP solver answers the same when asked the same LP again, and solutions are not empty. -/
structure TWorld.Repeats (W : TWorld) : Prop where
  same : ∀ n m p, W.solve n p = W.solve m p
  nonempty : ∀ n p x, W.solve n p = .optimal x → x ≠ []

theorem sameSolution_self {EPS : ℚ} (h : 0 < EPS) {x : List ℚ} (hx : x ≠ []) :
    sameSolution EPS x (some x) = true := by
  cases x with
  | nil => exact absurd rfl hx
  | cons a x =>
    have hz : ∀ (l : List ℚ), (List.zipWith (fun a b => |a - b|) l l).foldl max 0 = 0 := by
      intro l
      induction l with
      | nil => rfl
      | cons a l ih => simpa using ih
    show isZero ((List.zipWith (fun a b => |a - b|) (a :: x) (a :: x)).foldl max 0) EPS = true
    rw [hz]
    simpa [isZero_iff] using h

/-- An attempt that finds the solution the solver already holds fails and adds nothing. -/
theorem genCut_same {e : GenEnv} (he : 0 < e.EPS) {g : Gen} {x : List ℚ} (hx : x ≠ []) {heur : ObjType}
    {p : Gen × Ret} (h : genCut e g (some x) (.optimal x) heur = some p) :
    (∃ f, p.2 = .fail f) ∧ p.1.cuts = g.cuts ∧ p.1.numCuts = g.numCuts ∧
      p.1.numFailures = g.numFailures + 1 := by
  unfold genCut at h
  dsimp only at h
  split at h
  · simp only [exitGenCut, Bool.false_and, Bool.false_eq_true, if_false, Option.some.injEq] at h
    subst h
    exact ⟨⟨_, rfl⟩, rfl, rfl, rfl⟩
  · rw [sameSolution_self he hx, if_pos rfl] at h
    simp only [exitGenCut, Bool.false_and, Bool.false_eq_true, if_false, Option.some.injEq] at h
    subst h
    exact ⟨⟨_, rfl⟩, rfl, rfl, rfl⟩

/-- The attempt finds the solution the solver already holds. -/
def Attempt.Same (W : TWorld) (a : Attempt) : Prop :=
  ∃ x heur, x ≠ [] ∧ a.op = .tryObj W.env (some x) (.optimal x) heur

theorem gomoryLoop_repeat {W : TWorld} (hW : W.Repeats) (he : 0 < W.env.EPS) :
    ∀ (k j : ℕ) (st st' : TSt), gomoryLoop W k j st = .ok st' → ∃ new, st'.log = st.log ++ new ∧
      new.length ≤ 1 ∧ ∀ a ∈ new, a.Same W := by
  intro k j st st' h
  cases k with
  | zero =>
    simp only [gomoryLoop, Res.ok.injEq] at h
    subst h
    exact ⟨[], by simp, by simp, by simp⟩
  | succ k =>
    rw [gomoryLoop] at h
    split at h
    · simp only [Res.ok.injEq] at h
      subst h
      exact ⟨[], by simp [TSt.ticked], by simp, by simp⟩
    split at h
    · simp only [Res.ok.injEq] at h
      subst h
      exact ⟨[], by simp [TSt.ticked], by simp, by simp⟩
    · cases h
    · simp only [Res.ok.injEq] at h
      subst h
      exact ⟨[], by simp [TSt.ticked], by simp, by simp⟩
    · rename_i obj _
      simp only at h
      split at h
      · simp only [Res.ok.injEq] at h
        subst h
        exact ⟨[], by simp [TSt.ticked, TSt.setObj], by simp, by simp⟩
      · rename_i hr
        obtain ⟨x, hx⟩ : ∃ x, W.solve (st.ticked.setObj obj).n (st.ticked.setObj obj).lp = .optimal x := by
          revert hr
          cases W.solve (st.ticked.setObj obj).n (st.ticked.setObj obj).lp <;> simp [resolvePRLP]
        obtain ⟨p, hp, h⟩ := Res.bind_ok h
        obtain ⟨p1, p2⟩ := p
        obtain ⟨g', hg, rfl⟩ := attempt_ok hp
        have hx' : ∀ m, W.solve m (st.ticked.setObj obj).lp = .optimal x := by
          intro m; rw [← hx]; exact hW.same _ _ _
        dsimp only at hg
        rw [hx, hx'] at hg
        obtain ⟨⟨f, hf⟩, -⟩ := genCut_same he (hW.nonempty _ _ _ hx) hg
        simp only at hf
        subst hf
        simp only [Res.ok.injEq] at h
        subst h
        refine ⟨[_], after_log _ _ _ _ _ _, by simp, ?_⟩
        intro a ha
        rw [List.mem_singleton] at ha
        subst ha
        dsimp only
        refine ⟨x, .ITER_BILINEAR, hW.nonempty _ _ _ hx, ?_⟩
        rw [hx, hx']
        rfl

theorem phaseGomory_repeat {W : TWorld} (hW : W.Repeats) (he : 0 < W.env.EPS) {st : TSt} {q : TSt × Bool}
    (h : phaseGomory W st = .ok q) : ∃ new, q.1.log = st.log ++ new ∧
      new.length ≤ 2 ∧ ∀ a ∈ new.tail, a.Same W := by
  unfold phaseGomory at h
  split at h
  · obtain ⟨s, hs, h⟩ := Res.bind_ok h
    simp only [abandonTest, Res.ok.injEq] at h
    subst h
    show ∃ new, s.log = _ ∧ _
    unfold iterate at hs
    split at hs
    · simp only [Res.ok.injEq] at hs
      subst hs
      exact ⟨[], by simp, by simp, by simp⟩
    split at hs
    · simp only [Res.ok.injEq] at hs
      subst hs
      exact ⟨[], by simp, by simp, by simp⟩
    · cases hs
    · obtain ⟨p, hp, hs⟩ := Res.bind_ok hs
      obtain ⟨p1, p2⟩ := p
      obtain ⟨a, ha, -⟩ := attempt_grew hp
      have hl : p1.log = st.log ++ [a] := ha.log
      simp only at hs
      split at hs
      · simp only [Res.ok.injEq] at hs
        subst hs
        exact ⟨[a], hl, by simp, by simp⟩
      · split at hs
        · simp only [Res.ok.injEq] at hs
          subst hs
          exact ⟨[a], hl, by simp, by simp⟩
        · obtain ⟨new, hn, h1, h2⟩ := gomoryLoop_repeat hW he _ _ _ _ hs
          refine ⟨[a] ++ new, by rw [hn, hl, List.append_assoc], ?_, by simpa using h2⟩
          simp; omega
  · simp only [Res.ok.injEq] at h
    subst h
    exact ⟨[], by simp, by simp, by simp⟩

/-- **C105.** With an LP solver that gives the same answer when the same LP is solved twice in a row, the
number of iterations asked for by `USE_ITER_BILINEAR` has no effect beyond two: at most two objectives
come from post-Gomory points, and a second one always fails without adding or replacing a cut, because its LP
is solved once without and once with generating a cut. -/
theorem post_gomory_one_cut {W : TWorld} (hW : W.Repeats) (he : 0 < W.env.EPS) {L : BuiltLP}
    {cur : Option (List ℚ)} {g : Gen} {st : TSt} (h : targetCuts W L cur g = .ok st) :
    usesOf .ITER_BILINEAR st.log ≤ 2 ∧
    ∀ pre a post, st.log = pre ++ a :: post → a.heur = .ITER_BILINEAR →
      (∃ b ∈ pre, b.heur = .ITER_BILINEAR) → ∀ g1 g2 : Gen, g1.step a.op = some g2 →
        g2.cuts = g1.cuts ∧ g2.numCuts = g1.numCuts ∧ g2.numFailures = g1.numFailures + 1 := by
  obtain ⟨la, lb, lt, hlog, ha, hb, -, -, hbq, ht⟩ := targetCuts_schedule h
  have hb2 : lb.length ≤ 2 ∧ ∀ a ∈ lb.tail, a.Same W := by
    rcases hbq with rfl | ⟨q0, q1, hq, hl⟩
    · simp
    · obtain ⟨new, hn, h1, h2⟩ := phaseGomory_repeat hW he hq
      rw [hl, List.append_cancel_left_eq] at hn
      subst hn
      exact ⟨h1, h2⟩
  have htn : ∀ a ∈ lt, a.heur ≠ .ITER_BILINEAR := by
    obtain ⟨d, p, n, t2, rfl, hd, hp, -, -, -, ⟨u, r, t4, rfl, hu, hr, -, -, -, ⟨p2, r2, n2, rfl, hp2, hr2, -⟩⟩⟩
      := ht
    intro a ha
    simp only [List.mem_append] at ha
    rcases ha with (ha | ha) | (ha | ha) | (ha | ha)
    · rw [hd a ha]; decide
    · rw [hp a ha]; decide
    · rw [hu a ha]; decide
    · rw [hr a ha]; decide
    · rw [hp2 a ha]; decide
    · rw [hr2 a ha]; decide
  have hta : ∀ a ∈ la, a.heur ≠ .ITER_BILINEAR := by
    intro a h; rw [ha a h]; decide
  refine ⟨?_, ?_⟩
  · rw [hlog, usesOf_append, usesOf_append, usesOf_all ha, usesOf_all hb]
    have : usesOf .ITER_BILINEAR lt = 0 := by
      unfold usesOf
      rw [List.countP_eq_zero]
      intro a h
      simpa using htn a h
    rw [this]
    simpa using hb2.1
  · intro pre a post hl hh ⟨b, hbm, hbh⟩ g1 g2 hs
    rw [hl] at hlog
    have hS : a.Same W := by
      have hf := congrArg (List.filter (fun a => decide (a.heur = .ITER_BILINEAR))) hlog
      have e1 : la.filter (fun a => decide (a.heur = .ITER_BILINEAR)) = [] :=
        List.filter_eq_nil_iff.2 (fun a h => by simpa using hta a h)
      have e2 : lt.filter (fun a => decide (a.heur = .ITER_BILINEAR)) = [] :=
        List.filter_eq_nil_iff.2 (fun a h => by simpa using htn a h)
      have e3 : lb.filter (fun a => decide (a.heur = .ITER_BILINEAR)) = lb :=
        List.filter_eq_self.2 (fun a h => by simpa using hb a h)
      rw [List.filter_append, List.filter_append, List.filter_append,
        List.filter_cons_of_pos (by simpa using hh), e1, e2, e3] at hf
      have hbf : b ∈ pre.filter (fun a => decide (a.heur = .ITER_BILINEAR)) := by
        simp [hbm, hbh]
      refine hb2.2 a ?_
      rw [List.nil_append, List.append_nil] at hf
      rw [← hf]
      cases hpf : pre.filter (fun a => decide (a.heur = .ITER_BILINEAR)) with
      | nil => rw [hpf] at hbf; cases hbf
      | cons c l => simp
    obtain ⟨x, heur, hx, hop⟩ := hS
    rw [hop, Gen.step] at hs
    cases hg : genCut W.env g1 (some x) (.optimal x) heur with
    | none => rw [hg] at hs; cases hs
    | some p =>
      rw [hg] at hs
      simp only [Option.map_some, Option.some.injEq] at hs
      subst hs
      exact (genCut_same he hx hg).2

/-! ## Points that are skipped -/

theorem log_intended {W : TWorld} {L : BuiltLP} (hW : W.Sorts L) {cur : Option (List ℚ)} {g : Gen} {st : TSt}
    (h : targetCuts W L cur g = .ok st) :
    ∀ a ∈ st.log, Intended W L a.heur a.lp ∧ Shape L a.lp := by
  have hK : Keeps W L (fun st => ∀ a ∈ st.log, Intended W L a.heur a.lp ∧ Shape L a.lp) := by
    refine ⟨hW.cands, ?_, ?_, ?_⟩
    · intro st st' hP _ hl _ _ _
      rw [hl]; exact hP
    · intro st heur st' r hP _ hs hi ha
      obtain ⟨g', -, rfl⟩ := attempt_ok ha
      intro a hm
      rw [after_log, List.mem_append, List.mem_singleton] at hm
      rcases hm with hm | rfl
      · exact hP a hm
      · exact ⟨hi.1, hs⟩
    · intro st x j m hP _ _ _
      simpa [raiseLower] using hP
  exact (targetCuts_keeps hK (fun st _ hl _ _ _ => by rw [hl]; simp) h).1

theorem middle_between {ps : List ℕ} (hs : ps.Pairwise (· < ·)) {k : ℕ} (hk : k ∈ middlePoints ps) :
    (∃ k' ∈ ps, k' < k) ∧ ∃ k' ∈ ps, k < k' := by
  cases ps with
  | nil => simp [middlePoints] at hk
  | cons a l =>
    simp only [middlePoints, List.drop_succ_cons, List.drop_zero] at hk
    rw [List.pairwise_cons] at hs
    refine ⟨⟨a, by simp, hs.1 k (List.mem_of_mem_dropLast hk)⟩, ?_⟩
    rcases List.eq_nil_or_concat l with rfl | ⟨l', b, rfl⟩
    · simp at hk
    · rw [List.concat_eq_append, List.dropLast_concat] at hk
      refine ⟨b, by simp, ?_⟩
      have := hs.2
      rw [List.concat_eq_append, List.pairwise_append] at this
      exact this.2.2 k hk b (by simp)

theorem not_head_later {ps : List ℕ} (hs : ps.Pairwise (· < ·)) {k : ℕ} (hk : k ∈ ps)
    (hh : ps.head? ≠ some k) : ∃ k' ∈ ps, k' < k := by
  cases ps with
  | nil => cases hk
  | cons a l =>
    rw [List.pairwise_cons] at hs
    rcases List.mem_cons.1 hk with rfl | hk
    · simp at hh
    · exact ⟨a, by simp, hs.1 k hk⟩

/-- **C106.** Which points are targeted: the first point row only by `DISJ_LB` (so with `USE_DISJ_LB = 0`
never); and the first round of points (`TIGHT_POINTS`) also leaves out the *last* point row, so with at
most two points it tries nothing. -/
theorem points_targeted {W : TWorld} {L : BuiltLP} (hw : L.WF) (hW : W.Sorts L) {cur : Option (List ℚ)}
    {g : Gen} {st : TSt} (h : targetCuts W L cur g = .ok st) :
    (∀ a ∈ st.log, a.heur = .TIGHT_POINTS → ∃ k, TargetsPoint L k a.lp ∧ IsPoint L k ∧
      (∃ k' < k, IsPoint L k') ∧ ∃ k' > k, IsPoint L k') ∧
    (∀ a ∈ st.log, a.heur = .TIGHT_POINTS2 → ∃ k, TargetsPoint L k a.lp ∧ IsPoint L k ∧
      ∃ k' < k, IsPoint L k') ∧
    (∀ a ∈ st.log, ∀ k, a.lp.eqRow = some k → (∀ k' < k, ¬ IsPoint L k') → a.heur = .DISJ_LB) := by
  have hl := log_intended hW h
  have hps := pointRows_sorted L
  have hT : ∀ p k, k ∈ middlePoints (pointRows L) → OnPoint L k p → Shape L p →
      TargetsPoint L k p ∧ IsPoint L k ∧ (∃ k' < k, IsPoint L k') ∧ ∃ k' > k, IsPoint L k' := by
    intro p k hk hp hs
    obtain ⟨⟨k1, h1, h2⟩, ⟨k2, h3, h4⟩⟩ := middle_between hps hk
    exact ⟨onPoint_spec hw hs hp, mem_pointRows.1 (middlePoints_subset hk), ⟨k1, h2, mem_pointRows.1 h1⟩,
      ⟨k2, h4, mem_pointRows.1 h3⟩⟩
  have hT2 : ∀ p k, k ∈ pointRows L → (pointRows L).head? ≠ some k → OnPoint L k p → Shape L p →
      TargetsPoint L k p ∧ IsPoint L k ∧ ∃ k' < k, IsPoint L k' := by
    intro p k hk hn hp hs
    obtain ⟨k1, h1, h2⟩ := not_head_later hps hk hn
    exact ⟨onPoint_spec hw hs hp, mem_pointRows.1 hk, k1, h2, mem_pointRows.1 h1⟩
  refine ⟨?_, ?_, ?_⟩
  · intro a ha hh
    obtain ⟨hi, hs⟩ := hl a ha
    rw [hh] at hi
    obtain ⟨k, hk, hp⟩ := hi
    exact ⟨k, hT _ k hk hp hs⟩
  · intro a ha hh
    obtain ⟨hi, hs⟩ := hl a ha
    rw [hh] at hi
    obtain ⟨k, hk, hn, hp⟩ := hi
    exact ⟨k, hT2 _ k hk hn hp hs⟩
  · intro a ha k hk hno
    obtain ⟨hi, hs⟩ := hl a ha
    have honly : ∀ k1, OnPoint L k1 a.lp → k1 = k := by
      rintro k1 (⟨h1, -⟩ | ⟨h1, -⟩)
      · rw [hk] at h1; cases h1
      · rw [hk, Option.some.injEq] at h1; exact h1.symm
    revert hi
    cases hh : a.heur <;> simp only [Intended, hk, reduceCtorEq, false_and, IsEmpty.forall_iff]
    case DISJ_LB => simp
    case TIGHT_POINTS =>
      rintro ⟨k1, h1, hp⟩
      have := honly k1 hp
      subst this
      obtain ⟨-, -, ⟨k2, h2, h3⟩, -⟩ := hT _ _ h1 hp hs
      exact absurd h3 (hno k2 h2)
    case TIGHT_POINTS2 =>
      rintro ⟨k1, h1, hn, hp⟩
      have := honly k1 hp
      subst this
      obtain ⟨-, -, k2, h2, h3⟩ := hT2 _ _ h1 hn hp hs
      exact absurd h3 (hno k2 h2)

/-! ## The point-ray LP that is set up -/

/-- Every point-ray LP that `PRLP::setup` loads is well formed. -/
theorem prlpSetup_wf {sortP : List PRow → List PRow} (hsort : ∀ l, (sortP l).Perm l)
    {INF DIFFEPS scale : ℚ} {numCols : ℕ} {rows : List PRow} (hidx : ∀ r ∈ rows, ∀ e ∈ r.vec, e.1 < numCols)
    {L : BuiltLP} (hL : prlpSetup sortP INF DIFFEPS scale numCols rows = some L) : L.WF := by
  unfold prlpSetup at hL
  rw [Option.map_eq_some_iff] at hL
  obtain ⟨st, hst, rfl⟩ := hL
  have hP := setupPass1_P1 hst
  refine ⟨?_, by simp, by simp⟩
  simp only
  set pts := retained true DIFFEPS (sortP st.pts)
  set rays := retained false DIFFEPS (sortP st.rays)
  have hin : ∀ r ∈ pts ++ rays, ∀ e ∈ r.vec,
      ((List.range numCols).filter (keepCol (pts ++ rays) st.lb st.ub)).idxOf e.1 <
      ((List.range numCols).filter (keepCol (pts ++ rays) st.lb st.ub)).length := by
    intro r hr e he
    rw [List.idxOf_lt_length_iff]
    have hmem : r ∈ rows := by
      rcases List.mem_append.1 hr with h | h
      · exact (hP.pts r ((hsort _).mem_iff.1 ((retained_sublist _ _ _).subset h))).1
      · exact (hP.rays r ((hsort _).mem_iff.1 ((retained_sublist _ _ _).subset h))).1
    simp only [List.mem_filter, List.mem_range]
    exact ⟨hidx r hmem e he, keepCol_of_entry hr he⟩
  intro r hr e he
  rcases List.mem_append.1 hr with h | h
  · obtain ⟨r0, h0, rfl⟩ := List.mem_map.1 h
    obtain ⟨e0, he0, rfl⟩ := List.mem_map.1 he
    exact hin r0 (by simp [h0]) e0 he0
  · obtain ⟨r0, h0, rfl⟩ := List.mem_map.1 h
    obtain ⟨e0, he0, rfl⟩ := List.mem_map.1 he
    exact hin r0 (by simp [h0]) e0 he0

theorem dupLoop_keeps_acc (EPS : ℚ) (rs : List PRow) (acc : List (PRow × Bool))
    (hno : ∀ r ∈ acc.map (·.1) ++ rs, ∀ r2 ∈ acc.map (·.1) ++ rs,
      rhsLineUp r r2 = true → isRowDifferent r.vec r.rhs r2.vec r2.rhs EPS ≠ -1) :
    ∃ t, dupLoop true EPS rs acc = acc.reverse ++ t := by
  induction rs generalizing acc with
  | nil => exact ⟨[], by simp [dupLoop]⟩
  | cons r rs ih =>
    simp only [dupLoop]
    split
    · obtain ⟨t, ht⟩ := ih ((r, false) :: acc) (by
        intro a ha b hb
        apply hno <;> simp_all <;> tauto)
      exact ⟨(r, false) :: t, by rw [ht]; simp⟩
    · have hI := dupInner_noReplace true EPS r acc (by
        intro p hp hl
        refine hno r (by simp) p.1 ?_ (hl rfl)
        simp only [List.mem_append, List.mem_map]; exact Or.inl ⟨p, hp, rfl⟩)
      rw [hI.1]
      obtain ⟨t, ht⟩ := ih ((r, (dupInner true EPS r acc).1) :: acc) (by
        intro a ha b hb
        apply hno <;> simp_all <;> tauto)
      exact ⟨(r, (dupInner true EPS r acc).1) :: t, by rw [ht]; simp⟩

theorem retained_head (EPS : ℚ) (r : PRow) (rs : List PRow)
    (hno : ∀ a ∈ r :: rs, ∀ b ∈ r :: rs,
      rhsLineUp a b = true → isRowDifferent a.vec a.rhs b.vec b.rhs EPS ≠ -1) :
    ∃ t, retained true EPS (r :: rs) = r :: t := by
  unfold retained
  simp only [dupLoop, dupSkip, Bool.true_and, if_true]
  obtain ⟨t, ht⟩ := dupLoop_keeps_acc EPS rs [(r, false)] (by simpa using hno)
  rw [ht]
  exact ⟨(t.filter fun p => !p.2).map (·.1), by simp⟩

/-- **C107** (partial: no comparison of two points answers "strictly stronger"). The row targeted for the
disjunctive lower bound is the row of a point with the lowest objective value among *all* points
collected from the terms. -/
theorem disj_lb_point_partial {sortP : List PRow → List PRow} (hsort : ∀ l, (sortP l).Perm l)
    (hasc : ∀ l, (sortP l).Pairwise (fun a b => a.depth ≤ b.depth))
    {INF DIFFEPS scale : ℚ} {numCols : ℕ} {rows : List PRow} (hwf : WellFormed scale numCols rows)
    (hno : ∀ r ∈ rows, ∀ r2 ∈ rows, rhsLineUp r r2 = true →
      isRowDifferent r.vec r.rhs r2.vec r2.rhs DIFFEPS ≠ -1)
    {L : BuiltLP} (hL : prlpSetup sortP INF DIFFEPS scale numCols rows = some L)
    {W : TWorld} (hW : W.Sorts L) {cur : Option (List ℚ)} {g : Gen} {st : TSt}
    (h : targetCuts W L cur g = .ok st) :
    ∀ a ∈ st.log, a.heur = .DISJ_LB → ∃ k r, r ∈ rows ∧ isZero (r.rhs * scale) = false ∧
      (∀ r' ∈ rows, isZero (r'.rhs * scale) = false → r.depth ≤ r'.depth) ∧
      L.rhs k = r.rhs * scale ∧ (∀ β, L.act k β = sdot r.vec (expand L.nz β)) ∧ TargetsPoint L k a.lp := by
  have hw := prlpSetup_wf hsort hwf.idx hL
  intro a ha hh
  have hs := (objectives_as_documented hw hW h).1 a ha
  rw [hh] at hs
  obtain ⟨⟨k, hk, hfirst, ht⟩, -⟩ := hs
  unfold prlpSetup at hL
  rw [Option.map_eq_some_iff] at hL
  obtain ⟨ss, hst, rfl⟩ := hL
  have hP := setupPass1_P1 hst
  have hperm := hsort ss.pts
  have hsorted := hasc ss.pts
  obtain hsp | ⟨r, rs, hsp⟩ : sortP ss.pts = [] ∨ ∃ r rs, sortP ss.pts = r :: rs := by
    cases sortP ss.pts with
    | nil => exact .inl rfl
    | cons r rs => exact .inr ⟨r, rs, rfl⟩
  · -- no point at all: then no row has a nonzero right-hand side
    exfalso
    obtain ⟨hk1, hk2⟩ := hk
    have hret : retained true DIFFEPS (sortP ss.pts) = [] := by rw [hsp]; rfl
    simp only [hret, List.map_nil, List.nil_append, BuiltLP.rhs] at hk1 hk2
    rw [List.getD_eq_getElem?_getD, List.getElem?_eq_getElem hk1, List.getElem_map, Option.getD_some] at hk2
    have hmem := List.getElem_mem (by simpa using hk1 : k < (retained false DIFFEPS (sortP ss.rays)).length)
    have h2 := hP.rays _ ((hsort _).mem_iff.1 ((retained_sublist false DIFFEPS _).subset hmem))
    rcases hwf.rhs _ h2.1 with h3 | h3
    · rw [h3] at hk2
      dsimp only at hk2
      exact absurd hk2 (by decide +kernel)
    · have h4 := h2.2
      rw [isZero_iff] at h4
      linarith
  · have hrm : r ∈ ss.pts := hperm.mem_iff.1 (by rw [hsp]; simp)
    obtain ⟨t, hret⟩ := retained_head DIFFEPS r rs (by
      intro a ha b hb
      exact hno a (hP.pts a (hperm.mem_iff.1 (by rw [hsp]; exact ha))).1 b
        (hP.pts b (hperm.mem_iff.1 (by rw [hsp]; exact hb))).1)
    have hk0 : k = 0 := by
      by_contra hne
      refine hfirst 0 (Nat.pos_of_ne_zero hne) ?_
      rw [hsp, hret]
      exact ⟨by simp, by simpa [BuiltLP.rhs] using (hP.pts r hrm).2⟩
    subst hk0
    refine ⟨0, r, (hP.pts r hrm).1, (hP.pts r hrm).2, ?_, ?_, ?_, ht⟩
    · intro r' hr' hz
      have hm : r' ∈ r :: rs := by
        rw [← hsp]
        refine hperm.mem_iff.2 ?_
        rcases hP.cover r' hr' with h1 | h1 | ⟨h1, -⟩
        · exact h1
        · rw [(hP.rays r' h1).2] at hz; cases hz
        · rw [h1] at hz; cases hz
      rw [hsp, List.pairwise_cons] at hsorted
      rcases List.mem_cons.1 hm with rfl | hm
      · exact le_refl _
      · exact hsorted.1 r' hm
    · rw [hsp, hret]
      simp [BuiltLP.rhs]
    · intro β
      have hin : ∀ e ∈ r.vec, e.1 ∈ (List.range numCols).filter (keepCol
          (retained true DIFFEPS (sortP ss.pts) ++ retained false DIFFEPS (sortP ss.rays)) ss.lb ss.ub) := by
        intro e he
        simp only [List.mem_filter, List.mem_range]
        refine ⟨hwf.idx r (hP.pts r hrm).1 e he, keepCol_of_entry (r := r) ?_ he⟩
        rw [hsp, hret]
        simp
      rw [← sdot_compress _ β r.vec hin]
      simp only [BuiltLP.act, BuiltLP.vec]
      rw [hsp, hret]
      simp

/-- **C107 is violated in general**: of two parallel points with the same, lowest objective value both are
dropped when the second row is the stronger one; the point targeted instead has a higher value. -/
theorem disj_lb_point_wrong :
    ∃ L, prlpSetup id 1000000 (1/1000) 1 2 [⟨[(0, 2), (1, 2)], 1, 0⟩, ⟨[(0, 1), (1, 1)], 1, 0⟩,
        ⟨[(0, 1), (1, 3)], 1, 5⟩] = some L ∧
      L.rows = [([(0, 1), (1, 3)], 1)] ∧ pointRows L = [0] :=
  ⟨⟨[0, 1], [-1000000, -1000000], [1000000, 1000000], [([(0, 1), (1, 3)], 1)]⟩, by decide +kernel⟩

/-- **C106.** With only rays in the point-ray LP the function reads `pointIndex[0]` of an empty vector,
unless it stops before. -/
theorem no_points_undefined {W : TWorld} {L : BuiltLP} (hp : ∀ k, ¬ IsPoint L k) {cur : Option (List ℚ)}
    {g : Gen} (h1 : W.useAllOnes ≠ 1) (h2 : W.useIterBilinear ≤ 0) (h3 : g.reachedCutLimit = false)
    (h4 : W.timeUp 0 = false) : targetCuts W L cur g = .undef := by
  have hpr : pointRows L = [] := by
    rw [List.eq_nil_iff_forall_not_mem]
    intro k hk
    exact hp k (mem_pointRows.1 hk)
  unfold targetCuts
  simp only [h3, h4, Bool.or_self, Bool.false_eq_true, if_false]
  unfold phaseAllOnes phaseGomory phasesPoints Phase.next
  rw [if_neg h1]
  simp only [Res.bind, Bool.false_eq_true, if_false]
  rw [if_neg (by omega)]
  simp [Res.bind, hpr]

/-! ## Examples -/
namespace Tri

theorem tRepeats : tW.Repeats :=
  ⟨fun _ _ _ => rfl, by
    intro n p x h
    simp only [tW] at h
    split at h
    · simp only [Solve.optimal.injEq] at h
      subst h
      simp
    · cases h⟩

/-- As `tW`, but up to five post-Gomory iterations are asked for, and each finds a new point. -/
def tWI : TWorld := { tW with useIterBilinear := 5, gomory := .point [2, 1], useAllOnes := 0,
                              gomoryStep := fun j => .point [1, (j : ℚ) + 1] }

/-- Non-vacuity of `post_gomory_one_cut`: of the five iterations two are made, and the second fails. -/
example : (∃ st, targetCuts tWI L none tG = .ok st ∧ usesOf .ITER_BILINEAR st.log ≤ 2) ∧
    (targetCuts tWI L none tG).bind (fun st =>
      Res.ok (usesOf .ITER_BILINEAR st.log, st.g.numCutsFromHeur .ITER_BILINEAR,
        st.g.numFailsFromHeur .ITER_BILINEAR)) = .ok (2, 1, 1) := by
  have hr : (targetCuts tWI L none tG).bind (fun st =>
      Res.ok (usesOf .ITER_BILINEAR st.log, st.g.numCutsFromHeur .ITER_BILINEAR,
        st.g.numFailsFromHeur .ITER_BILINEAR)) = .ok (2, 1, 1) := by decide +kernel
  refine ⟨?_, hr⟩
  obtain ⟨st, h, -⟩ := Res.bind_ok hr
  exact ⟨st, h, (post_gomory_one_cut (W := tWI) ⟨tRepeats.same, tRepeats.nonempty⟩ (by decide +kernel) h).1⟩

/-- Four points, three variables. -/
def L4 : BuiltLP := ⟨[0, 1, 2], [-100, -100, -100], [100, 100, 100],
  [([(0, 2), (1, 1)], 1), ([(0, 1), (1, 2)], 1), ([(0, 1), (2, 3)], 1), ([(1, 1), (2, 1)], 1),
   ([(0, 1), (1, 1)], 0), ([(1, 1), (2, 2)], 0)]⟩

/-- Feasible for the LP in the solver? -/
def feasB (p : PLP) (x : List ℚ) : Bool :=
  (List.zipWith (fun a b => decide (a ≤ b)) p.base.lb x).all id &&
  (List.zipWith (fun a b => decide (a ≤ b)) x p.base.ub).all id &&
  p.base.rows.all (fun r => decide (r.2 ≤ sdot r.1 (fun t => x.getD t 0))) &&
  match p.eqRow with
  | none => true
  | some k => decide (p.base.act k x ≤ p.base.rhs k)

/-- The best of the feasible candidates. -/
def bestOf (p : PLP) : List (List ℚ) → Option (List ℚ)
  | [] => none
  | x :: xs =>
    if feasB p x then match bestOf p xs with
      | none => some x
      | some y => if objVal p.obj x ≤ objVal p.obj y then some x else some y
    else bestOf p xs

/-- Some feasible points of `L4`. -/
def cand4 : List (List ℚ) := [[0, 1, 1/3], [1/4, 1/2, 1/2], [1/3, 1/3, 2/3], [1/2, 1/4, 3/4], [1, 0, 1],
  [1, 1, 0], [1, -1/3, 4/3]]

/-- A "solver" that looks only at `cand4`; no time limit; everything is tried in reverse order. -/
def tW4 : TWorld :=
  { tW with
    env := { demoEnv with lp := { demoLP with numCols := 3 }, nz := [0, 1, 2], nbVar := [0, 1, 2],
                          MIN_ORTHO := 0 }
    solve := fun _ p => match bestOf p cand4 with
      | some x => .optimal x
      | none => .other
    order := fun _ l => l.reverse
    basics := fun _ _ => [2, 1, 5, 6, 7]
    gomory := .point [1, 3, 2]
    unitOrder := [2, 0, 1], useTightRays := 1, useTightPoints := 2, useUnitVectors := 2 }

theorem tSorts4 : tW4.Sorts L4 := ⟨fun _ l => List.reverse_perm l, by decide⟩

theorem tWF4 : L4.WF := ⟨by decide, rfl, rfl⟩

/-- A run with four points. (The last candidate is never tried; rays of the first round succeed.) -/
theorem tRun4 : (targetCuts tW4 L4 none tG).bind (fun st =>
      Res.ok (st.log.map (fun a => (a.heur, a.lp.eqRow, a.lp.obj)))) =
    .ok [(.ALL_ONES, none, [1, 1, 1]), (.ITER_BILINEAR, none, [1, 3, 2]), (.DISJ_LB, none, [2, 1, 0]),
      (.DISJ_LB, some 0, [1, 1, 0]), (.DISJ_LB, some 0, [0, -1, 0]),
      (.UNIT_VECTORS, none, [0, 0, 1]), (.UNIT_VECTORS, none, [1, 0, 0]), (.TIGHT_RAYS, none, [1, 1, 0]),
      (.TIGHT_POINTS2, none, [1, 2, 0]), (.TIGHT_POINTS2, some 1, [1, 1, 0]),
      (.TIGHT_POINTS2, some 1, [1, 0, 3]), (.TIGHT_POINTS2, some 1, [0, -1, 0]),
      (.TIGHT_POINTS2, none, [1, 0, 3]), (.TIGHT_POINTS2, some 2, [1, 1, 0]),
      (.TIGHT_POINTS2, some 2, [0, 1, 1]), (.TIGHT_POINTS2, some 2, [0, -1, 0])] := by
  decide +kernel

/-- The cuts found in it, and the counters. -/
theorem tRun4_res : (targetCuts tW4 L4 none tG).bind (fun st =>
      Res.ok (st.g.cuts.map (fun c => c.cut.row), st.pCuts, st.pFails)) =
    .ok ([[(0, 1/4), (1, 1/2), (2, 1/2)], [(0, 1/3), (1, 1/3), (2, 2/3)], [(1, 1), (2, 1/3)],
      [(0, 1), (1, 1)]], 4, 12) := by
  decide +kernel

/-- The raised lower bounds and the tightness counters. -/
theorem tRun4_tight : (targetCuts tW4 L4 none tG).bind (fun st =>
      Res.ok (st.lp.base.lb, st.tr, st.tl, st.tu)) =
    .ok ([0, -100, 0], [13, 6, 8, 9, -1, 0], [0, 0, 0], [0, 0, 0]) := by
  decide +kernel

/-- As `tW4`, with points and rays only. -/
def tW4b : TWorld := { tW4 with useAllOnes := 0, useIterBilinear := 0, useDisjLB := 0, useUnitVectors := 0,
                                useTightRays := -2, useTightPoints := 3 }

/-- A run with points and rays only: in the second round the points of the first are tried again. -/
theorem tRun4b : (targetCuts tW4b L4 none tG).bind (fun st =>
      Res.ok (st.log.map (fun a => (a.heur, a.lp.eqRow, a.lp.obj)))) =
    .ok [(.TIGHT_POINTS, none, [1, 2, 0]), (.TIGHT_POINTS, some 1, [1, 1, 0]),
      (.TIGHT_POINTS, some 1, [1, 0, 3]), (.TIGHT_POINTS, some 1, [0, -1, 0]),
      (.TIGHT_POINTS, none, [1, 0, 3]), (.TIGHT_POINTS, some 2, [1, 1, 0]),
      (.TIGHT_POINTS, some 2, [0, 1, 1]), (.TIGHT_POINTS, some 2, [0, -1, 0]),
      (.TIGHT_RAYS, none, [1, 1, 0]), (.TIGHT_RAYS, none, [0, 1, 2]),
      (.TIGHT_POINTS2, none, [1, 2, 0]), (.TIGHT_POINTS2, some 1, [1, 1, 0]),
      (.TIGHT_POINTS2, some 1, [1, 0, 3]), (.TIGHT_POINTS2, some 1, [0, -1, 0])] := by
  decide +kernel

/-- Non-vacuity of `points_targeted`: the run above has attempts of both kinds. -/
example : ∃ st, targetCuts tW4b L4 none tG = .ok st ∧ usesOf .TIGHT_POINTS st.log = 8 ∧
    ∀ a ∈ st.log, a.heur = .TIGHT_POINTS → ∃ k, TargetsPoint L4 k a.lp ∧ IsPoint L4 k ∧
      (∃ k' < k, IsPoint L4 k') ∧ ∃ k' > k, IsPoint L4 k' := by
  have hr : (targetCuts tW4b L4 none tG).bind (fun st => Res.ok (usesOf .TIGHT_POINTS st.log)) = .ok 8 := by
    decide +kernel
  obtain ⟨st, h, hl⟩ := Res.bind_ok hr
  exact ⟨st, h, Res.ok.inj hl, (points_targeted (W := tW4b) tWF4 ⟨tSorts4.cands, tSorts4.units⟩ h).1⟩

/-- Sorting by depth. -/
def byDepth (l : List PRow) : List PRow := l.insertionSort (fun a b => a.depth ≤ b.depth)

/-- Non-vacuity of `disj_lb_point_partial` and `prlpSetup_wf`. -/
example : ∃ st, targetCuts tW L none tG = .ok st ∧ usesOf .DISJ_LB st.log = 3 ∧
    ∀ a ∈ st.log, a.heur = .DISJ_LB → ∃ k r, r ∈ rows ∧ isZero (r.rhs * 1) = false ∧
      (∀ r' ∈ rows, isZero (r'.rhs * 1) = false → r.depth ≤ r'.depth) ∧
      L.rhs k = r.rhs * 1 ∧ (∀ β, L.act k β = sdot r.vec (expand L.nz β)) ∧ TargetsPoint L k a.lp := by
  have hr : (targetCuts tW L none tG).bind (fun st => Res.ok (usesOf .DISJ_LB st.log)) = .ok 3 := by
    decide +kernel
  obtain ⟨st, h, hl⟩ := Res.bind_ok hr
  refine ⟨st, h, Res.ok.inj hl, disj_lb_point_partial (sortP := byDepth) (fun l => List.perm_insertionSort _ l)
    ?_ wf exact_rows.noReplace (INF := 1000000) (by decide +kernel) tSorts h⟩
  intro l
  have : Std.Total (fun a b : PRow => a.depth ≤ b.depth) := ⟨fun a b => le_total a.depth b.depth⟩
  have : IsTrans PRow (fun a b : PRow => a.depth ≤ b.depth) := ⟨fun a b c h1 h2 => le_trans h1 h2⟩
  exact List.pairwise_insertionSort _ l

/-- Non-vacuity of `no_points_undefined`: a point-ray LP with one ray. -/
example : targetCuts { tW with useAllOnes := 0, useIterBilinear := 0 }
    ⟨[0, 1], [-100, -100], [100, 100], [([(0, 1), (1, 1)], 0)]⟩ none tG = .undef := by
  refine no_points_undefined ?_ (by decide) (by decide) (by decide) rfl
  rintro k ⟨h1, h2⟩
  simp only [List.length_singleton] at h1
  obtain rfl : k = 0 := by omega
  revert h2
  decide +kernel

end Tri
end VPC
