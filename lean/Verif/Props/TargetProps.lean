import Verif.Props.Target
import Verif.Props.Pool
import Verif.Props.CutClean
import Verif.Props.EndToEnd
import Mathlib.Tactic.Positivity

/-!
# Which objectives are tried on the point-ray LP: theorems
-/
namespace VPC

/-! ## Specification -/

/-- The LP minimizes `f` over its columns. -/
def PLP.Minimizes (p : PLP) (f : List ℚ → ℚ) : Prop :=
  ∀ β : List ℚ, β.length = p.cols → objVal p.obj β = f β

/-- A linear function that is bounded below on the point-ray LP by one of its constraints. -/
inductive ConstraintOf (L : BuiltLP) : (List ℚ → ℚ) → Prop
  | row (k : ℕ) (hk : k < L.rows.length) : ConstraintOf L (fun β => L.act k β)
  | lower (j : ℕ) (hj : j < L.nz.length) : ConstraintOf L (fun β => β.getD j 0)
  | upper (j : ℕ) (hj : j < L.nz.length) : ConstraintOf L (fun β => -β.getD j 0)

/-- Look for a cut tight on the point of row `k`: minimize the activity of that row; or require that the
row holds with equality and minimize another constraint. -/
def TargetsPoint (L : BuiltLP) (k : ℕ) (p : PLP) : Prop :=
  (p.eqRow = none ∧ p.Minimizes (L.act k)) ∨
  (p.eqRow = some k ∧ ∃ f, ConstraintOf L f ∧ p.Minimizes f)

/-- Rows with nonzero right-hand side are points, the others rays. -/
def IsPoint (L : BuiltLP) (k : ℕ) : Prop := k < L.rows.length ∧ isZero (L.rhs k) = false

/-- See `IsPoint`. -/
def IsRay (L : BuiltLP) (k : ℕ) : Prop := k < L.rows.length ∧ isZero (L.rhs k) = true

/-- What the documentation says each heuristic does. -/
def HeurSpec (L : BuiltLP) (heur : ObjType) (p : PLP) : Prop :=
  match heur with
  | .ALL_ONES => p.eqRow = none ∧ p.Minimizes List.sum
  | .ITER_BILINEAR => p.eqRow = none
  | .DISJ_LB => ∃ k, IsPoint L k ∧ (∀ k' < k, ¬ IsPoint L k') ∧ TargetsPoint L k p
  | .TIGHT_POINTS => ∃ k, IsPoint L k ∧ TargetsPoint L k p
  | .TIGHT_POINTS2 => ∃ k, IsPoint L k ∧ TargetsPoint L k p
  | .UNIT_VECTORS => p.eqRow = none ∧ ∃ j < p.cols, p.Minimizes (fun β => β.getD j 0)
  | .TIGHT_RAYS => p.eqRow = none ∧ ∃ k, IsRay L k ∧ p.Minimizes (L.act k)
  | .TIGHT_RAYS2 => p.eqRow = none ∧ ∃ k, IsRay L k ∧ p.Minimizes (L.act k)
  | _ => False

/-- The LP is the one that was set up, with possibly different lower bounds and objective, and a row
turned into an equation. -/
def SameRows (L : BuiltLP) (p : PLP) : Prop :=
  p.base.nz = L.nz ∧ p.base.rows = L.rows ∧ p.base.ub = L.ub

theorem mem_pointRows {L : BuiltLP} {k : ℕ} : k ∈ pointRows L ↔ IsPoint L k := by
  simp [pointRows, IsPoint]

theorem mem_rayRows {L : BuiltLP} {k : ℕ} : k ∈ rayRows L ↔ IsRay L k := by
  simp [rayRows, IsRay]

theorem pointRows_sorted (L : BuiltLP) : (pointRows L).Pairwise (· < ·) :=
  List.pairwise_lt_range.filter _

theorem head_pointRows {L : BuiltLP} {k : ℕ} (h : (pointRows L).head? = some k) :
    IsPoint L k ∧ ∀ k' < k, ¬ IsPoint L k' := by
  have hs := pointRows_sorted L
  have hm : k ∈ pointRows L := List.mem_of_head? h
  refine ⟨mem_pointRows.1 hm, fun k' hk' hp => ?_⟩
  have hm' := mem_pointRows.2 hp
  revert h hs hm'
  cases pointRows L with
  | nil => simp
  | cons a l =>
    intro h hs hm'
    simp only [List.head?_cons, Option.some.injEq] at h
    subst h
    rcases List.mem_cons.1 hm' with rfl | hm'
    · omega
    · have := (List.pairwise_cons.1 hs).1 _ hm'
      omega

theorem middlePoints_subset {ps : List ℕ} {k : ℕ} (h : k ∈ middlePoints ps) : k ∈ ps :=
  List.mem_of_mem_drop (List.mem_of_mem_dropLast h)

/-! ## Objectives are the intended ones -/

theorem vec_lt {L : BuiltLP} (hw : L.WF) (k : ℕ) : ∀ e ∈ L.vec k, e.1 < L.nz.length := by
  intro e he
  unfold BuiltLP.vec at he
  rw [List.getD_eq_getElem?_getD] at he
  cases hk : L.rows[k]? with
  | none => rw [hk] at he; simp at he
  | some r =>
    rw [hk] at he
    exact hw.rows r (List.mem_of_getElem? hk) e he

theorem minimizes_add {L : BuiltLP} {p : PLP} (hs : Shape L p) {v : SVec}
    (hv : ∀ e ∈ v, e.1 < L.nz.length) (ho : p.obj = addObj (constObj L.nz.length 0) v) :
    p.Minimizes (fun β => sdot v (fun t => β.getD t 0)) := by
  intro β hβ
  rw [hs.cols] at hβ
  rw [ho, addObj_val _ _ _ (by simp [constObj, hβ]) (by simpa [constObj] using hv),
    constObj_val _ _ _ hβ]
  ring

theorem onPoint_spec {L : BuiltLP} (hw : L.WF) {k : ℕ} {p : PLP} (hs : Shape L p)
    (h : OnPoint L k p) : TargetsPoint L k p := by
  rcases h with ⟨h1, h2⟩ | ⟨h1, c, hc, h2⟩
  · exact .inl ⟨h1, minimizes_add hs (vec_lt hw k) h2⟩
  · refine .inr ⟨h1, ?_⟩
    cases c with
    | row k' => exact ⟨_, .row k' hc, minimizes_add hs (vec_lt hw k') h2⟩
    | lb j =>
      refine ⟨_, .lower j hc, ?_⟩
      intro β hβ
      rw [minimizes_add hs (by simpa [candVec, CandIn] using hc) h2 β hβ]
      simp [candVec, sdot]
    | ub j =>
      refine ⟨_, .upper j hc, ?_⟩
      intro β hβ
      rw [minimizes_add hs (by simpa [candVec, CandIn] using hc) h2 β hβ]
      simp [candVec, sdot]

/-- Assumptions on the outside world: the sorts permute, nothing else. -/
structure TWorld.Sorts (W : TWorld) (L : BuiltLP) : Prop where
  cands : ∀ n l, (W.order n l).Perm l
  units : W.unitOrder.Perm (List.range L.nz.length)

theorem intended_spec {W : TWorld} {L : BuiltLP} (hw : L.WF) (hW : W.Sorts L) {heur : ObjType} {p : PLP}
    (hs : Shape L p) (h : Intended W L heur p) : HeurSpec L heur p := by
  cases heur <;> simp only [Intended] at h <;> simp only [HeurSpec]
  case ALL_ONES =>
    refine ⟨h.1, fun β hβ => ?_⟩
    rw [h.2, constObj_val _ _ _ (by rw [hβ, hs.cols]), one_mul]
  case ITER_BILINEAR => exact h.1
  case DISJ_LB =>
    obtain ⟨k, hk, hp⟩ := h
    exact ⟨k, (head_pointRows hk).1, (head_pointRows hk).2, onPoint_spec hw hs hp⟩
  case TIGHT_POINTS =>
    obtain ⟨k, hk, hp⟩ := h
    exact ⟨k, mem_pointRows.1 (middlePoints_subset hk), onPoint_spec hw hs hp⟩
  case TIGHT_POINTS2 =>
    obtain ⟨k, hk, -, hp⟩ := h
    exact ⟨k, mem_pointRows.1 hk, onPoint_spec hw hs hp⟩
  case UNIT_VECTORS =>
    obtain ⟨he, j, hj, ho⟩ := h
    have hj' : j < L.nz.length := by simpa using hW.units.mem_iff.1 hj
    refine ⟨he, j, by rw [hs.cols]; exact hj', fun β hβ => ?_⟩
    rw [hs.cols] at hβ
    rw [ho, objVal_set _ _ _ _ (by simp [constObj, hβ]) (by simpa [constObj] using hj'),
      constObj_val _ _ _ hβ]
    simp [constObj, hj']
  case TIGHT_RAYS =>
    obtain ⟨he, k, hk, ho⟩ := h
    exact ⟨he, k, mem_rayRows.1 hk, minimizes_add hs (vec_lt hw k) ho⟩
  case TIGHT_RAYS2 =>
    obtain ⟨he, k, hk, ho⟩ := h
    exact ⟨he, k, mem_rayRows.1 hk, minimizes_add hs (vec_lt hw k) ho⟩

theorem after_log (st : TSt) (e : GenEnv) (s : Solve) (heur : ObjType) (g' : Gen) (r : Ret) :
    (st.after e s heur g' r).log = st.log ++ [⟨heur, st.lp, .tryObj e st.cur s heur⟩] := rfl

/-- **C100.** Whatever the LP solver, the clock and the sorts answer: every objective tried is the one its
heuristic stands for, on the point-ray LP that was set up (up to lower bounds raised by unit vectors), and
when the function returns the objective is zero and every row is an inequality again. -/
theorem objectives_as_documented {W : TWorld} {L : BuiltLP} (hw : L.WF) (hW : W.Sorts L)
    {cur : Option (List ℚ)} {g : Gen} {st : TSt} (h : targetCuts W L cur g = .ok st) :
    (∀ a ∈ st.log, HeurSpec L a.heur a.lp ∧ SameRows L a.lp) ∧
    SameRows L st.lp ∧ st.lp.eqRow = none ∧ st.lp.Minimizes (fun _ => 0) := by
  have hK : Keeps W L (fun st => ∀ a ∈ st.log, HeurSpec L a.heur a.lp ∧ SameRows L a.lp) := by
    refine ⟨hW.cands, ?_, ?_, ?_⟩
    · intro st st' hP _ hl _ _ _
      rw [hl]; exact hP
    · intro st heur st' r hP _ hs hi ha
      obtain ⟨g', -, rfl⟩ := attempt_ok ha
      intro a hm
      rw [after_log, List.mem_append, List.mem_singleton] at hm
      rcases hm with hm | rfl
      · exact hP a hm
      · exact ⟨intended_spec hw hW hs hi.1, hs.nz, hs.rows, hs.ub⟩
    · intro st x j m hP _ _ _
      simpa [raiseLower] using hP
  obtain ⟨h1, h2⟩ := targetCuts_keeps hK (fun st _ hl _ _ _ => by rw [hl]; simp) h
  refine ⟨h1, ⟨h2.nz, h2.rows, h2.ub⟩, h2.eq, fun β hβ => ?_⟩
  rw [h2.obj, constObj_val _ _ _ (by rw [hβ, h2.toShape.cols]), zero_mul]

/-! ## The function is a history of objectives -/

/-- `genCut` never returns the code for "primal infeasible" that the callers test for. -/
theorem genCut_never_bad {e : GenEnv} {g : Gen} {old : Option (List ℚ)} {s : Solve} {heur : ObjType}
    {p : Gen × Ret} (h : genCut e g old s heur = some p) : badRet p.2 = false := by
  have hexit : ∀ (g : Gen) (s : Solve) (r : Ret) (p : Gen × Ret), r ≠ .fail .PRIMAL_INFEASIBLE →
      exitGenCut g s r heur = some p → badRet p.2 = false := by
    intro g s r p hr h
    cases r with
    | fail f =>
      simp only [exitGenCut, Bool.false_and, Bool.false_eq_true, if_false, Option.some.injEq] at h
      subst h
      simpa [badRet] using hr
    | num n =>
      cases s <;> cases n <;> simp [exitGenCut, resolvePRLP, Solve.isOptimal] at h <;> subst h <;>
        simp [badRet]
  unfold genCut at h
  dsimp only at h
  split at h
  · exact hexit _ _ _ _ (by simp) h
  split at h
  · split at h
    · exact hexit _ _ _ _ (by simp) h
    · refine hexit _ _ _ _ ?_ h
      unfold genCutHelper
      split
      · simp
      dsimp only
      split
      · rename_i f _
        cases f <;> simp [CleanFail.toFail]
      · split
        · split <;> simp
        · split
          · simp
          · split <;> simp
  · exact hexit _ _ _ _ (by simp) h
  · split at h
    · rename_i f hf
      refine hexit _ _ _ _ ?_ h
      revert hf
      generalize s = s'
      cases s' <;> simp [resolvePRLP] <;> rintro rfl <;> simp
    · exact hexit _ _ _ _ (by simp) h

theorem genRun_append (g : Gen) (l1 l2 : List Op) :
    g.run (l1 ++ l2) = (g.run l1).bind fun g' => g'.run l2 := by
  induction l1 generalizing g with
  | nil => simp [run_nil]
  | cons o l1 ih =>
    rw [List.cons_append, run_cons, run_cons]
    cases g.step o with
    | none => rfl
    | some g1 => exact ih g1

theorem run_single {g g' : Gen} {e : GenEnv} {old : Option (List ℚ)} {s : Solve} {heur : ObjType} {r : Ret}
    (h : genCut e g old s heur = some (g', r)) : g.run [.tryObj e old s heur] = some g' := by
  rw [run_cons, Gen.step, h]; rfl

theorem eff_counts {g g' : Gen} {heur : ObjType} {r : Ret} (h : Eff g heur g' r) :
    g'.numCuts = g.numCuts + r.cuts ∧ g'.numFailures = g.numFailures + r.fails ∧
    g'.cutLimit = g.cutLimit ∧ g'.perDisj = g.perDisj ∧ g'.currDisj = g.currDisj := by
  cases h <;> simp [Gen.addCut, Gen.tick, Gen.failed, Gen.replaceCut, Ret.cuts, Ret.fails]

/-- What the state says about the generator. -/
structure TRefines (g : Gen) (st : TSt) : Prop where
  run : g.run (st.log.map (·.op)) = some st.g
  cuts : st.g.numCuts = g.numCuts + st.pCuts
  fails : st.g.numFailures = g.numFailures + st.pFails
  limit : st.g.cutLimit = g.cutLimit
  mode : st.g.perDisj = g.perDisj ∧ st.g.currDisj = g.currDisj
  tried : st.log.length = st.pCuts + st.pFails

theorem refines_att {W : TWorld} {g : Gen} {heur : ObjType} {st st' : TSt} {r : Ret}
    (hP : TRefines g st) (ha : attempt W heur st = .ok (st', r)) : TRefines g st' := by
  obtain ⟨g', hg, rfl⟩ := attempt_ok ha
  obtain ⟨p, hp, he⟩ := genCut_eff W.env st.g st.cur (W.solve st.n st.lp) heur
  rw [hg] at hp
  simp only [Option.some.injEq] at hp
  subst hp
  obtain ⟨e1, e2, e3, e4, e5⟩ := eff_counts he
  simp only at e1 e2 e3 e4 e5 he
  refine ⟨?_, ?_, ?_, ?_, ?_, ?_⟩
  · rw [after_log, List.map_append, genRun_append, hP.run]
    exact run_single hg
  · simp only [TSt.after]; rw [e1, hP.cuts]; omega
  · simp only [TSt.after]; rw [e2, hP.fails]; omega
  · simp only [TSt.after]; rw [e3, hP.limit]
  · simp only [TSt.after]; rw [e4, e5]; exact hP.mode
  · rw [after_log, List.length_append, hP.tried]
    simp only [TSt.after, List.length_singleton]
    have : r.cuts + r.fails = 1 := by
      cases he <;> rfl
    omega

theorem refines_keeps {W : TWorld} {L : BuiltLP} (hW : W.Sorts L) (g : Gen) : Keeps W L (TRefines g) := by
  refine ⟨hW.cands, ?_, ?_, ?_⟩
  · intro st st' hP hg hl hc hf _
    exact ⟨by rw [hg, hl]; exact hP.run, by rw [hg, hc]; exact hP.cuts, by rw [hg, hf]; exact hP.fails,
      by rw [hg]; exact hP.limit, by rw [hg]; exact hP.mode, by rw [hl, hc, hf]; exact hP.tried⟩
  · intro st heur st' r hP _ _ _ ha
    exact refines_att hP ha
  · intro st x j m hP _ _ _
    exact ⟨hP.run, hP.cuts, hP.fails, hP.limit, hP.mode, hP.tried⟩

theorem refines_init (g : Gen) (st : TSt) (hg : st.g = g) (hl : st.log = []) (hc : st.pCuts = 0)
    (hf : st.pFails = 0) : TRefines g st :=
  ⟨by rw [hl, hg]; rfl, by rw [hg, hc]; rfl, by rw [hg, hf]; rfl, by rw [hg], by rw [hg]; exact ⟨rfl, rfl⟩,
    by rw [hl, hc, hf]; rfl⟩

/-- **C101.** Everything the function does to the cuts and counters is a sequence of objectives tried, so the
theorems about such histories (`counters_exact`, `cut_limit_total`, `given_cuts_preserved`,
`pool_distinct_partial`, ...) apply to it; the number it returns is the number of cuts added, and the
objectives tried are the cuts added plus the failures. -/
theorem target_is_history {W : TWorld} {L : BuiltLP} (hW : W.Sorts L) {cur : Option (List ℚ)} {g : Gen}
    {st : TSt} (h : targetCuts W L cur g = .ok st) :
    g.run (st.log.map (·.op)) = some st.g ∧
    st.pCuts = st.g.numCuts - g.numCuts ∧ g.numCuts ≤ st.g.numCuts ∧
    st.log.length = (st.g.numCuts - g.numCuts) + (st.g.numFailures - g.numFailures) := by
  have hr := (targetCuts_keeps (refines_keeps hW g)
    (fun st hg hl hc hf _ => refines_init g st hg hl hc hf) h).1
  have h1 := hr.cuts
  have h2 := hr.fails
  have h3 := hr.tried
  exact ⟨hr.run, by omega, by omega, by omega⟩

/-! ## Limits -/

/-- **C102.** An objective is tried only while the cut limit is not reached and the objectives tried before
on this point-ray LP have not reached the failure limit (for some value of the solve time). -/
theorem tried_only_below_limits {W : TWorld} {L : BuiltLP} (hW : W.Sorts L) {cur : Option (List ℚ)}
    {g : Gen} {st : TSt} (h : targetCuts W L cur g = .ok st) :
    ∀ pre a post, st.log = pre ++ a :: post → ∃ g', g.run (pre.map (·.op)) = some g' ∧
      g'.reachedCutLimit = false ∧
      ∃ t, reachedFailureLimit g.cutLimit t W.prlpTimeLimit (g'.numCuts - g.numCuts)
        (g'.numFailures - g.numFailures) = false := by
  have hK : Keeps W L (fun st => TRefines g st ∧ ∀ pre a post, st.log = pre ++ a :: post →
      ∃ g', g.run (pre.map (·.op)) = some g' ∧ g'.reachedCutLimit = false ∧
      ∃ t, reachedFailureLimit g.cutLimit t W.prlpTimeLimit (g'.numCuts - g.numCuts)
        (g'.numFailures - g.numFailures) = false) := by
    refine ⟨hW.cands, ?_, ?_, ?_⟩
    · intro st st' hP hg hl hc hf hb
      refine ⟨(refines_keeps hW g).same st st' hP.1 hg hl hc hf hb, ?_⟩
      rw [hl]; exact hP.2
    · intro st heur st' r hP hb hs hi ha
      refine ⟨refines_att hP.1 ha, ?_⟩
      obtain ⟨g', hg, rfl⟩ := attempt_ok ha
      intro pre a post hl
      rw [after_log] at hl
      rcases List.eq_nil_or_concat post with rfl | ⟨post', b, rfl⟩
      · have := List.append_inj' hl rfl
        obtain ⟨hpre, -⟩ := this
        refine ⟨st.g, by rw [← hpre]; exact hP.1.run, hb.1, ?_⟩
        obtain ⟨t, ht⟩ := hb.2
        refine ⟨t, ?_⟩
        have e1 : st.g.numCuts - g.numCuts = st.pCuts := by have := hP.1.cuts; omega
        have e2 : st.g.numFailures - g.numFailures = st.pFails := by have := hP.1.fails; omega
        rw [e1, e2, ← hP.1.limit]
        exact ht
      · rw [List.concat_eq_append, ← List.cons_append, ← List.append_assoc] at hl
        have := List.append_inj' hl rfl
        exact hP.2 pre a post' this.1
    · intro st x j m hP hr hj hs
      refine ⟨(refines_keeps hW g).low st x j m hP.1 hr hj hs, ?_⟩
      simpa [raiseLower] using hP.2
  refine (targetCuts_keeps hK (fun st hg hl hc hf _ => ⟨refines_init g st hg hl hc hf, ?_⟩) h).1.2
  intro pre a post hl'
  rw [hl] at hl'
  simp at hl'

end VPC
