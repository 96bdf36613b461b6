import Verif.Props.Touch
import Verif.Props.EndToEnd

/-!
# C155 in the original variables: the LP optimum of a term, or the stored solution, lies on the cut
-/
namespace VPC
open Finset

/-- What is assumed of an answer of the LP solver for a term: the solution is feasible, and none of its nonbasic
coordinates is so small that the sparse form drops it. -/
def PointOk (E : NumEnv) (o : NBData) (Q : Relax) (x : Vec) : Prop :=
  Q.Feas x ∧ ∀ k ∈ o.nb, compCoor o.lp o.sol x k = 0 ∨ E.EPS ≤ |compCoor o.lp o.sol x k|

structure OptOk (E : NumEnv) (o : NBData) (strengthen : Bool) (V : Relax) (w : TermWorld) (t : Term) : Prop where
  tight : Tightening V t.changes
  solve : ∀ Q s, termLP V t = .ok Q → w.solve Q = .optimal s → PointOk E o Q s.x
  solve2 : strengthen = true → ∀ Q s, termLP V t = .ok Q → w.solve2 (applyIneqs (w.gmics Q) Q) = .optimal s →
    PointOk E o (applyIneqs (w.gmics Q) Q) s.x

theorem termLP_feas {V Q : Relax} {t : Term} (ht : Tightening V t.changes) (h : termLP V t = .ok Q) {x : Vec}
    (hx : Q.Feas x) : V.Feas x ∧ (∀ c ∈ t.changes, c.Sat x) ∧ ∀ c ∈ t.ineqs, c.Sat x := by
  unfold termLP at h
  obtain ⟨Q1, h1, h⟩ := Res.bind_ok h
  simp only [Res.ok.injEq] at h
  subst h
  obtain ⟨hx1, hi⟩ := (applyIneqs_feas t.ineqs Q1 x).1 hx
  obtain ⟨h2, h3⟩ := applyChanges_tight h1 ht hx1
  exact ⟨h2, h3, hi⟩

/-- The entries of the packed vector of a solution are its nonbasic coordinates. -/
theorem packed_coords {E : NumEnv} (hsort : ∀ l, (E.sortDecr l).Perm l) {V : Relax} {o : NBData} (hV : NBOk V o)
    {x : Vec} (hx : V.Feas x) (hnt : ∀ k ∈ o.nb, compCoor o.lp o.sol x k = 0 ∨ E.EPS ≤ |compCoor o.lp o.sol x k|)
    (d : ℚ) {i : ℕ} (hi : i < o.lp.numCols) :
    scoef (packCoor E.sortDecr E.EPS d o.rc (o.nb.map (compCoor o.lp o.sol x))) i = nbCoord o.lp x (o.nb.getD i 0) := by
  have hil : i < o.nb.length := by rw [hV.len]; exact hi
  have hkm : o.nb.getD i 0 ∈ o.nb := by
    rw [List.getD_eq_getElem?_getD, List.getElem?_eq_getElem hil]; exact List.getElem_mem hil
  obtain ⟨h1, h2⟩ := coor_signed hV ⟨rfl, List.prefix_refl _, fun _ h => h⟩ hx hkm
  rw [h1, ← h2]
  obtain ⟨h3, h4, -⟩ := packCoor_spec E.sortDecr hsort E.EPS d o.rc (o.nb.map (compCoor o.lp o.sol x))
  refine scoef_packed (packCoor_nodup E.sortDecr hsort E.EPS d o.rc _) h3 ?_ (getElem?_nb hil)
  intro a c ha hc
  apply h4 a c ha
  obtain ⟨k', hk', rfl⟩ := List.mem_map.1 (List.mem_of_getElem? ha)
  exact (hnt k' hk').resolve_left hc

/-- The point collected for a term consists of the nonbasic coordinates of a point of the term. -/
theorem doTerm_point {E : NumEnv} (hsort : ∀ l, (E.sortDecr l).Perm l) {o : NBData} {strengthen : Bool} {V : Relax}
    {w : TermWorld} {t : Term} (hV : NBOk V o) (hw : OptOk E o strengthen V w t)
    {r : Option ℚ × Term × TermOutcome} (h : doTerm E o strengthen V w t = .ok r) {p : SVec} {d : ℚ}
    {rays : List (SVec × ℚ)} (hr : r.2.2 = .collected p d rays) :
    ∃ x, (V.Feas x ∧ (∀ c ∈ t.changes, c.Sat x) ∧ ∀ c ∈ t.ineqs, c.Sat x) ∧
      ∀ i < o.lp.numCols, scoef p i = nbCoord o.lp x (o.nb.getD i 0) := by
  unfold doTerm at h
  split at h
  · simp only [Res.ok.injEq] at h; subst h; cases hr
  obtain ⟨Q, hQ, h⟩ := Res.bind_ok h
  split at h
  · cases h
  have hfin : ∀ s : TermSol, Q.Feas s.x → (∀ k ∈ o.nb, compCoor o.lp o.sol s.x k = 0 ∨
      E.EPS ≤ |compCoor o.lp o.sol s.x k|) → finishTerm E o w t (some s) = .ok r →
      ∃ x, (V.Feas x ∧ (∀ c ∈ t.changes, c.Sat x) ∧ ∀ c ∈ t.ineqs, c.Sat x) ∧
      ∀ i < o.lp.numCols, scoef p i = nbCoord o.lp x (o.nb.getD i 0) := by
    intro s hs hn hf
    simp only [finishTerm] at hf
    split at hf
    · simp only [Res.ok.injEq] at hf; subst hf; cases hr
    obtain ⟨oc, hoc, hf⟩ := Res.bind_ok hf
    simp only [Res.ok.injEq] at hf
    subst hf
    have hoc' := genDepth1_ok hoc
    rw [show oc = .collected p d rays from hr] at hoc'
    simp only [TermOutcome.collected.injEq] at hoc'
    refine ⟨s.x, termLP_feas hw.tight hQ hs, fun i hi => ?_⟩
    rw [hoc'.1]
    exact packed_coords hsort hV (termLP_feas hw.tight hQ hs).1 hn _ hi
  obtain ⟨a, ha, h⟩ := Res.bind_ok h
  cases hsol : w.solve Q with
  | dualInfeasible => rw [hsol] at ha; cases ha
  | notOptimal =>
    rw [hsol] at ha
    simp only [LPAns.check, Res.ok.injEq] at ha
    subst ha
    simp only [finishTerm, Res.ok.injEq] at h
    subst h
    cases hr
  | optimal s =>
    rw [hsol] at ha
    simp only [LPAns.check, Res.ok.injEq] at ha
    subst ha
    simp only at h
    split at h
    · cases h
    unfold strengthenTerm at h
    cases hst : strengthen with
    | false =>
      rw [hst] at h
      simp only [Bool.false_eq_true, if_false, Res.bind] at h
      have := hw.solve Q s hQ hsol
      exact hfin s this.1 this.2 h
    | true =>
      rw [hst] at h
      simp only [if_true] at h
      obtain ⟨a2, ha2, h⟩ := Res.bind_ok h
      cases hsol2 : w.solve2 (applyIneqs (w.gmics Q) Q) with
      | dualInfeasible => rw [hsol2] at ha2; cases ha2
      | notOptimal =>
        rw [hsol2] at ha2
        simp only [LPAns.check, Res.ok.injEq] at ha2
        subst ha2
        simp only [finishTerm, Res.ok.injEq] at h
        subst h
        cases hr
      | optimal s2 =>
        rw [hsol2] at ha2
        simp only [LPAns.check, Res.ok.injEq] at ha2
        subst ha2
        have := hw.solve2 hst Q s2 hQ hsol2
        exact hfin s2 ((applyIneqs_feas _ Q s2.x).1 this.1).1 this.2 h

theorem doTerms_origin {E : NumEnv} {o : NBData} {strengthen : Bool} {V : Relax} {w : ℕ → TermWorld}
    {k : ℕ} {ts : List Term} {r : List ℚ × List Term × List TermOutcome}
    (h : doTerms E o strengthen V w k ts = .ok r) {oc : TermOutcome} (ho : oc ∈ r.2.2) :
    ∃ i t q, ts[i]? = some t ∧ doTerm E o strengthen V (w (k + i)) t = .ok q ∧ q.2.2 = oc := by
  induction ts generalizing k r with
  | nil =>
    simp only [doTerms, Res.ok.injEq] at h
    subst h
    cases ho
  | cons a ts ih =>
    simp only [doTerms] at h
    obtain ⟨q, hq, h⟩ := Res.bind_ok h
    obtain ⟨rs, hrs, h⟩ := Res.bind_ok h
    simp only [Res.ok.injEq] at h
    subst h
    rcases List.mem_cons.1 ho with rfl | ho
    · exact ⟨0, a, q, rfl, hq, rfl⟩
    · obtain ⟨i, t, q', h1, h2, h3⟩ := ih hrs ho
      exact ⟨i + 1, t, q', h1, by rw [show k + (i + 1) = k + 1 + i by omega]; exact h2, h3⟩

/-- **C155.** If the solution of the point-ray LP touches the hull of what was collected, the cut in the original
variables is satisfied with equality by a point of one of the terms (a feasible point of the LP
that satisfies its bounds and inequalities), or by the solution stored with
the disjunction (exact arithmetic: no coordinate or coefficient is so small that it is dropped). -/
theorem cut_touches {E : NumEnv} (hsort : ∀ l, (E.sortDecr l).Perm l) {V : Relax} {o : NBData} (hV : NBOk V o)
    {strengthen : Bool} {cost : Vec} {offset : ℚ} {w : ℕ → TermWorld} {D : Disj}
    {ip : Option (SVec × ℚ) × List ℚ} {r : List ℚ × List Term × List TermOutcome}
    (hip : collectInt E o cost offset D.intSol = .ok ip) (hr : doTerms E o strengthen V w 0 D.terms = .ok r)
    (hw : ∀ i t, D.terms[i]? = some t → OptOk E o strengthen V (w i) t)
    (hsol : D.intSol ≠ [] → PointOk E o V (fun i => D.intSol.getD i 0))
    {EPS scale : ℚ} {L : BuiltLP} (hne : L.nz ≠ []) (hsub : L.nz.Sublist (List.range o.lp.numCols)) {β : List ℚ}
    (hbig : NoTinyCut o L β false scale EPS)
    (ht : Touches o.lp.numCols (collectedTerms ip.1 r.2.2) (expand L.nz β) scale) :
    ∃ x, sdot (cutOf o L β false scale EPS).row x = (cutOf o L β false scale EPS).lb ∧
      ((∃ t ∈ D.terms, V.Feas x ∧ (∀ c ∈ t.changes, c.Sat x) ∧ ∀ c ∈ t.ineqs, c.Sat x) ∨
        (D.intSol ≠ [] ∧ x = fun i => D.intSol.getD i 0)) := by
  obtain ⟨t, htm, hd⟩ := ht
  have key : ∀ x : Vec, (∀ i < o.lp.numCols, scoef t.1 i = nbCoord o.lp x (o.nb.getD i 0)) →
      sdot (cutOf o L β false scale EPS).row x = (cutOf o L β false scale EPS).lb := by
    intro x hx
    have h1 := (setCut_exact o.lp L.nz β _ EPS o.nb (nbOrder_scPairs hV.order hV.len hne hsub) hbig x).1
    rw [nbDot_scPairs o.lp L.nz β o.nb x hne (hsub.nodup List.nodup_range)
      (fun j hj => List.mem_range.1 (hsub.subset hj))] at h1
    have h2 : ddot o.lp.numCols (expand L.nz β) (fun j => nbCoord o.lp x (o.nb.getD j 0)) = scale := by
      rw [← hd]
      unfold ddot
      exact sum_congr rfl fun i hi => by rw [hx i (mem_range.1 hi)]
    rw [h2] at h1
    simp only [Bool.false_eq_true, if_false, one_mul, sub_self] at h1
    unfold cutOf
    simp only [Bool.false_eq_true, if_false, one_mul]
    linarith
  unfold collectedTerms at htm
  rcases List.mem_append.1 htm with htm | htm
  · unfold collectInt at hip
    split at hip
    · simp only [Res.ok.injEq] at hip
      subst hip
      simp at htm
    · rename_i hne'
      dsimp only at hip
      split at hip
      · cases hip
      simp only [Res.ok.injEq] at hip
      subst hip
      simp only [List.mem_singleton] at htm
      subst htm
      have hs := hsol hne'
      exact ⟨_, key _ fun i hi => packed_coords hsort hV hs.1 hs.2 _ hi, Or.inr ⟨hne', rfl⟩⟩
  · obtain ⟨oc, ho, hto⟩ := List.mem_filterMap.1 htm
    obtain ⟨i, u, q, hi, hq, rfl⟩ := doTerms_origin hr ho
    rw [Nat.zero_add] at hq
    cases hc : q.2.2 with
    | infeasible => rw [hc] at hto; cases hto
    | notOptimal => rw [hc] at hto; cases hto
    | timeLimit => rw [hc] at hto; cases hto
    | collected p d rays =>
      rw [hc] at hto
      simp only [Option.some.injEq] at hto
      subst hto
      obtain ⟨x, h2, h3⟩ := doTerm_point hsort hV (hw i u hi) hq hc
      exact ⟨x, key x h3, Or.inl ⟨u, List.mem_of_getElem? hi, h2⟩⟩

/-! ## Non-vacuity -/

/-- In the example of `EndToEndEx` the hypotheses hold, and the point of a term on the cut is that of the first term. -/
example : ∃ x, sdot (cutOf Tri.o Tri.L [1/2, 1/2] false 1 (1/10000000)).row x =
      (cutOf Tri.o Tri.L [1/2, 1/2] false 1 (1/10000000)).lb ∧
    ((∃ t ∈ Tri.D.terms, Tri.V.Feas x ∧ (∀ c ∈ t.changes, c.Sat x) ∧ ∀ c ∈ t.ineqs, c.Sat x) ∨
      (Tri.D.intSol ≠ [] ∧ x = fun i => Tri.D.intSol.getD i 0)) := by
  have hr : (doTerms Tri.E Tri.o false Tri.V Tri.w 0 Tri.D.terms).bind (fun r => .ok r.2.2) = .ok Tri.twoOuts := by
    decide +kernel
  obtain ⟨r, h1, h2⟩ := Res.bind_ok hr
  simp only [Res.ok.injEq] at h2
  refine cut_touches (ip := (none, [])) (fun l => List.Perm.refl l) Tri.nbOk (strengthen := false) (cost := Tri.cost)
    (offset := 0) (by decide +kernel) h1 ?_ (fun h => absurd rfl h) (by decide) (by decide) Tri.bigβ ?_
  · intro i t h
    match i, h with
    | 0, h =>
      simp only [Tri.D, List.getElem?_cons_zero, Option.some.injEq] at h; subst h
      exact ⟨Tri.termOk0.tight, fun Q s hQ hs => by
        simp only [Tri.w, LPAns.optimal.injEq] at hs; subst hs; rw [Tri.lp0 hQ]
        exact ⟨Tri.sol0.feas, Tri.noTiny0.1⟩, by simp⟩
    | 1, h =>
      simp only [Tri.D, List.getElem?_cons_succ, List.getElem?_cons_zero, Option.some.injEq] at h; subst h
      exact ⟨Tri.termOk1.tight, fun Q s hQ hs => by
        simp only [Tri.w, LPAns.optimal.injEq] at hs; subst hs; rw [Tri.lp1 hQ]
        exact ⟨Tri.sol1.feas, Tri.noTiny1.1⟩, by simp⟩
    | i + 2, h => simp [Tri.D] at h
  · rw [h2]
    exact ⟨([(1, 2)], [[(1, 4)], [(0, 1), (1, 1)]]), by simp [collectedTerms, Tri.twoOuts], by decide +kernel⟩

end VPC
