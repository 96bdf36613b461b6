import Verif.Props.Collect
import Verif.Props.Split
import Verif.Props.BBCover

/-! # C03 end to end: from the disjunction to the cut -/
namespace VPC
open Finset

/-! ## Specification -/

/-- The LP solver tells the truth about the LP `Q`, as far as the point `x` can tell: an LP that is
not solved to optimality does not contain `x`, and a solution is an optimal basic one whose
coordinates are all either zero or above the tolerances. -/
def AnsOk (E : NumEnv) (o : NBData) (Q : Relax) (x : Vec) : LPAns → Prop
  | .notOptimal => ¬ Q.Feas x
  | .dualInfeasible => True
  | .optimal s => TermSolOk Q s ∧ NoTiny E o s

/-- The outside world of a term is truthful: LP answers, validity of the Gomory cuts for `x`, and the
time limit is not reached. -/
structure WorldOk (E : NumEnv) (o : NBData) (strengthen : Bool) (V : Relax) (w : TermWorld) (t : Term)
    (x : Vec) : Prop where
  time : w.timeUp = false
  solve : ∀ Q, termLP V t = .ok Q → AnsOk E o Q x (w.solve Q)
  gmic : strengthen = true → ∀ Q, termLP V t = .ok Q → ∀ c ∈ w.gmics Q, c.Sat x ∧
    ∀ e ∈ c.row, e.1 < V.lo.length
  solve2 : strengthen = true → ∀ Q, termLP V t = .ok Q →
    AnsOk E o (applyIneqs (w.gmics Q) Q) x (w.solve2 (applyIneqs (w.gmics Q) Q))

/-- A term that only tightens the LP it is applied to, with column indices in range. -/
structure TermOk (V : Relax) (t : Term) : Prop where
  tight : Tightening V t.changes
  idx : ∀ c ∈ t.ineqs, ∀ e ∈ c.row, e.1 < V.lo.length

/-! ## Lemmas -/

theorem applyChanges_shape {cs : List BChange} {P Q : Relax} (h : applyChanges true cs P = .ok Q) :
    Q.lo.length = P.lo.length ∧ Q.rows = P.rows := by
  induction cs generalizing P with
  | nil => simp only [applyChanges, Res.ok.injEq] at h; subst h; exact ⟨rfl, rfl⟩
  | cons c cs ih =>
    simp only [applyChanges] at h
    obtain ⟨R, hR, h⟩ := Res.bind_ok h
    obtain ⟨h1, h2⟩ := ih h
    unfold applyChange at hR
    split at hR
    · simp only [if_true] at hR
      split at hR <;> (simp only [Res.ok.injEq] at hR; subst hR)
      · exact ⟨by rw [h1]; simp, by rw [h2]⟩
      · exact ⟨by rw [h1], by rw [h2]⟩
    · cases hR

theorem termLP_refines {V Q : Relax} {t : Term} (ht : TermOk V t) (hV : V.Idx)
    (h : termLP V t = .ok Q) : Refines V Q ∧ Q.Idx := by
  unfold termLP at h
  obtain ⟨Q1, h1, h⟩ := Res.bind_ok h
  simp only [Res.ok.injEq] at h
  subst h
  obtain ⟨hl, hr⟩ := applyChanges_shape h1
  refine ⟨⟨hl, ⟨_, by rw [← hr]; rfl⟩, fun x hx => ?_⟩, ?_⟩
  · exact (applyChanges_tight h1 ht.tight ((applyIneqs_feas t.ineqs Q1 x).1 hx).1).1
  · intro r hr' e he
    simp only [applyIneqs] at hr' ⊢
    rw [hl]
    rcases List.mem_append.1 hr' with hr' | hr'
    · exact hV r (hr ▸ hr') e he
    · obtain ⟨c, hc, rfl⟩ := List.mem_map.1 hr'
      exact ht.idx c hc e he

theorem applyIneqs_refines {V Q : Relax} {cs : List RowCut} (h : Refines V Q) (hi : Q.Idx)
    (hc : ∀ c ∈ cs, ∀ e ∈ c.row, e.1 < V.lo.length) :
    Refines V (applyIneqs cs Q) ∧ (applyIneqs cs Q).Idx := by
  refine ⟨⟨h.cols, ?_, fun x hx => h.feas x ((applyIneqs_feas cs Q x).1 hx).1⟩, ?_⟩
  · exact h.rows.trans ⟨_, rfl⟩
  · intro r hr e he
    simp only [applyIneqs] at hr ⊢
    rcases List.mem_append.1 hr with hr | hr
    · exact hi r hr e he
    · obtain ⟨c, hc', rfl⟩ := List.mem_map.1 hr
      rw [h.cols]; exact hc c hc' e he

/-- A feasible point of a term's LP, and a truthful world: the term is collected, and the point lies
in the collected vertex-plus-cone set. -/
theorem doTerm_collects {E : NumEnv} (hsort : ∀ l, (E.sortDecr l).Perm l) {o : NBData}
    {strengthen : Bool} {V : Relax} {w : TermWorld} {t : Term} {x : Vec} (hV : NBOk V o)
    (ht : TermOk V t) (hf : t.feasible = true) (hw : WorldOk E o strengthen V w t x)
    (hx : V.Feas x) (hc : ∀ c ∈ t.changes, c.Sat x) (hi : ∀ c ∈ t.ineqs, c.Sat x)
    {r : Option ℚ × Term × TermOutcome} (h : doTerm E o strengthen V w t = .ok r) :
    ∃ p d rays, r.2.2 = .collected p d rays ∧
      InTermCone o.lp.numCols p (rays.map (·.1)) (fun i => nbCoord o.lp x (o.nb.getD i 0)) := by
  unfold doTerm at h
  rw [hf] at h
  simp only [Bool.not_true, Bool.false_eq_true, if_false] at h
  obtain ⟨Q, hQ, h⟩ := Res.bind_ok h
  obtain ⟨href, hidx⟩ := termLP_refines ht hV.idx hQ
  have hxQ : Q.Feas x := by
    have h' := hQ
    unfold termLP at h'
    obtain ⟨Q1, h1, h'⟩ := Res.bind_ok h'
    simp only [Res.ok.injEq] at h'
    subst h'
    exact (applyIneqs_feas t.ineqs Q1 x).2 ⟨applyChanges_keeps h1 hx hc, hi⟩
  split at h
  · cases h
  -- what happens once a solution is there
  have hfin : ∀ (Q' : Relax) (s : TermSol), Refines V Q' → Q'.Idx → Q'.Feas x → TermSolOk Q' s →
      NoTiny E o s → finishTerm E o w t (some s) = .ok r → ∃ p d rays, r.2.2 = .collected p d rays ∧
      InTermCone o.lp.numCols p (rays.map (·.1)) (fun i => nbCoord o.lp x (o.nb.getD i 0)) := by
    intro Q' s hR hI hF hS hN hfin
    unfold finishTerm at hfin
    rw [hw.time] at hfin
    simp only [Bool.false_eq_true, if_false] at hfin
    obtain ⟨oc, hoc, hfin⟩ := Res.bind_ok hfin
    simp only [Res.ok.injEq] at hfin
    subst hfin
    have hoc' := genDepth1_ok hoc
    exact ⟨_, _, _, hoc', term_cone_partial hsort hV hR hI hS hN (by rw [hoc, hoc']) hF⟩
  have hans := hw.solve Q hQ
  obtain ⟨a, ha, h⟩ := Res.bind_ok h
  cases hsol : w.solve Q with
  | notOptimal => rw [hsol] at hans; exact absurd hxQ hans
  | dualInfeasible => rw [hsol] at ha; cases ha
  | optimal s =>
    rw [hsol] at ha hans
    simp only [LPAns.check, Res.ok.injEq] at ha
    subst ha
    simp only at h
    split at h
    · cases h
    unfold strengthenTerm at h
    cases hst : strengthen with
    | false =>
      rw [hst] at h
      simp only [Bool.false_eq_true, if_false, Res.bind] at h
      exact hfin Q s href hidx hxQ hans.1 hans.2 h
    | true =>
      rw [hst] at h
      simp only [if_true] at h
      obtain ⟨a2, ha2, h⟩ := Res.bind_ok h
      have hg := hw.gmic hst Q hQ
      have hans2 := hw.solve2 hst Q hQ
      have hx2 : (applyIneqs (w.gmics Q) Q).Feas x :=
        (applyIneqs_feas _ Q x).2 ⟨hxQ, fun c hc => (hg c hc).1⟩
      obtain ⟨hr2, hi2⟩ := applyIneqs_refines href hidx (fun c hc => (hg c hc).2)
      cases hsol2 : w.solve2 (applyIneqs (w.gmics Q) Q) with
      | notOptimal => rw [hsol2] at hans2; exact absurd hx2 hans2
      | dualInfeasible => rw [hsol2] at ha2; cases ha2
      | optimal s2 =>
        rw [hsol2] at ha2 hans2
        simp only [LPAns.check, Res.ok.injEq] at ha2
        subst ha2
        exact hfin _ s2 hr2 hi2 hx2 hans2.1 hans2.2 h

theorem doTerms_mem {E : NumEnv} {o : NBData} {strengthen : Bool} {V : Relax} {w : ℕ → TermWorld}
    {k : ℕ} {ts : List Term} {r : List ℚ × List Term × List TermOutcome}
    (h : doTerms E o strengthen V w k ts = .ok r) {i : ℕ} {t : Term} (hi : ts[i]? = some t) :
    ∃ q, doTerm E o strengthen V (w (k + i)) t = .ok q ∧ q.2.2 ∈ r.2.2 := by
  induction ts generalizing k r i with
  | nil => simp at hi
  | cons a ts ih =>
    simp only [doTerms] at h
    obtain ⟨q, hq, h⟩ := Res.bind_ok h
    obtain ⟨rs, hrs, h⟩ := Res.bind_ok h
    simp only [Res.ok.injEq] at h
    subst h
    cases i with
    | zero =>
      simp only [List.getElem?_cons_zero, Option.some.injEq] at hi
      subst hi
      exact ⟨q, hq, by simp⟩
    | succ i =>
      rw [List.getElem?_cons_succ] at hi
      obtain ⟨q', hq', hm⟩ := ih hrs hi
      refine ⟨q', ?_, by simp [hm]⟩
      rw [show k + (i + 1) = k + 1 + i from by omega]; exact hq'

theorem nbOrder_scPairs {lp : LP} {nbVar nz : List ℕ} {β : List ℚ} (ho : NBOrder lp nbVar)
    (hlen : nbVar.length = lp.numCols) (hne : nz ≠ []) (hsub : nz.Sublist (List.range lp.numCols)) :
    NBOrder lp ((scPairs lp.numCols nz β nbVar).map (·.1)) := by
  have hpos : nz.length > 0 := List.length_pos_iff.2 hne
  have hmap : (scPairs lp.numCols nz β nbVar).map (·.1) = nz.map fun j => nbVar.getD j 0 := by
    unfold scPairs
    simp only [if_pos hpos, List.map_map]
    apply List.ext_getElem
    · simp
    · intro i h1 h2
      simp only [List.length_map, List.length_range] at h1
      simp only [List.getElem_map, List.getElem_range, Function.comp]
      congr 1
      rw [List.getD_eq_getElem?_getD, List.getElem?_eq_getElem h1]; rfl
  have hall : (List.range lp.numCols).map (fun j => nbVar.getD j 0) = nbVar := by
    apply List.ext_getElem
    · simp [hlen]
    · intro i h1 h2
      simp only [List.getElem_map, List.getElem_range, List.getD_eq_getElem?_getD]
      rw [List.getElem?_eq_getElem h2]; rfl
  have hs : ((scPairs lp.numCols nz β nbVar).map (·.1)).Sublist nbVar := by
    rw [hmap]
    have := hsub.map fun j => nbVar.getD j 0
    rwa [hall] at this
  obtain ⟨ss, sl, hsplit, hnd, hss, hsl⟩ := ho.split
  rw [hsplit] at hs ⊢
  obtain ⟨s1, s2, h12, h1, h2⟩ := List.sublist_append_iff.1 hs
  refine ⟨⟨s1, s2, h12, h1.nodup hnd, fun v hv => hss v (h1.subset hv),
    fun v hv => hsl v (h2.subset hv)⟩, ho.cols⟩

theorem prlpSetup_nz_sublist {sortP : List PRow → List PRow} {INF DIFFEPS scale : ℚ} {n : ℕ}
    {rows : List PRow} {L : BuiltLP} (hL : prlpSetup sortP INF DIFFEPS scale n rows = some L) :
    L.nz.Sublist (List.range n) := by
  unfold prlpSetup at hL
  rw [Option.map_eq_some_iff] at hL
  obtain ⟨st, _, rfl⟩ := hL
  exact List.filter_sublist

/-! ## The theorem -/

/-- The cut the code builds from a solution `β` of the point-ray LP `L`. -/
def cutOf (o : NBData) (L : BuiltLP) (β : List ℚ) (flip : Bool) (scale EPS : ℚ) : RowCut :=
  setCutFromNBCoefficients o.lp L.nz β ((if flip then -1 else 1) * scale) o.nb EPS

/-- Structural coefficients that are not dropped when the cut is stored. -/
def NoTinyCut (o : NBData) (L : BuiltLP) (β : List ℚ) (flip : Bool) (scale EPS : ℚ) : Prop :=
  ∀ k < o.lp.numCols,
    structCoeff o.lp (scPairs o.lp.numCols L.nz β o.nb) ((if flip then -1 else 1) * scale) k = 0 ∨
    EPS ≤ |structCoeff o.lp (scPairs o.lp.numCols L.nz β o.nb) ((if flip then -1 else 1) * scale) k|

/-- **C03, end to end** (partial: exact arithmetic, i.e. `NoTiny`, `Exact` and `NoTinyCut`; no free
nonbasic variables or ranged rows; every term LP that is not solved to optimality is infeasible and
no time limit is hit). Let `setupConstraints` run on the disjunction `D` with the LP `V`, let the
point-ray LP be built from its rows, and let `β` be any feasible solution of it. Then every point of
`V` that satisfies one of the terms marked feasible satisfies the cut. -/
theorem vpc_end_to_end_partial {E : NumEnv} (hsort : ∀ l, (E.sortDecr l).Perm l) {V : Relax}
    {o : NBData} (hV : NBOk V o) {strengthen flip : Bool} {cost : Vec} {offset : ℚ}
    {w : ℕ → TermWorld} {D D' : Disj} {rows : List PRow}
    (hsetup : setupAll E o strengthen flip cost offset V w D = .ok (rows, D'))
    {sortP : List PRow → List PRow} (hsortP : ∀ l, (sortP l).Perm l)
    {INF DIFFEPS EPS scale : ℚ} (hI : 0 < INF) (hE : 0 < DIFFEPS)
    (hwf : WellFormed scale o.lp.numCols rows) (hex : Exact scale DIFFEPS rows) {L : BuiltLP}
    (hL : prlpSetup sortP INF DIFFEPS scale o.lp.numCols rows = some L) (hne : L.nz ≠ [])
    {β : List ℚ} (hβ : L.Feas INF β) (hbig : NoTinyCut o L β flip scale EPS)
    {x : Vec} (hx : V.Feas x) {i : ℕ} {t : Term} (hi : D.terms[i]? = some t)
    (hf : t.feasible = true) (ht : TermOk V t) (hw : WorldOk E o strengthen V (w i) t x)
    (hc : ∀ c ∈ t.changes, c.Sat x) (hq : ∀ c ∈ t.ineqs, c.Sat x) :
    (cutOf o L β flip scale EPS).Sat x := by
  unfold setupAll at hsetup
  obtain ⟨ip, hip, hsetup⟩ := Res.bind_ok hsetup
  obtain ⟨r, hr, hsetup⟩ := Res.bind_ok hsetup
  simp only [Res.ok.injEq, Prod.mk.injEq] at hsetup
  obtain ⟨hrows, -⟩ := hsetup
  subst hrows
  obtain ⟨q, hq', hm⟩ := doTerms_mem hr hi
  rw [Nat.zero_add] at hq'
  obtain ⟨p, d, rays, hcol, hcone⟩ := doTerm_collects hsort hV ht hf hw hx hc hq hq'
  rw [hcol] at hm
  exact vpc_valid_partial o.lp o.nb flip ip.1 r.2.2 sortP hsortP INF DIFFEPS EPS scale hI hE hwf hex
    L hL β hβ hne x p d rays hm hcone
    (nbOrder_scPairs hV.order hV.len hne (prlpSetup_nz_sublist hL)) hbig

/-- **C03 for the stored integer solution** (partial: exact arithmetic as above). The solution stored
with the disjunction is entered as a point of its own, so whatever happens to the terms — also if its
leaf was never saved as a term — every cut is satisfied by it. -/
theorem intSol_valid_partial {E : NumEnv} (hsort : ∀ l, (E.sortDecr l).Perm l) {V : Relax}
    {o : NBData} (hV : NBOk V o) {strengthen flip : Bool} {cost : Vec} {offset : ℚ}
    {w : ℕ → TermWorld} {D D' : Disj} {rows : List PRow}
    (hsetup : setupAll E o strengthen flip cost offset V w D = .ok (rows, D'))
    {sortP : List PRow → List PRow} (hsortP : ∀ l, (sortP l).Perm l)
    {INF DIFFEPS EPS scale : ℚ} (hI : 0 < INF) (hE : 0 < DIFFEPS) (hscale : 0 ≤ scale)
    (hwf : WellFormed scale o.lp.numCols rows) (hex : Exact scale DIFFEPS rows) {L : BuiltLP}
    (hL : prlpSetup sortP INF DIFFEPS scale o.lp.numCols rows = some L) (hne : L.nz ≠ [])
    {β : List ℚ} (hβ : L.Feas INF β) (hbig : NoTinyCut o L β flip scale EPS)
    (hsol : D.intSol ≠ []) (hx : V.Feas (fun i => D.intSol.getD i 0))
    (hnt : ∀ k ∈ o.nb, compCoor o.lp o.sol (fun i => D.intSol.getD i 0) k = 0 ∨
      E.EPS ≤ |compCoor o.lp o.sol (fun i => D.intSol.getD i 0) k|) :
    (cutOf o L β flip scale EPS).Sat (fun i => D.intSol.getD i 0) := by
  set x : Vec := fun i => D.intSol.getD i 0 with hxdef
  unfold setupAll at hsetup
  obtain ⟨ip, hip, hsetup⟩ := Res.bind_ok hsetup
  obtain ⟨r, hr, hsetup⟩ := Res.bind_ok hsetup
  simp only [Res.ok.injEq, Prod.mk.injEq] at hsetup
  obtain ⟨hrows, -⟩ := hsetup
  subst hrows
  -- the row of the integer solution
  unfold collectInt at hip
  rw [if_neg hsol] at hip
  dsimp only at hip
  split at hip
  · cases hip
  simp only [Res.ok.injEq] at hip
  subst hip
  simp only at hwf hex hL
  obtain ⟨viol, hviol⟩ : ∃ viol, viol = (((List.range o.lp.numCols).map fun i => cost i * x i).sum -
    ((List.range o.lp.numCols).map fun i => cost i * o.sol i).sum) := ⟨_, rfl⟩
  rw [← hviol] at hwf hex hL
  set v := packCoor E.sortDecr E.EPS viol o.rc (o.nb.map (compCoor o.lp o.sol x)) with hv
  have hmem : (⟨v, 1, viol⟩ : PRow) ∈ setupConstraints flip (some (v, viol)) r.2.2 := by
    simp [setupConstraints]
  have hok : RowOK scale (expand L.nz β) ⟨v, 1, viol⟩ := by
    rcases setup_sound_partial sortP hsortP INF DIFFEPS scale o.lp.numCols _ hI hE hwf hex.noReplace L
      hL β hβ _ hmem with h | ⟨r2, h2, h3, h5, h4⟩
    · exact h
    · exact hex.truthful _ hmem r2 h2 h5 h4 _ h3
  unfold RowOK at hok
  simp only [one_mul] at hok
  -- its entries are the coordinates of the solution
  have hcoef : ∀ i < o.lp.numCols, scoef v i = nbCoord o.lp x (o.nb.getD i 0) := by
    intro i hi
    have hil : i < o.nb.length := by rw [hV.len]; exact hi
    have hkm : o.nb.getD i 0 ∈ o.nb := by
      rw [List.getD_eq_getElem?_getD, List.getElem?_eq_getElem hil]; exact List.getElem_mem hil
    obtain ⟨h1, h2⟩ := coor_signed hV ⟨rfl, List.prefix_refl _, fun _ h => h⟩ hx hkm
    rw [h1, ← h2]
    obtain ⟨h3, h4, -⟩ := packCoor_spec E.sortDecr hsort E.EPS viol o.rc
      (o.nb.map (compCoor o.lp o.sol x))
    refine scoef_packed (packCoor_nodup E.sortDecr hsort E.EPS viol o.rc _) h3 ?_ (getElem?_nb hil)
    intro a c ha hc
    apply h4 a c ha
    obtain ⟨k', hk', rfl⟩ := List.mem_map.1 (List.mem_of_getElem? ha)
    exact (hnt k' hk').resolve_left hc
  rw [sdot_eq_sum o.lp.numCols v _ (hwf.idx _ hmem)] at hok
  have hnz : L.nz.Nodup ∧ ∀ j ∈ L.nz, j < o.lp.numCols :=
    ⟨(prlpSetup_nz_sublist hL).nodup List.nodup_range,
      fun j hj => List.mem_range.1 ((prlpSetup_nz_sublist hL).subset hj)⟩
  have hdot : nbDot o.lp (scPairs o.lp.numCols L.nz β o.nb) x =
      ∑ i ∈ range o.lp.numCols, scoef v i * expand L.nz β i := by
    rw [nbDot_scPairs o.lp L.nz β o.nb x hne hnz.1 hnz.2]
    unfold ddot
    refine sum_congr rfl fun i hi => ?_
    rw [hcoef i (mem_range.1 hi), mul_comm]
  refine ((setCut_exact o.lp L.nz β _ EPS o.nb
    (nbOrder_scPairs hV.order hV.len hne (prlpSetup_nz_sublist hL)) hbig x).2).2 ?_
  rw [hdot]
  refine le_trans ?_ hok
  split <;> linarith

/-! ## Changes at the root (C69) -/

/-- **C69.** The one-sided cut made for a bound changed at the root says exactly that the changed
bound holds. -/
theorem rootCutOf_sat (c : BChange) (x : Vec) : (rootCutOf c).Sat x ↔ c.Sat x := by
  unfold rootCutOf RowCut.Sat BChange.Sat
  by_cases h : c.bound ≤ 0
  · simp [h]
  · simp only [h, if_false, sdot_cons, sdot_nil]
    constructor <;> intro h' <;> linarith

theorem rootBounds_spec {limit : ℕ → Bool} {bad : RowCut → Bool} {cs : List BChange} {s : RootSt}
    {r : Bool × RootSt} (h : rootBounds limit bad cs s = .ok r) :
    ∃ done rest, cs = done ++ rest ∧ (r.1 = false → rest = []) ∧
      (r.1 = true → limit r.2.cuts.length = true) ∧
      applyChanges true done s.V = .ok r.2.V ∧
      r.2.cuts = s.cuts ++ (done.map rootCutOf).filter fun c => !(bad c) := by
  induction cs generalizing s with
  | nil =>
    simp only [rootBounds, Res.ok.injEq] at h; subst h
    exact ⟨[], [], rfl, fun _ => rfl, by simp, rfl, by simp⟩
  | cons c cs ih =>
    simp only [rootBounds] at h
    split at h
    · rename_i hl
      simp only [Res.ok.injEq] at h; subst h
      exact ⟨[], c :: cs, rfl, by simp, fun _ => hl, rfl, by simp⟩
    · obtain ⟨V, hV, h⟩ := Res.bind_ok h
      obtain ⟨done, rest, h1, h2, h3, h4, h5⟩ := ih h
      refine ⟨c :: done, rest, by rw [h1]; rfl, h2, h3, ?_, ?_⟩
      · simp only [applyChanges, hV, Res.bind]; exact h4
      · rw [h5]
        simp only
        cases hb : bad (rootCutOf c) <;> simp [hb]

theorem applyIneqs_nil (P : Relax) : applyIneqs [] P = P := by simp [applyIneqs]

theorem applyIneqs_append (cs ds : List RowCut) (P : Relax) :
    applyIneqs (cs ++ ds) P = applyIneqs ds (applyIneqs cs P) := by
  simp [applyIneqs]

theorem rootIneqs_spec {limit : ℕ → Bool} {bad : RowCut → Bool} (cs : List RowCut) (s : RootSt) :
    ∃ done rest, cs = done ++ rest ∧ ((rootIneqs limit bad cs s).1 = false → rest = []) ∧
      ((rootIneqs limit bad cs s).1 = true → limit (rootIneqs limit bad cs s).2.cuts.length = true) ∧
      (rootIneqs limit bad cs s).2.V = applyIneqs done s.V ∧
      (rootIneqs limit bad cs s).2.cuts = s.cuts ++ done.filter fun c => !(bad c) := by
  induction cs generalizing s with
  | nil => exact ⟨[], [], rfl, fun _ => rfl, by simp [rootIneqs], by simp [rootIneqs, applyIneqs_nil],
      by simp [rootIneqs]⟩
  | cons c cs ih =>
    simp only [rootIneqs]
    split
    · rename_i hl
      exact ⟨[], c :: cs, rfl, by simp, fun _ => hl, by simp [applyIneqs_nil], by simp⟩
    · obtain ⟨done, rest, h1, h2, h3, h4, h5⟩ := ih
        ⟨applyIneqs [c] s.V, if bad c then s.cuts else s.cuts ++ [c]⟩
      refine ⟨c :: done, rest, by rw [h1]; rfl, h2, h3, ?_, ?_⟩
      · rw [h4, ← applyIneqs_append]; rfl
      · rw [h5]
        cases hb : bad c <;> simp [hb]

/-- **C69.** Whatever happens while the changes common to all terms are applied, the cuts added are a
selection of the inequalities common to all terms, all of them passing the violation test; so every
point that satisfies the common changes satisfies all of them, and they are all of the violated ones
unless the cut limit stopped the loop. On success the LP contains exactly the common changes. -/
theorem rootChanges_spec {DIFFEPS : ℚ} {limit : ℕ → Bool} {bad : RowCut → Bool}
    {opt : Relax → Option ℚ} {D : Disj} {P : Relax} {r : Bool × RootSt}
    (h : rootChanges DIFFEPS limit bad opt D P = .ok r) :
    (∀ c ∈ r.2.cuts, bad c = false ∧ (c ∈ D.common.map rootCutOf ∨ c ∈ D.commonIneqs)) ∧
    (∀ x, (∀ c ∈ D.common, c.Sat x) → (∀ c ∈ D.commonIneqs, c.Sat x) → ∀ c ∈ r.2.cuts, c.Sat x) ∧
    (r.1 = true → limit r.2.cuts.length = true) ∧
    (r.1 = false → r.2.cuts = (D.common.map rootCutOf ++ D.commonIneqs).filter (fun c => !(bad c)) ∧
      ∃ Q, applyChanges true D.common P = .ok Q ∧ r.2.V = applyIneqs D.commonIneqs Q) := by
  have key : (∀ c ∈ r.2.cuts, bad c = false ∧ (c ∈ D.common.map rootCutOf ∨ c ∈ D.commonIneqs)) ∧
    (r.1 = true → limit r.2.cuts.length = true) ∧
    (r.1 = false → r.2.cuts = (D.common.map rootCutOf ++ D.commonIneqs).filter (fun c => !(bad c)) ∧
      ∃ Q, applyChanges true D.common P = .ok Q ∧ r.2.V = applyIneqs D.commonIneqs Q) := by
    unfold rootChanges at h
    obtain ⟨r1, h1, h⟩ := Res.bind_ok h
    obtain ⟨done, rest, hcs, hrest, hlim, hV, hcuts⟩ := rootBounds_spec h1
    simp only [List.nil_append] at hcuts
    have hmem1 : ∀ c ∈ r1.2.cuts, bad c = false ∧ c ∈ D.common.map rootCutOf := by
      intro c hc
      rw [hcuts] at hc
      obtain ⟨hc1, hc2⟩ := List.mem_filter.1 hc
      exact ⟨by simpa using hc2, by rw [hcs, List.map_append]; exact List.mem_append_left _ hc1⟩
    split at h
    · rename_i hb
      simp only [Res.ok.injEq] at h; subst h
      refine ⟨fun c hc => ⟨(hmem1 c hc).1, Or.inl (hmem1 c hc).2⟩, hlim, fun hf => ?_⟩
      rw [hb] at hf; cases hf
    · rename_i hb
      have hr0 := hrest (by simpa using hb)
      rw [hr0, List.append_nil] at hcs
      obtain ⟨d2, rest2, hcs2, hrest2, hlim2, hV2, hcuts2⟩ :=
        rootIneqs_spec (limit := limit) (bad := bad) D.commonIneqs r1.2
      have hfin : r = rootIneqs limit bad D.commonIneqs r1.2 := by
        simp only at h
        split at h
        · simp only [Res.ok.injEq] at h; exact h.symm
        · split at h
          · simp only [Res.ok.injEq] at h; exact h.symm
          · split at h
            · cases h
            · split at h
              · cases h
              · simp only [Res.ok.injEq] at h; exact h.symm
      subst hfin
      refine ⟨fun c hc => ?_, hlim2, fun hf => ?_⟩
      · rw [hcuts2] at hc
        rcases List.mem_append.1 hc with hc | hc
        · exact ⟨(hmem1 c hc).1, Or.inl (hmem1 c hc).2⟩
        · obtain ⟨hc1, hc2⟩ := List.mem_filter.1 hc
          exact ⟨by simpa using hc2, Or.inr (by rw [hcs2]; exact List.mem_append_left _ hc1)⟩
      · have hr2 := hrest2 hf
        rw [hr2, List.append_nil] at hcs2
        refine ⟨?_, r1.2.V, by rw [hcs]; exact hV, by rw [hV2, hcs2]⟩
        rw [hcuts2, hcuts, List.filter_append, ← hcs, ← hcs2]
  refine ⟨key.1, fun x h1 h2 c hc => ?_, key.2⟩
  rcases (key.1 c hc).2 with hm | hm
  · obtain ⟨b, hb, rfl⟩ := List.mem_map.1 hm
    exact (rootCutOf_sat b x).2 (h1 b hb)
  · exact h2 c hm

/-- Non-vacuity: a disjunction with one bound fixed at the root. -/
example : rootChanges (1/1000) (fun _ => false) (fun _ => false) (fun _ => some 0)
    { Disj.new with common := [⟨0, 1, 3⟩], rootObj := 0 } ⟨[some 0], [some 5], []⟩
    = .ok (false, ⟨⟨[some 0], [some 3], []⟩, [⟨[(0, -1)], -3⟩]⟩) := by decide +kernel

/-- A point satisfying the common changes is kept by the LP set up at the root. -/
theorem rootChanges_keeps {DIFFEPS : ℚ} {limit : ℕ → Bool} {bad : RowCut → Bool}
    {opt : Relax → Option ℚ} {D : Disj} {P : Relax} {st : RootSt}
    (h : rootChanges DIFFEPS limit bad opt D P = .ok (false, st)) {x : Vec} (hx : P.Feas x)
    (hc : ∀ c ∈ D.common, c.Sat x) (hi : ∀ c ∈ D.commonIneqs, c.Sat x) : st.V.Feas x := by
  obtain ⟨-, -, -, h4⟩ := rootChanges_spec h
  obtain ⟨-, Q, hQ, hV⟩ := h4 rfl
  simp only at hV
  rw [hV]
  exact (applyIneqs_feas _ Q x).2 ⟨applyChanges_keeps hQ hx hc, hi⟩

/-! ## One run of the generator -/

/-- One disjunction `D` on the problem `P`, from the changes at the root to a cut: the root changes
are applied (`st`), the rows collected in the nonbasic space of `st.V`, the point-ray LP `L` built and
`β` one of its feasible solutions. The numerical hypotheses of `vpc_end_to_end_partial` hold, and the
world is truthful for the point `x`. -/
structure RunOk (E : NumEnv) (D : Disj) (P : Relax) (st : RootSt) (o : NBData) (strengthen flip : Bool)
    (w : ℕ → TermWorld) (L : BuiltLP) (β : List ℚ) (scale EPS : ℚ) (x : Vec) : Prop where
  sort : ∀ l, (E.sortDecr l).Perm l
  root : ∃ DIFFEPS limit bad opt, rootChanges DIFFEPS limit bad opt D P = .ok (false, st)
  nb : NBOk st.V o
  prlp : ∃ cost offset rows D' sortP INF DIFFEPS,
    setupAll E o strengthen flip cost offset st.V w D = .ok (rows, D') ∧
    (∀ l : List PRow, (sortP l).Perm l) ∧ 0 < INF ∧ 0 < DIFFEPS ∧
    WellFormed scale o.lp.numCols rows ∧ Exact scale DIFFEPS rows ∧
    prlpSetup sortP INF DIFFEPS scale o.lp.numCols rows = some L ∧ L.Feas INF β
  nz : L.nz ≠ []
  big : NoTinyCut o L β flip scale EPS
  terms : ∀ t ∈ D.terms, TermOk st.V t
  world : ∀ i t, D.terms[i]? = some t → WorldOk E o strengthen st.V (w i) t x

/-- Every point in a term marked feasible satisfies the cut and all one-sided cuts. -/
theorem run_valid_partial {E : NumEnv} {D : Disj} {P : Relax} {st : RootSt} {o : NBData}
    {strengthen flip : Bool} {w : ℕ → TermWorld} {L : BuiltLP} {β : List ℚ} {scale EPS : ℚ} {x : Vec}
    (h : RunOk E D P st o strengthen flip w L β scale EPS x) {t : Term} (ht : t ∈ D.terms)
    (hf : t.feasible = true) (hx : InTerm P D t x) (hi : ∀ c ∈ D.commonIneqs, c.Sat x) :
    (cutOf o L β flip scale EPS).Sat x ∧ ∀ c ∈ st.cuts, c.Sat x := by
  obtain ⟨hP, hc, htc, hti⟩ := hx
  obtain ⟨DE, limit, bad, opt, hroot⟩ := h.root
  obtain ⟨cost, offset, rows, D', sortP, INF, DIFFEPS, h1, h2, h3, h4, h5, h6, h7, h8⟩ := h.prlp
  obtain ⟨i, hi'⟩ := List.getElem?_of_mem ht
  exact ⟨vpc_end_to_end_partial h.sort h.nb h1 h2 h3 h4 h5 h6 h7 h.nz h8 h.big
    (rootChanges_keeps hroot hP hc hi) hi' hf (h.terms t ht) (h.world i t hi') htc hti,
    (rootChanges_spec hroot).2.1 x hc hi⟩

theorem tryVars_commonIneqs {AWAY : ℚ} {ask : ℕ → ℕ → VarAns} {k : ℕ} {cols : List ℕ} {s s' : Split}
    {b : Bool} (hc : s.d.Counted) (h : tryVars AWAY ask k cols s = .ok (b, s')) :
    s'.d.commonIneqs = s.d.commonIneqs := by
  induction cols generalizing k s with
  | nil =>
    simp only [tryVars, Res.ok.injEq, Prod.mk.injEq] at h
    rw [← h.2]
  | cons col cols ih =>
    simp only [tryVars] at h
    obtain ⟨r, hr, h⟩ := Res.bind_ok h
    obtain ⟨b1, s1⟩ := r
    obtain ⟨-, hc1, h1⟩ := checkVar_cases hc hr
    have h2 : s1.d.commonIneqs = s.d.commonIneqs := by
      rcases h1 with ⟨-, o, o', -, -, rfl⟩ | ⟨-, ⟨-, rfl⟩ | ⟨-, rfl⟩⟩ <;> rfl
    split at h
    · simp only [Res.ok.injEq, Prod.mk.injEq] at h
      rw [← h.2]; exact h2
    · rw [ih hc1 h]; exact h2

theorem splitPrepare_commonIneqs {AWAY : ℚ} {cols : List (Bool × ℚ)}
    {sort : List (ℕ × ℚ) → List (ℕ × ℚ)} {ask : ℕ → ℕ → VarAns} {s s' : Split} {e : DisjExit}
    (hc : s.d.Counted) (h : splitPrepare AWAY cols sort ask s = .ok (e, s')) :
    s'.d.commonIneqs = s.d.commonIneqs := by
  unfold splitPrepare at h
  split at h
  · obtain ⟨r, hr, h⟩ := Res.bind_ok h
    obtain ⟨b1, s1⟩ := r
    simp only [Res.ok.injEq, Prod.mk.injEq] at h
    rw [← h.2]
    obtain ⟨-, -, h1⟩ := checkVar_cases hc hr
    rcases h1 with ⟨-, o, o', -, -, rfl⟩ | ⟨-, ⟨-, rfl⟩ | ⟨-, rfl⟩⟩ <;> rfl
  · dsimp only at h
    split at h
    · simp only [Res.ok.injEq, Prod.mk.injEq] at h
      rw [← h.2]
    · obtain ⟨r, hr, h⟩ := Res.bind_ok h
      obtain ⟨b1, s1⟩ := r
      simp only [Res.ok.injEq, Prod.mk.injEq] at h
      rw [← h.2]
      exact tryVars_commonIneqs hc hr

/-- **C03 + C04.** Cuts from a split disjunction: if the sides the split routine calls infeasible are
infeasible, every integer-feasible point of the problem satisfies the cut and all one-sided cuts. -/
theorem split_vpc_valid_partial {AWAY : ℚ} {cols : List (Bool × ℚ)}
    {sort : List (ℕ × ℚ) → List (ℕ × ℚ)} {ask : ℕ → ℕ → VarAns} {s s' : Split} {P : Relax}
    {isInt : ℕ → Prop} (hA : 0 < AWAY) (hd : s.d = Disj.new)
    (h : splitPrepare AWAY cols sort ask s = .ok (.SUCCESS, s'))
    (hint : ∀ k col, (ask k col).isInt = true → isInt col) (hg : Genuine P isInt ask)
    {E : NumEnv} {st : RootSt} {o : NBData} {strengthen flip : Bool} {w : ℕ → TermWorld} {L : BuiltLP}
    {β : List ℚ} {scale EPS : ℚ} {x : Vec}
    (hrun : RunOk E s'.d P st o strengthen flip w L β scale EPS x)
    (hx : P.Feas x) (hxi : ∀ i, isInt i → ∃ z : ℤ, x i = z) :
    (cutOf o L β flip scale EPS).Sat x ∧ ∀ c ∈ st.cuts, c.Sat x := by
  have hi : s'.d.commonIneqs = [] := by
    rw [splitPrepare_commonIneqs (by rw [hd]; rfl) h, hd]; rfl
  obtain ⟨hcom, hterm⟩ := split_covers AWAY cols sort ask s s' .SUCCESS P isInt (by rw [hd]; rfl) h hint
    hg x hx hxi (by rw [hd]; simp [Disj.new])
  obtain ⟨t, ht, hh⟩ := hterm rfl
  obtain ⟨k, col, f, o1, o2, -, -, -, -, -, -, -, -, hts⟩ := split_two_terms AWAY cols sort ask s s' hd hA h
  have hf : t.feasible = true ∧ t.ineqs = [] := by
    rw [hts] at ht
    simp only [List.mem_cons, List.not_mem_nil, or_false] at ht
    rcases ht with rfl | rfl <;> exact ⟨rfl, rfl⟩
  exact run_valid_partial hrun ht hf.1 ⟨hx, hcom, hh, by rw [hf.2]; simp⟩ (by rw [hi]; simp)

/-- All terms are marked feasible and there are no common inequalities. -/
def AllFeasible (D : Disj) : Prop := (∀ t ∈ D.terms, t.feasible = true) ∧ D.commonIneqs = []

theorem setupTerm_commonIneqs {keep : Bool} {stats : List NStat} {orig var : ℕ} {way : ℤ} {value : ℚ}
    {ans : Option ℚ} {s s' : SaveSt} (h : setupTerm keep stats orig var way value ans s = .ok s') :
    s'.D.commonIneqs = s.D.commonIneqs := by
  unfold setupTerm at h
  split at h
  · split at h
    · rename_i t r f ht hr hf
      dsimp only at h
      generalize (if f = true then decide (r.way ≤ 0) else !decide (r.way ≤ 0)) = dn at h
      cases dn
      · simp only [Bool.false_eq_true, if_false, Res.ok.injEq] at h
        subst h; split <;> rfl
      · simp only [if_true, Res.ok.injEq] at h
        subst h; split <;> rfl
    · cases h
  · simp only [Res.ok.injEq] at h; subst h; rfl

theorem setupTerm_feasible {stats : List NStat} {orig var : ℕ} {way : ℤ} {value : ℚ}
    {ans : Option ℚ} {s s' : SaveSt} (h : setupTerm false stats orig var way value ans s = .ok s')
    (ha : AllFeasible s.D) : AllFeasible s'.D := by
  refine ⟨?_, by rw [setupTerm_commonIneqs h]; exact ha.2⟩
  replace ha := ha.1
  obtain ⟨-, -, h3, h4⟩ := setupTerm_spec h
  cases hans : ans with
  | none =>
    obtain ⟨h5, -⟩ := h4 (by rw [hans]; rfl)
    rw [h5]; exact ha
  | some a =>
    obtain ⟨t, ht, hts, -⟩ := h3 (by rw [hans]; rfl)
    rw [hts]
    intro t' ht'
    rcases List.mem_append.1 ht' with ht' | ht'
    · exact ha t' ht'
    · rw [List.mem_singleton] at ht'
      subst ht'
      unfold bbTerm at ht
      split at ht
      · simp only [Option.some.injEq] at ht; rw [← ht, hans]; rfl
      · cases ht

theorem saveNode_feasible {P : Relax} {maxLeaf : ℤ} {stats : List NStat} {env : SaveEnv} {ind : ℕ}
    {rem : ℤ} {nd : CNode} {st0 : Bool} {s : SaveSt} {r : Bool × SaveSt}
    (h : saveNode P maxLeaf stats env ind rem nd st0 s = .ok r)
    (ha : AllFeasible s.D) : AllFeasible r.2.D := by
  unfold saveNode at h
  split at h
  · cases h
  split at h
  · cases h
  split at h
  · cases h
  obtain ⟨base, -, h⟩ := Res.bind_ok h
  split at h
  · cases h
  split at h
  · cases h
  obtain ⟨q1, -, h⟩ := Res.bind_ok h
  obtain ⟨s1, hs1, h⟩ := Res.bind_ok h
  have h1 := setupTerm_feasible hs1 ha
  dsimp only at h
  split at h
  · obtain ⟨q2, -, h⟩ := Res.bind_ok h
    obtain ⟨s2, hs2, h⟩ := Res.bind_ok h
    simp only [Res.ok.injEq] at h
    subst h
    exact setupTerm_feasible hs2 h1
  · simp only [Res.ok.injEq] at h
    subst h
    exact h1

theorem saveLoop_feasible {P : Relax} {maxLeaf : ℤ} {stats : List NStat} {env : SaveEnv} {ind : ℕ}
    {nodes : List CNode} {st0 : Bool} {s : SaveSt} {r : Bool × SaveSt}
    (h : saveLoop P maxLeaf stats env ind nodes st0 s = .ok r)
    (ha : AllFeasible s.D) : AllFeasible r.2.D := by
  induction nodes generalizing ind st0 s with
  | nil => simp only [saveLoop, Res.ok.injEq] at h; subst h; exact ha
  | cons nd rest ih =>
    unfold saveLoop at h
    split at h
    · simp only [Res.ok.injEq] at h; subst h; exact ha
    · obtain ⟨r1, h1, h⟩ := Res.bind_ok h
      exact ih h (saveNode_feasible h1 ha)

/-- All terms saved by `saveInformation` are marked feasible, and the saved disjunction has no common
inequalities. -/
theorem saveInformation_feasible {P : Relax} {maxLeaf : ℤ} {b : BB} {nodes : List CNode}
    {intSol : List ℚ} {numLeaf : ℤ} {env : SaveEnv} {r : Bool × SaveSt}
    (h : saveInformation P maxLeaf b nodes intSol numLeaf env = .ok r) : AllFeasible r.2.D := by
  unfold saveInformation at h
  obtain ⟨r0, h0, h⟩ := Res.bind_ok h
  have hr : r.2 = r0.2 := by
    simp only [Res.ok.injEq] at h
    split at h <;> (subst h; rfl)
  rw [hr]
  have hs : (saveStart b.stats true).terms = [] ∧ (saveStart b.stats true).commonIneqs = [] := by
    unfold saveStart; split <;> exact ⟨rfl, rfl⟩
  refine saveLoop_feasible h0 ?_
  have hn : ∀ (c : Prop) [Decidable c] (D : Disj), (D.terms = [] ∧ D.commonIneqs = []) →
      AllFeasible (if c then { D with numTerms := D.numTerms + 1, intSol := intSol } else D) := by
    intro c _ D hD; split
    · exact ⟨by simp [hD.1], hD.2⟩
    · exact ⟨by simp [hD.1], hD.2⟩
  exact hn _ _ hs

/-- **C03 + C05.** Cuts from a partial branch-and-bound tree (pruned nodes not kept): every point of
the problem that is integral on the branching variables and was not discarded by the branch-and-bound
solver satisfies the cut and all one-sided cuts. -/
theorem bb_vpc_valid_partial {P : Relax} {root : NewNode} {es : List BBStep} {s : BB}
    {nodes : List CNode} {intSol : List ℚ} {maxLeaf numLeaf : ℤ} {env : SaveEnv} {r : Bool × SaveSt}
    (ht : OnlyTightens P root es) (h : bbRun (bbInit P root) es = .ok s)
    (hperm : nodes.Perm s.tree)
    (hs : saveInformation P maxLeaf s nodes intSol numLeaf env = .ok r) (hstat : r.1 = false)
    {E : NumEnv} {st : RootSt} {o : NBData} {strengthen flip : Bool} {w : ℕ → TermWorld} {L : BuiltLP}
    {β : List ℚ} {scale EPS : ℚ} {x : Vec}
    (hrun : RunOk E r.2.D P st o strengthen flip w L β scale EPS x)
    (hx : P.Feas x) (hint : IntegralOn root es x)
    (hlp : ∀ i j Q, env.lp i j Q = none → ¬ Q.Feas x)
    (hroot : InBnds root.lo root.hi x) (hlost : ¬ LostIn false (bbInit P root) es x) :
    (cutOf o L β flip scale EPS).Sat x ∧ ∀ c ∈ st.cuts, c.Sat x := by
  rcases bb_covers_partial ht h hperm hs hstat hx hint hlp with ⟨t, htm, hin⟩ | hno | hl
  · exact run_valid_partial hrun htm ((saveInformation_feasible hs).1 t htm) hin
      (by rw [(saveInformation_feasible hs).2]; simp)
  · exact absurd hroot hno
  · exact absurd hl hlost

/-! ## Terms marked infeasible -/

/-- A term marked infeasible contributes nothing: neither rows nor an objective value. -/
theorem doTerm_infeasible (E : NumEnv) (o : NBData) (strengthen flip : Bool) (V : Relax)
    (w : TermWorld) (t : Term) (h : t.feasible = false) :
    ∃ r, doTerm E o strengthen V w t = .ok r ∧ r.1 = none ∧ termRows flip r.2.2 = [] := by
  refine ⟨(none, t, .infeasible), by simp [doTerm, h], rfl, rfl⟩

/-- When pruned nodes are kept, the terms of the pruned nodes are all marked infeasible — also those
pruned only because of their objective value — so they contribute no rows, and integer-feasible
points in them may be cut off (`dropped_term_cuts_off` shows the effect of a term without rows). -/
theorem keepPruned_infeasible {stats pruned : List NStat} {s s' : SaveSt}
    (h : keepPruned stats pruned s = .ok s') :
    ∃ new, s'.D.terms = s.D.terms ++ new ∧ new.length = pruned.length ∧
      ∀ t ∈ new, t.feasible = false := by
  induction pruned generalizing s with
  | nil => simp only [keepPruned, Res.ok.injEq] at h; subst h; exact ⟨[], by simp⟩
  | cons q qs ih =>
    simp only [keepPruned] at h
    split at h
    · cases h
    split at h
    · cases h
    obtain ⟨s1, h1, h⟩ := Res.bind_ok h
    obtain ⟨new, hn, hl, hf⟩ := ih h
    obtain ⟨t, ht, hts, -⟩ := (setupTerm_spec h1).2.2.1 rfl
    refine ⟨t :: new, by rw [hn, hts]; simp, by simp [hl], ?_⟩
    intro t' ht'
    rcases List.mem_cons.1 ht' with rfl | ht'
    · unfold bbTerm at ht
      split at ht
      · simp only [Option.some.injEq] at ht; rw [← ht]; rfl
      · cases ht
    · exact hf t' ht'

end VPC
