import Verif.Props.BoundCut
import Verif.Props.HullOnly
import Verif.Props.CollectTight
import Verif.Props.LogGap
import Verif.Props.EndToEndEx
import Verif.Props.RoundsValid

/-!
# C153: the cuts of a disjunction move the bound exactly as far as the disjunction
-/
namespace VPC
open Finset

/-- Value of a point in the objective function, without the constant (as the LP solver reports it). -/
def objAt (n : ℕ) (cost : Vec) (offset : ℚ) (y : Vec) : ℚ := ddot n cost y - offset

/-- The number `v` is a lower bound for the LP `P` with the cuts added. -/
def LowerBound (P : Relax) (cuts : List RowCut) (n : ℕ) (cost : Vec) (offset v : ℚ) : Prop :=
  ∀ y, P.Feas y → (∀ c ∈ cuts, c.Sat y) → v ≤ objAt n cost offset y

/-- The LP solver is truthful for a term: an LP it does not solve has no point, a solution it gives is an optimal basic solution with
true objective values (and coordinates that are zero or above the tolerances), and the time limit is not reached. -/
structure HonestWorld (E : NumEnv) (o : NBData) (strengthen : Bool) (V : Relax) (cost : Vec) (w : TermWorld) (t : Term) :
    Prop where
  time : w.timeUp = false
  solve : ∀ Q, termLP V t = .ok Q → ∀ x, AnsOk E o Q x (w.solve Q)
  gmic : strengthen = true → ∀ Q, termLP V t = .ok Q → ∀ c ∈ w.gmics Q, ∀ e ∈ c.row, e.1 < V.lo.length
  solve2 : strengthen = true → ∀ Q, termLP V t = .ok Q → ∀ x,
    AnsOk E o (applyIneqs (w.gmics Q) Q) x (w.solve2 (applyIneqs (w.gmics Q) Q))
  obj : ∀ Q s, termLP V t = .ok Q → w.solve Q = .optimal s → TermObjOk Q o s cost
  obj2 : strengthen = true → ∀ Q s, termLP V t = .ok Q → w.solve2 (applyIneqs (w.gmics Q) Q) = .optimal s →
    TermObjOk (applyIneqs (w.gmics Q) Q) o s cost

/-- The solution stored with the disjunction, if there is one, is feasible, and its coordinates are zero or above the tolerance. -/
def StoredOk (E : NumEnv) (o : NBData) (V : Relax) (sol : List ℚ) : Prop :=
  sol ≠ [] → V.Feas (fun i => sol.getD i 0) ∧
    ∀ k ∈ o.nb, compCoor o.lp o.sol (fun i => sol.getD i 0) k = 0 ∨ E.EPS ≤ |compCoor o.lp o.sol (fun i => sol.getD i 0) k|

/-- A term that reports a value was solved; the solution is a point of the term, and what is collected comes from it. -/
theorem doTerm_reported {E : NumEnv} {o : NBData} {strengthen : Bool} {V : Relax} {cost : Vec} {w : TermWorld} {t t' : Term}
    (hV : NBOk V o) (ht : TermOk V t) (hw : HonestWorld E o strengthen V cost w t) {v : ℚ} {oc : TermOutcome}
    (h : doTerm E o strengthen V w t = .ok (some v, t', oc)) :
    t.feasible = true ∧ ∃ (Q : Relax) (s : TermSol), Refines V Q ∧ Q.Idx ∧ TermSolOk Q s ∧ TermObjOk Q o s cost ∧
      NoTiny E o s ∧ v = s.obj ∧ genDepth1 E o s = .ok oc ∧ V.Feas s.x ∧ (∀ c ∈ t.changes, c.Sat s.x) ∧
      (∀ c ∈ t.ineqs, c.Sat s.x) ∧ WorldOk E o strengthen V w t s.x := by
  unfold doTerm at h
  split at h
  · simp at h
  rename_i hf
  refine ⟨by simpa using hf, ?_⟩
  obtain ⟨Q, hQ, h⟩ := Res.bind_ok h
  obtain ⟨href, hidx⟩ := termLP_refines ht hV.idx hQ
  have hterm : ∀ x, Q.Feas x → (∀ c ∈ t.changes, c.Sat x) ∧ ∀ c ∈ t.ineqs, c.Sat x := by
    intro x hx
    have h' := hQ
    unfold termLP at h'
    obtain ⟨Q1, h1, h'⟩ := Res.bind_ok h'
    simp only [Res.ok.injEq] at h'
    subst h'
    obtain ⟨hx1, hx2⟩ := (applyIneqs_feas t.ineqs Q1 x).1 hx
    exact ⟨(applyChanges_tight h1 ht.tight hx1).2, hx2⟩
  split at h
  · cases h
  have hfin : ∀ s : TermSol, finishTerm E o w t (some s) = .ok (some v, t', oc) →
      v = s.obj ∧ genDepth1 E o s = .ok oc := by
    intro s hfin
    unfold finishTerm at hfin
    rw [hw.time] at hfin
    simp only [Bool.false_eq_true, if_false] at hfin
    obtain ⟨oc', hoc, hfin⟩ := Res.bind_ok hfin
    simp only [Res.ok.injEq, Prod.mk.injEq, Option.some.injEq] at hfin
    exact ⟨hfin.1.symm, by rw [hoc, hfin.2.2]⟩
  obtain ⟨a, ha, h⟩ := Res.bind_ok h
  cases hsol : w.solve Q with
  | notOptimal =>
    rw [hsol] at ha
    simp only [LPAns.check, Res.ok.injEq] at ha
    subst ha
    simp [finishTerm] at h
  | dualInfeasible => rw [hsol] at ha; cases ha
  | optimal s =>
    have hans := hw.solve Q hQ s.x
    rw [hsol] at ha hans
    simp only [LPAns.check, Res.ok.injEq] at ha
    subst ha
    simp only at h
    split at h
    · cases h
    unfold strengthenTerm at h
    cases hst : strengthen with
    | false =>
      rw [hst] at h
      simp only [Bool.false_eq_true, if_false, Res.bind] at h
      obtain ⟨h1, h2⟩ := hfin s h
      obtain ⟨h3, h4⟩ := hterm s.x hans.1.feas
      exact ⟨Q, s, href, hidx, hans.1, hw.obj Q s hQ hsol, hans.2, h1, h2, href.feas _ hans.1.feas, h3, h4,
        ⟨hw.time, fun Q' hQ' => hw.solve Q' hQ' _, by simp, by simp⟩⟩
    | true =>
      rw [hst] at h
      simp only [if_true] at h
      obtain ⟨a2, ha2, h⟩ := Res.bind_ok h
      obtain ⟨hr2, hi2⟩ := applyIneqs_refines href hidx (fun c hc => hw.gmic hst Q hQ c hc)
      cases hsol2 : w.solve2 (applyIneqs (w.gmics Q) Q) with
      | notOptimal =>
        rw [hsol2] at ha2
        simp only [LPAns.check, Res.ok.injEq] at ha2
        subst ha2
        simp [finishTerm] at h
      | dualInfeasible => rw [hsol2] at ha2; cases ha2
      | optimal s2 =>
        have hans2 := hw.solve2 hst Q hQ s2.x
        rw [hsol2] at ha2 hans2
        simp only [LPAns.check, Res.ok.injEq] at ha2
        subst ha2
        obtain ⟨h1, h2⟩ := hfin s2 h
        obtain ⟨hxQ, hg⟩ := (applyIneqs_feas _ Q s2.x).1 hans2.1.feas
        obtain ⟨h3, h4⟩ := hterm s2.x hxQ
        refine ⟨_, s2, hr2, hi2, hans2.1, hw.obj2 hst Q s2 hQ hsol2, hans2.2, h1, h2, hr2.feas _ hans2.1.feas, h3, h4,
          ⟨hw.time, fun Q' hQ' => hw.solve Q' hQ' _, fun _ Q' hQ' c hc => ?_, fun _ Q' hQ' => hw.solve2 hst Q' hQ' _⟩⟩
        have : Q' = Q := by rw [hQ] at hQ'; cases hQ'; rfl
        subst this
        exact ⟨hg c hc, hw.gmic hst Q' hQ c hc⟩

/-- Every value reported is that of a point that satisfies all cuts. -/
theorem reported_point {E : NumEnv} (hsort : ∀ l, (E.sortDecr l).Perm l) {V : Relax} {o : NBData} (hV : NBOk V o)
    {strengthen flip : Bool} {cost : Vec} {offset : ℚ} {w : ℕ → TermWorld} {D D' : Disj} {rows : List PRow}
    (hsetup : setupAll E o strengthen flip cost offset V w D = .ok (rows, D'))
    (hoff : o.obj = objAt o.lp.numCols cost offset o.sol)
    (hterm : ∀ i t, D.terms[i]? = some t → TermOk V t ∧ HonestWorld E o strengthen V cost (w i) t)
    (hint : StoredOk E o V D.intSol)
    {sortP : List PRow → List PRow} (hsortP : ∀ l, (sortP l).Perm l)
    {INF DIFFEPS EPS scale : ℚ} (hI : 0 < INF) (hE : 0 < DIFFEPS) (hscale : 0 ≤ scale)
    (hwf : WellFormed scale o.lp.numCols rows) (hex : Exact scale DIFFEPS rows) {L : BuiltLP}
    (hL : prlpSetup sortP INF DIFFEPS scale o.lp.numCols rows = some L) (hne : L.nz ≠ [])
    {v : ℚ} (hv : ReportedValue E o strengthen cost offset V w D v) :
    ∃ x, V.Feas x ∧ objAt o.lp.numCols cost offset x = v ∧
      ∀ β, L.Feas INF β → NoTinyCut o L β flip scale EPS → (cutOf o L β flip scale EPS).Sat x := by
  rcases hv.source with ⟨hs, rfl⟩ | ⟨i, t, t', oc, hi, hd⟩
  · obtain ⟨hx, hnt⟩ := hint hs
    exact ⟨_, hx, by rw [listSum_ddot]; rfl, fun β hβ hbig =>
      intSol_valid_partial hsort hV hsetup hsortP hI hE hscale hwf hex hL hne hβ hbig hs hx hnt⟩
  · obtain ⟨hto, hw⟩ := hterm i t hi
    obtain ⟨hf, Q, s, -, -, -, hob, -, rfl, -, hx, hc, hq, hwo⟩ := doTerm_reported hV hto hw hd
    refine ⟨s.x, hx, ?_, fun β hβ hbig => vpc_end_to_end_partial hsort hV hsetup hsortP hI hE hwf hex hL hne hβ hbig hx hi hf hto
      hwo hc hq⟩
    have := hob.obj
    rw [hoff] at this
    unfold objAt at *
    linarith

/-- **C153.** No cuts of the disjunction — however many, for whatever objectives — move the LP bound beyond the best objective value
that is reported for the disjunction. -/
theorem bound_le_disjunction_partial {E : NumEnv} (hsort : ∀ l, (E.sortDecr l).Perm l) {D : Disj} {P : Relax} {st : RootSt}
    {DE : ℚ} {limit : ℕ → Bool} {bad : RowCut → Bool} {opt : Relax → Option ℚ}
    (hroot : rootChanges DE limit bad opt D P = .ok (false, st)) (htight : Tightening P D.common)
    {o : NBData} (hV : NBOk st.V o)
    {strengthen flip : Bool} {cost : Vec} {offset : ℚ} {w : ℕ → TermWorld} {D' : Disj} {rows : List PRow}
    (hsetup : setupAll E o strengthen flip cost offset st.V w D = .ok (rows, D'))
    (hoff : o.obj = objAt o.lp.numCols cost offset o.sol)
    (hterm : ∀ i t, D.terms[i]? = some t → TermOk st.V t ∧ HonestWorld E o strengthen st.V cost (w i) t)
    (hint : StoredOk E o st.V D.intSol)
    {sortP : List PRow → List PRow} (hsortP : ∀ l, (sortP l).Perm l)
    {INF DIFFEPS EPS scale : ℚ} (hI : 0 < INF) (hE : 0 < DIFFEPS) (hscale : 0 ≤ scale)
    (hwf : WellFormed scale o.lp.numCols rows) (hex : Exact scale DIFFEPS rows) {L : BuiltLP}
    (hL : prlpSetup sortP INF DIFFEPS scale o.lp.numCols rows = some L) (hne : L.nz ≠ [])
    {cuts : List RowCut}
    (hcuts : ∀ c ∈ cuts, ∃ β, L.Feas INF β ∧ NoTinyCut o L β flip scale EPS ∧ c = cutOf o L β flip scale EPS)
    {v : ℚ} (hb : LowerBound P (st.cuts ++ cuts) o.lp.numCols cost offset v) (hprev : v ≤ D.bestObj) : v ≤ D'.bestObj := by
  obtain ⟨⟨-, -, h⟩, -⟩ := setupAll_bounds hsetup
  rcases h with h | h
  · rw [h]; exact hprev
  · obtain ⟨x, hx, hval, hsat⟩ := reported_point (EPS := EPS) hsort hV hsetup hoff hterm hint hsortP hI hE hscale hwf hex hL hne h
    obtain ⟨-, hkeep, -, h4⟩ := rootChanges_spec hroot
    obtain ⟨-, Q, hQ, hVe⟩ := h4 rfl
    simp only at hVe hkeep
    rw [hVe] at hx
    obtain ⟨hxQ, hci⟩ := (applyIneqs_feas _ Q x).1 hx
    obtain ⟨hxP, hc⟩ := applyChanges_tight hQ htight hxQ
    rw [← hval]
    refine hb x hxP fun c hc' => ?_
    rcases List.mem_append.1 hc' with hc' | hc'
    · exact hkeep x hc hci c hc'
    · obtain ⟨β, hβ, hbig, rfl⟩ := hcuts c hc'
      exact hsat β hβ hbig

theorem idx_of_wellFormed {scale : ℚ} {n : ℕ} {ip : Option (SVec × ℚ)} {outs : List TermOutcome}
    (hwf : WellFormed scale n (setupConstraints false ip outs)) : IdxBelow n (collectedTerms ip outs) := by
  intro t ht
  unfold collectedTerms at ht
  rcases List.mem_append.1 ht with ht | ht
  · cases ip with
    | none => simp at ht
    | some p =>
      simp only [List.mem_singleton] at ht
      subst ht
      exact ⟨fun e he => hwf.idx ⟨p.1, 1, p.2⟩ (by simp [setupConstraints]) e he, by simp⟩
  · obtain ⟨oc, ho, hto⟩ := List.mem_filterMap.1 ht
    cases oc with
    | infeasible => simp at hto
    | notOptimal => simp at hto
    | timeLimit => simp at hto
    | collected p d rays =>
      simp only [Option.some.injEq] at hto
      subst hto
      have hmem : ∀ r ∈ termRows false (.collected p d rays), r ∈ setupConstraints false ip outs := fun r hr =>
        List.mem_append_right _ (List.mem_flatMap.2 ⟨_, ho, hr⟩)
      refine ⟨fun e he => hwf.idx ⟨p, 1, d⟩ (hmem _ (by simp [termRows])) e he, fun r hr e he => ?_⟩
      obtain ⟨q, hq, rfl⟩ := List.mem_map.1 hr
      refine hwf.idx ⟨q.1, 0, q.2⟩ (hmem _ ?_) e he
      unfold termRows
      refine List.mem_cons_of_mem _ (List.mem_map.2 ⟨q, List.mem_filter.2 ⟨hq, ?_⟩, rfl⟩)
      cases h : q.1 with
      | nil => rw [h] at he; simp at he
      | cons _ _ => rfl

/-- The coefficients, in the nonbasic space, of the cut that says that the objective is at least `b`. -/
def boundCutCoeffs (o : NBData) (L : BuiltLP) (scale b : ℚ) : List ℚ := L.nz.map fun j => scale / (b - o.obj) * o.rc j

/-- **C153.** If the best objective value reported for the disjunction is above that of the LP relaxation, one cut suffices to move the
bound there: the objective cut, which is a solution of the point-ray LP. -/
theorem disjunction_bound_reached_partial {E : NumEnv} (hsort : ∀ l, (E.sortDecr l).Perm l) {V : Relax} {o : NBData}
    (hV : NBOk V o) {strengthen : Bool} {cost : Vec} {offset : ℚ} {w : ℕ → TermWorld} {D D' : Disj} {rows : List PRow}
    (hsetup : setupAll E o strengthen false cost offset V w D = .ok (rows, D'))
    (hoff : o.obj = objAt o.lp.numCols cost offset o.sol) (hrc : RcOk V o cost) (hrc0 : ∀ j, 0 ≤ o.rc j)
    (hEps : 0 < E.EPS) (hRay : 0 < E.RAYEPS)
    (hterm : ∀ i t, D.terms[i]? = some t → TermOk V t ∧ HonestWorld E o strengthen V cost (w i) t)
    (hint : StoredOk E o V D.intSol)
    {sortP : List PRow → List PRow} (hsortP : ∀ l, (sortP l).Perm l)
    {INF DIFFEPS EPS scale : ℚ} (hscale : 0 < scale)
    (hwf : WellFormed scale o.lp.numCols rows) {L : BuiltLP}
    (hL : prlpSetup sortP INF DIFFEPS scale o.lp.numCols rows = some L) (hne : L.nz ≠ [])
    (hmoved : o.obj < D'.bestObj) :
    L.Feas INF (boundCutCoeffs o L scale D'.bestObj) ∧
    (NoTinyCut o L (boundCutCoeffs o L scale D'.bestObj) false scale EPS →
      LowerBound V [cutOf o L (boundCutCoeffs o L scale D'.bestObj) false scale EPS] o.lp.numCols cost offset D'.bestObj) := by
  obtain ⟨⟨-, hrep, -⟩, -⟩ := setupAll_bounds hsetup
  unfold setupAll at hsetup
  obtain ⟨p, hp, hsetup⟩ := Res.bind_ok hsetup
  obtain ⟨r, hr, hsetup⟩ := Res.bind_ok hsetup
  simp only [Res.ok.injEq, Prod.mk.injEq] at hsetup
  obtain ⟨rfl, -⟩ := hsetup
  set b := D'.bestObj with hbdef
  have hd : 0 < b - o.obj := by linarith
  have hVV : Refines V V := ⟨rfl, List.prefix_rfl, fun _ h => h⟩
  have key : ∀ t ∈ collectedTerms p.1 r.2.2, (b - o.obj ≤ sdot t.1 o.rc ∧ ∀ q ∈ t.2, 0 ≤ sdot q o.rc) := by
    intro t ht
    unfold collectedTerms at ht
    rcases List.mem_append.1 ht with ht | ht
    · by_cases hn : D.intSol = []
      · rw [(collectInt_value hp).1 hn] at ht; simp at ht
      · obtain ⟨hx, hnt⟩ := hint hn
        have hval := hrep _ ⟨Or.inl ⟨hn, rfl⟩⟩
        rw [listSum_ddot] at hval
        rw [collectInt_cases E o cost offset D.intSol hn _ _ rfl rfl] at hp
        split at hp
        · cases hp
        · simp only [Res.ok.injEq] at hp
          subst hp
          simp only [List.mem_singleton] at ht
          subst ht
          refine ⟨?_, by simp⟩
          simp only
          obtain ⟨h1, h2, -⟩ := packCoor_spec E.sortDecr hsort E.EPS
            (ddot o.lp.numCols cost (fun i => D.intSol.getD i 0) - ddot o.lp.numCols cost o.sol) o.rc
            (o.nb.map (compCoor o.lp o.sol (fun i => D.intSol.getD i 0)))
          rw [packed_dot (packCoor_nodup E.sortDecr hsort E.EPS _ o.rc _) h1 (by
            intro i v hv h0
            refine h2 i v hv ?_
            rw [List.getElem?_map, Option.map_eq_some_iff] at hv
            obtain ⟨k, hk, rfl⟩ := hv
            rcases hnt k (List.mem_of_getElem? hk) with hz | hz
            · exact absurd hz h0
            · exact hz), point_value hV hVV hrc hx]
          rw [hoff]
          unfold objAt
          linarith
    · obtain ⟨oc, hoc, hto⟩ := List.mem_filterMap.1 ht
      obtain ⟨rs, hl, hall, rfl⟩ := doTerms_spec hr
      obtain ⟨q, hq, rfl⟩ := List.mem_map.1 hoc
      obtain ⟨i, hi, rfl⟩ := List.mem_iff_getElem.1 hq
      have hi' : i < D.terms.length := by omega
      have hdo := hall i hi' hi
      rw [Nat.zero_add] at hdo
      obtain ⟨hto', hw⟩ := hterm i _ (List.getElem?_eq_getElem hi')
      obtain ⟨⟨ov, t', oc'⟩, hrs⟩ : ∃ a, a = rs[i] := ⟨_, rfl⟩
      rw [← hrs] at hdo hto
      cases ov with
      | none =>
        exfalso
        simp only at hto
        unfold doTerm at hdo
        split at hdo
        · simp only [Res.ok.injEq, Prod.mk.injEq] at hdo
          rw [← hdo.2.2] at hto; simp at hto
        · have hfin : ∀ s, finishTerm E o (w i) D.terms[i] s = .ok (none, t', oc') → oc' = .notOptimal := by
            intro s hs
            unfold finishTerm at hs
            cases s with
            | none => simp only [Res.ok.injEq, Prod.mk.injEq] at hs; exact hs.2.2.symm
            | some s =>
              simp only at hs
              split at hs
              · simp at hs
              · obtain ⟨z, -, hs⟩ := Res.bind_ok hs; simp at hs
          obtain ⟨Q, -, hdo⟩ := Res.bind_ok hdo
          split at hdo
          · cases hdo
          · obtain ⟨a, -, hdo⟩ := Res.bind_ok hdo
            cases a with
            | none => rw [hfin _ hdo] at hto; simp at hto
            | some s =>
              simp only at hdo
              split at hdo
              · cases hdo
              · obtain ⟨z, -, hdo⟩ := Res.bind_ok hdo
                rw [hfin _ hdo] at hto; simp at hto
      | some v =>
        have hval := hrep v ⟨Or.inr ⟨i, _, t', oc', List.getElem?_eq_getElem hi', hdo⟩⟩
        obtain ⟨-, Q, s, hQ, hidx, hs, hob, hnt, rfl, hg, -⟩ := doTerm_reported hV hto' hw hdo
        cases oc' with
        | infeasible => simp at hto
        | notOptimal => simp at hto
        | timeLimit => simp at hto
        | collected pt d rays =>
          simp only [Option.some.injEq] at hto
          subst hto
          obtain ⟨h1, h2⟩ := genDepth1_costs hsort hV hQ hidx hs hrc hob hEps hRay hnt hg
          exact ⟨by rw [h1]; linarith, h2⟩
  have hidx := idx_of_wellFormed hwf
  have hvalid := valid_scaled (objective_cut_valid hidx (fun t ht => (key t ht).2) (fun t ht => (key t ht).1))
    (c := scale / (b - o.obj)) (by positivity)
  rw [div_mul_cancel₀ _ hd.ne'] at hvalid
  obtain ⟨hfeas, -⟩ := valid_feas hsortP hwf hidx hL hvalid
  refine ⟨hfeas, fun hbig y hy hsat => ?_⟩
  have hsat := hsat _ (List.mem_singleton.2 rfl)
  have hcut := ((setCut_exact o.lp L.nz _ _ EPS o.nb
    (nbOrder_scPairs hV.order hV.len hne (prlpSetup_nz_sublist hL)) hbig y).2).1 hsat
  have hnz : L.nz.Nodup ∧ ∀ j ∈ L.nz, j < o.lp.numCols :=
    ⟨(prlpSetup_nz_sublist hL).nodup List.nodup_range,
      fun j hj => List.mem_range.1 ((prlpSetup_nz_sublist hL).subset hj)⟩
  rw [nbDot_scPairs o.lp L.nz _ o.nb y hne hnz.1 hnz.2] at hcut
  have hle : ddot o.lp.numCols (expand L.nz (boundCutCoeffs o L scale b)) (fun j => nbCoord o.lp y (o.nb.getD j 0)) ≤
      scale / (b - o.obj) * (ddot o.lp.numCols cost y - ddot o.lp.numCols cost o.sol) := by
    rw [hrc y, mul_sum]
    unfold ddot
    refine sum_le_sum fun j hj => ?_
    have hjl : j < o.nb.length := by rw [hV.len]; exact mem_range.1 hj
    have hkm : o.nb.getD j 0 ∈ o.nb := by
      rw [List.getD_eq_getElem?_getD, List.getElem?_eq_getElem hjl]; exact List.getElem_mem hjl
    obtain ⟨h1, h2⟩ := coor_signed hV hVV hy hkm
    have h0 : 0 ≤ nbCoord o.lp y (o.nb.getD j 0) := by
      rw [h1, ← h2]; unfold compCoor; split <;> positivity
    have hs : signedCoor V o y (o.nb.getD j 0) = nbCoord o.lp y (o.nb.getD j 0) := by rw [h1]; rfl
    rw [hs, ← mul_assoc]
    refine mul_le_mul_of_nonneg_right ?_ h0
    by_cases hjn : j ∈ L.nz
    · have := (valid_feas hsortP hwf hidx hL hvalid).2 j hjn
      rw [← this]; rfl
    · unfold expand
      rw [if_neg hjn]
      exact mul_nonneg (by positivity) (hrc0 j)
  have h3 : scale ≤ scale / (b - o.obj) * (ddot o.lp.numCols cost y - ddot o.lp.numCols cost o.sol) := by
    refine le_trans ?_ hle
    simpa using hcut
  have h4 : b - o.obj ≤ ddot o.lp.numCols cost y - ddot o.lp.numCols cost o.sol := by
    by_contra hlt
    push Not at hlt
    have := mul_lt_mul_of_pos_left hlt (show 0 < scale / (b - o.obj) by positivity)
    rw [div_mul_cancel₀ _ hd.ne'] at this
    linarith
  rw [hoff] at h4
  unfold objAt at *
  linarith

/-- **C153.** So the best objective value reported for the disjunction is the greatest bound that can be had by adding solutions of the
point-ray LP as cuts. (`v ≤ D.bestObj`: the value recorded before, which is the largest double for every disjunction just prepared.) -/
theorem disjunction_bound_exact_partial {E : NumEnv} (hsort : ∀ l, (E.sortDecr l).Perm l) {V : Relax} {o : NBData}
    (hV : NBOk V o) {strengthen : Bool} {cost : Vec} {offset : ℚ} {w : ℕ → TermWorld} {D D' : Disj} {rows : List PRow}
    (hsetup : setupAll E o strengthen false cost offset V w D = .ok (rows, D'))
    (hoff : o.obj = objAt o.lp.numCols cost offset o.sol) (hrc : RcOk V o cost) (hrc0 : ∀ j, 0 ≤ o.rc j)
    (hEps : 0 < E.EPS) (hRay : 0 < E.RAYEPS)
    (hterm : ∀ i t, D.terms[i]? = some t → TermOk V t ∧ HonestWorld E o strengthen V cost (w i) t)
    (hint : StoredOk E o V D.intSol)
    {sortP : List PRow → List PRow} (hsortP : ∀ l, (sortP l).Perm l)
    {INF DIFFEPS EPS scale : ℚ} (hI : 0 < INF) (hE : 0 < DIFFEPS) (hscale : 0 < scale)
    (hwf : WellFormed scale o.lp.numCols rows) (hex : Exact scale DIFFEPS rows) {L : BuiltLP}
    (hL : prlpSetup sortP INF DIFFEPS scale o.lp.numCols rows = some L) (hne : L.nz ≠ [])
    (hmoved : o.obj < D'.bestObj) (hbig : NoTinyCut o L (boundCutCoeffs o L scale D'.bestObj) false scale EPS) :
    IsGreatest {v | v ≤ D.bestObj ∧ ∃ cuts : List RowCut,
      (∀ c ∈ cuts, ∃ β, L.Feas INF β ∧ NoTinyCut o L β false scale EPS ∧ c = cutOf o L β false scale EPS) ∧
      LowerBound V cuts o.lp.numCols cost offset v} D'.bestObj := by
  obtain ⟨⟨hle, -, hcase⟩, -⟩ := setupAll_bounds hsetup
  obtain ⟨h1, h2⟩ := disjunction_bound_reached_partial (EPS := EPS) hsort hV hsetup hoff hrc hrc0 hEps hRay hterm hint hsortP
    (INF := INF) hscale hwf hL hne hmoved
  refine ⟨⟨hle, _, fun c hc => ?_, h2 hbig⟩, ?_⟩
  · rw [List.mem_singleton] at hc
    exact ⟨_, h1, hbig, hc⟩
  · rintro v ⟨hv, cuts, hcuts, hb⟩
    rcases hcase with h | h
    · rw [h]; exact hv
    · obtain ⟨x, hx, hval, hsat⟩ := reported_point (EPS := EPS) hsort hV hsetup hoff hterm hint hsortP hI hE hscale.le hwf hex hL
        hne h
      rw [← hval]
      refine hb x hx fun c hc => ?_
      obtain ⟨β, hβ, hbig', rfl⟩ := hcuts c hc
      exact hsat β hβ hbig'

/-- What the program reports for one round whose disjunctive cuts are `cuts`: Gomory cuts are off. -/
def oneRound {σ : Type} (cuts : List RowCut) : ℕ → BWorld σ := fun _ => ⟨fun _ => [], fun _ => cuts, true⟩

/-- **C153, in the program.** With one round and without Gomory cuts the bounds the program reports for the disjunctive cuts and for all
cuts are at most the best objective value reported for the disjunction, when the solver `I` solves the LP `V` with the cuts. -/
theorem program_bound_le_disjunction_partial {E : NumEnv} (hsort : ∀ l, (E.sortDecr l).Perm l) {V : Relax} {o : NBData}
    (hV : NBOk V o) {strengthen flip : Bool} {cost : Vec} {offset : ℚ} {w : ℕ → TermWorld} {D D' : Disj} {rows : List PRow}
    (hsetup : setupAll E o strengthen flip cost offset V w D = .ok (rows, D'))
    (hoff : o.obj = objAt o.lp.numCols cost offset o.sol)
    (hterm : ∀ i t, D.terms[i]? = some t → TermOk V t ∧ HonestWorld E o strengthen V cost (w i) t)
    (hint : StoredOk E o V D.intSol)
    {sortP : List PRow → List PRow} (hsortP : ∀ l, (sortP l).Perm l)
    {INF DIFFEPS EPS scale : ℚ} (hI : 0 < INF) (hE : 0 < DIFFEPS) (hscale : 0 ≤ scale)
    (hwf : WellFormed scale o.lp.numCols rows) (hex : Exact scale DIFFEPS rows) {L : BuiltLP}
    (hL : prlpSetup sortP INF DIFFEPS scale o.lp.numCols rows = some L) (hne : L.nz ≠ [])
    {cuts : List RowCut}
    (hcuts : ∀ c ∈ cuts, ∃ β, L.Feas INF β ∧ NoTinyCut o L β flip scale EPS ∧ c = cutOf o L β flip scale EPS)
    (hprev : D'.bestObj < D.bestObj) {σ : Type} {I : SolverImpl σ} {keep : RowCut → Bool} (hC : Coherent I) (hR : RowLaws I keep)
    {s : σ} (hs : I.isOptimal s = true)
    (hlp : ∀ x, V.Feas x → SatRows x (I.rows s) ∧ SolvesAt I x ∧ TrueOptimum I x (objAt o.lp.numCols cost offset x)) :
    ∃ b, boundRun I 0 (oneRound cuts) 1 s = .ok b ∧ b.bound.vpc ≤ D'.bestObj ∧ b.bound.all ≤ D'.bestObj := by
  obtain ⟨⟨-, -, h⟩, -⟩ := setupAll_bounds hsetup
  have hrep := h.resolve_left hprev.ne
  obtain ⟨x, hx, hval, hsat⟩ := reported_point (EPS := EPS) hsort hV hsetup hoff hterm hint hsortP hI hE hscale hwf hex hL hne hrep
  obtain ⟨h1, h2, h3⟩ := hlp x hx
  rw [hval] at h3
  obtain ⟨b, hb, -, hbel, -⟩ := rounds_bounds_valid I hC hR h2 h3 0 (by simp) (w := oneRound cuts)
    ⟨fun _ _ _ c hc => by simp [oneRound] at hc, fun _ _ _ c hc => by
      obtain ⟨β, hβ, hbig, rfl⟩ := hcuts c hc
      exact hsat β hβ hbig⟩ 1 s hs h1
  exact ⟨b, hb, (hbel one_pos).1, (hbel one_pos).2.2.1⟩

/-- In percent: the gap closed by the cuts is at most the gap closed by the disjunction. -/
theorem gap_le_disjunction {lp ip v d : ℚ} (hlt : lp < ip) (h : v ≤ d) : share lp ip v ≤ share lp ip d := by
  rcases h.lt_or_eq with h | rfl
  · exact (gap_monotone lp ip v d hlt h).le
  · exact le_rfl

namespace Tri

theorem honest : ∀ i t, DS.terms[i]? = some t → TermOk V t ∧ HonestWorld E o false V cost (w i) t := by
  intro i t h
  match i, h with
  | 0, h =>
    simp only [DS, List.getElem?_cons_zero, Option.some.injEq] at h; subst h
    refine ⟨⟨⟨termOk0.1.1, termOk0.1.2⟩, termOk0.2⟩, rfl, fun Q h x => by rw [lp0 h]; exact ⟨sol0, noTiny0⟩, by simp, by simp,
      fun Q s h hs => ?_, by simp⟩
    rw [lp0 h]
    have : s = s0 := by cases hs; rfl
    rw [this]; exact objOk0
  | 1, h =>
    simp only [DS, List.getElem?_cons_succ, List.getElem?_cons_zero, Option.some.injEq] at h; subst h
    refine ⟨⟨⟨termOk1.1.1, termOk1.1.2⟩, termOk1.2⟩, rfl, fun Q h x => by rw [lp1 h]; exact ⟨sol1, noTiny1⟩, by simp, by simp,
      fun Q s h hs => ?_, by simp⟩
    rw [lp1 h]
    have : s = s1 := by cases hs; rfl
    rw [this]; exact objOk1
  | i + 2, h => simp [DS] at h

/-- Non-vacuity of the three theorems: in the example the LP value is -1, the disjunction has the value 0, and 0 is the greatest
bound. -/
example : IsGreatest {v | v ≤ DS.bestObj ∧ ∃ cuts : List RowCut,
      (∀ c ∈ cuts, ∃ β, L.Feas 1000000 β ∧ NoTinyCut o L β false 1 (1/10000000) ∧ c = cutOf o L β false 1 (1/10000000)) ∧
      LowerBound V cuts 2 cost 0 v} 0 :=
  disjunction_bound_exact_partial (E := E) (fun l => List.Perm.refl l) nbOk rowsS_eq (by decide +kernel) rcOk
    (by intro j; simp [o]) (by decide +kernel) (by decide +kernel) honest (by intro h; exact absurd rfl h) (sortP := id)
    (fun l => List.Perm.refl l) (by norm_num) (by norm_num) (by norm_num) wf exact_rows prlp_eq (by decide) (by decide +kernel)
    (by unfold NoTinyCut; decide +kernel)

example : ∀ v, v ≤ DS.bestObj → LowerBound V ([] ++ [cutOf o L [1/2, 1/2] false 1 (1/10000000)]) 2 cost 0 v → v ≤ 0 := fun v hv hb =>
  bound_le_disjunction_partial (E := E) (fun l => List.Perm.refl l) (D := DS) (P := V) (st := ⟨V, []⟩) (DE := 1)
    (limit := fun _ => false) (bad := fun _ => false) (opt := fun _ => none) (by decide +kernel)
    (by constructor <;> simp [DS, Disj.new]) nbOk rowsS_eq (by decide +kernel) honest (by intro h; exact absurd rfl h) (sortP := id)
    (fun l => List.Perm.refl l) (by norm_num) (by norm_num) (by norm_num) wf exact_rows prlp_eq (by decide)
    (by intro c hc; rw [List.mem_singleton] at hc; exact ⟨_, feasβ, bigβ, hc⟩) hb hv

/-- An exact solver for the LP of the example and the cut `x1 ≤ 0`. -/
def exactSolver : SolverImpl (List RowCut) :=
  { formSolver with objValue := fun s => if (⟨[(1, -1)], 0⟩ : RowCut) ∈ s then 0 else -1 }

theorem exactSolver_coherent : Coherent exactSolver := by
  constructor <;> intro s h <;> rfl

theorem exactSolver_rows : RowLaws exactSolver (fun _ => true) where
  stable r := ⟨fun _ h => h, fun _ h => h, fun _ h => h, fun _ _ h => h, fun _ h => h, fun _ h => h,
    fun _ h => h, fun _ h => h⟩
  applyRowCuts _ _ := rfl
  applyCuts l s := by simp [exactSolver, formSolver, freeSolver, lineSolver]
  restoreBase _ _ := rfl

/-- Non-vacuity of `program_bound_le_disjunction_partial`. -/
example : ∃ b, boundRun exactSolver 0 (oneRound [cutOf o L [1/2, 1/2] false 1 (1/10000000)]) 1 [] = .ok b ∧ b.bound.vpc ≤ 0 ∧
    b.bound.all ≤ 0 := by
  refine program_bound_le_disjunction_partial (E := E) (fun l => List.Perm.refl l) nbOk rowsS_eq (by decide +kernel) honest
    (by intro h; exact absurd rfl h) (sortP := id)
    (fun l => List.Perm.refl l) (by norm_num) (by norm_num) (by norm_num) wf exact_rows prlp_eq (by decide)
    (by intro c hc; rw [List.mem_singleton] at hc; exact ⟨_, feasβ, bigβ, hc⟩) (by decide +kernel)
    exactSolver_coherent exactSolver_rows rfl (fun x hx => ⟨(by intro c hc; simp [exactSolver, formSolver, freeSolver, lineSolver] at hc), (fun _ _ _ _ => rfl), ?_⟩)
  intro s _ hs
  show (if _ then _ else _ : ℚ) ≤ objAt 2 cost 0 x
  have e : objAt 2 cost 0 x = - x 1 := by simp [objAt, ddot, sum_range_succ, cost]
  rw [e]
  split
  · rename_i h
    have := hs _ h
    simp only [RowCut.Sat, sdot_cons, sdot_nil] at this
    linarith
  · have := hx.2.1 1 (some 1) rfl 1 rfl
    linarith

example : (boundRun exactSolver 0 (oneRound [cutOf o L [1/2, 1/2] false 1 (1/10000000)]) 1 []).bind
    (fun b => .ok (b.bound.vpc, b.bound.all)) = .ok (0, 0) := by decide +kernel

end Tri

/-! ## The time limit

Maximize `x` on `0 ≤ x ≤ 3` with the disjunction `x ≤ 1 ∨ x ≥ 2`; the time is up when the second term has been solved. -/
namespace Late

def V : Relax := ⟨[some 0], [some 3], []⟩
def lp : LP where
  numCols := 1
  rows := fun _ => []
  sense := fun _ => .L
  rhs := fun _ => 0
  colLower := fun _ => 0
  colUpper := fun _ => 3
  colStat := fun _ => .atUpper
def o : NBData where
  lp := lp
  sol := fun _ => 3
  obj := -3
  nb := [0]
  isUB := fun _ => true
  rc := fun _ => 1
def cost : Vec := fun _ => -1
def s (v : ℚ) : TermSol where
  x := fun _ => v
  obj := -v
  nb := [0]
  row := fun _ => none
  isUB := fun _ => true
  isLB := fun _ => false
  isFixed := fun _ => false
  tab := fun _ _ => 0
  rayObj := fun _ => 1
def D : Disj :=
  { Disj.new with numTerms := 2, terms := [{ changes := [⟨0, 1, 1⟩], feasible := true }, { changes := [⟨0, 0, 2⟩], feasible := true }] }
def w : ℕ → TermWorld := fun k =>
  ⟨true, fun _ => .optimal (s (if k = 0 then 1 else 3)), fun _ => [], fun _ => .notOptimal, k == 1⟩
def L : BuiltLP := ⟨[0], [1/2], [1000000], [([(0, 2)], 1)]⟩

end Late

/-- **C153, violated at the time limit.** A term solved when the time is up reports its value but is not collected: the disjunction has the
value -3, and the cut moves the bound to -1. -/
theorem late_bound_exceeds : ∃ rows D', setupAll Tri.E Late.o false false Late.cost 0 Late.V Late.w Late.D = .ok (rows, D') ∧
    prlpSetup id 1000000 (1/1000) 1 1 rows = some Late.L ∧ D'.bestObj = -3 ∧ Late.L.Feas 1000000 [1/2] ∧
    LowerBound Late.V [cutOf Late.o Late.L [1/2] false 1 (1/10000000)] 1 Late.cost 0 (-1) := by
  have h : ∃ r, setupAll Tri.E Late.o false false Late.cost 0 Late.V Late.w Late.D = .ok r ∧
      decide (prlpSetup id 1000000 (1/1000) 1 1 r.1 = some Late.L ∧ r.2.bestObj = -3) = true := Res.okAnd_iff (by decide +kernel)
  obtain ⟨r, hr, hd⟩ := h
  obtain ⟨h1, h2⟩ := of_decide_eq_true hd
  refine ⟨r.1, r.2, hr, h1, h2, by unfold BuiltLP.Feas; decide +kernel, fun y _ hc => ?_⟩
  have hc := hc _ (List.mem_singleton.2 rfl)
  have e : cutOf Late.o Late.L [1/2] false 1 (1/10000000) = ⟨[(0, -1/2)], -1/2⟩ := by decide +kernel
  rw [e] at hc
  simp only [RowCut.Sat, sdot_cons, sdot_nil] at hc
  simp only [objAt, ddot, Late.cost, sum_range_one]
  linarith

end VPC
