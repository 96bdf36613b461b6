import Verif.Props.FloatRun

/-!
# Solutions of the point-ray LP within the tolerance of the LP solver (C157, C03)

The statements of `PRLPSetup` and `ErrorBound` for solutions that satisfy the rows and bounds of the point-ray LP only up to
a tolerance `τ`, as an LP solver returns them.
-/
namespace VPC

open Finset

/-- `β` satisfies the bounds and rows of the LP loaded at the end of `PRLP::setup` up to `τ`, the primal feasibility tolerance of the
solver (`BuiltLP.Feas` is the case `τ = 0`).  Specification, not code: the solver itself is outside the model. -/
def BuiltLP.FeasTol (INF τ : ℚ) (L : BuiltLP) (β : List ℚ) : Prop :=
  β.length = L.nz.length ∧
  (∀ t < L.nz.length, (L.lb.getD t 0 ≤ -INF ∨ L.lb.getD t 0 - τ ≤ β.getD t 0) ∧
    (INF ≤ L.ub.getD t 0 ∨ β.getD t 0 ≤ L.ub.getD t 0 + τ)) ∧
  ∀ r ∈ L.rows, r.2 - τ ≤ sdot r.1 (fun t => β.getD t 0)

/-- `α` satisfies the (scaled) row `r` of the collection up to `T` (specification, not code). -/
def RowTol (scale T : ℚ) (α : Vec) (r : PRow) : Prop := r.rhs * scale - T ≤ sdot r.vec α

/-- Soundness of the loaded LP for solutions within the tolerance (compare `setup_sound_partial`). -/
theorem setup_sound_tol (sortP : List PRow → List PRow) (hsort : ∀ l, (sortP l).Perm l)
    (INF DIFFEPS scale : ℚ) (numCols : ℕ) (rows : List PRow) (hI : 0 < INF) (hE : 0 < DIFFEPS)
    (hwf : WellFormed scale numCols rows)
    (hno : ∀ r ∈ rows, ∀ r2 ∈ rows, rhsLineUp r r2 = true →
      isRowDifferent r.vec r.rhs r2.vec r2.rhs DIFFEPS ≠ -1)
    (L : BuiltLP) (hL : prlpSetup sortP INF DIFFEPS scale numCols rows = some L)
    (β : List ℚ) {τ T : ℚ} (hτ : 0 ≤ τ) (hτT : τ ≤ T) (hτI : τ < INF)
    (hsing : ∀ r ∈ rows, ∀ j c, r.vec = [(j, c)] → |c| * τ ≤ T) (hβ : L.FeasTol INF τ β) :
    ∀ r ∈ rows, RowTol scale T (expand L.nz β) r ∨
      ∃ r2 ∈ rows, RowTol scale T (expand L.nz β) r2 ∧
        (rhsLineUp r r2 = true ∨ (r.rhs = 0 ∧ r2.rhs = 0)) ∧
        (isRowDifferent r.vec r.rhs r2.vec r2.rhs DIFFEPS = 0 ∨
          isRowDifferent r.vec r.rhs r2.vec r2.rhs DIFFEPS = 1) := by
  unfold prlpSetup at hL
  rw [Option.map_eq_some_iff] at hL
  obtain ⟨st, hst, rfl⟩ := hL
  have hP := setupPass1_P1 hst
  set pts := retained true DIFFEPS (sortP st.pts) with hpts
  set rays := retained false DIFFEPS (sortP st.rays) with hrays
  set nz := (List.range numCols).filter (keepCol (pts ++ rays) st.lb st.ub) with hnz
  obtain ⟨hlen, hbd, hrow⟩ := hβ
  simp only at hlen hbd hrow
  have hsubP : ∀ r ∈ pts, r ∈ st.pts := fun r hr =>
    (hsort _).mem_iff.1 ((retained_sublist _ _ _).subset hr)
  have hsubR : ∀ r ∈ rays, r ∈ st.rays := fun r hr =>
    (hsort _).mem_iff.1 ((retained_sublist _ _ _).subset hr)
  have hin : ∀ r ∈ pts ++ rays, ∀ e ∈ r.vec, e.1 ∈ nz := by
    intro r hr e he
    have hmem : r ∈ rows := by
      rcases List.mem_append.1 hr with h | h
      · exact (hP.pts r (hsubP r h)).1
      · exact (hP.rays r (hsubR r h)).1
    exact List.mem_filter.2 ⟨List.mem_range.2 (hwf.idx r hmem e he), keepCol_of_entry hr he⟩
  have okP : ∀ r ∈ pts, RowTol scale T (expand nz β) r := by
    intro r hr
    have := hrow (r.vec.map (fun e => (nz.idxOf e.1, e.2)), r.rhs * scale)
      (List.mem_append_left _ (List.mem_map.2 ⟨r, hr, rfl⟩))
    simp only at this
    rw [sdot_compress nz β r.vec (hin r (List.mem_append_left _ hr))] at this
    unfold RowTol
    linarith
  have okR : ∀ r ∈ rays, RowTol scale T (expand nz β) r := by
    intro r hr
    have := hrow (r.vec.map (fun e => (nz.idxOf e.1, e.2)), r.rhs)
      (List.mem_append_right _ (List.mem_map.2 ⟨r, hr, rfl⟩))
    simp only at this
    rw [sdot_compress nz β r.vec (hin r (List.mem_append_right _ hr))] at this
    have h0 := hP.rays r (hsubR r hr)
    unfold RowTol
    rcases hwf.rhs r h0.1 with h | h
    · rw [h] at this ⊢; linarith
    · have := h0.2; rw [isZero_iff] at this; linarith
  intro r hr
  rcases hP.cover r hr with h | h | ⟨hz, h⟩
  · have hmem : r ∈ sortP st.pts := (hsort _).mem_iff.2 h
    have hno' : ∀ a ∈ sortP st.pts, ∀ b ∈ sortP st.pts, (true = true → rhsLineUp a b = true) →
        isRowDifferent a.vec a.rhs b.vec b.rhs DIFFEPS ≠ -1 := fun a ha b hb hab =>
      hno a (hP.pts a ((hsort _).mem_iff.1 ha)).1 b (hP.pts b ((hsort _).mem_iff.1 hb)).1 (hab rfl)
    rcases dedup_partial true DIFFEPS _ hno' r hmem with h1 | ⟨r2, h2, h2', h3⟩
    · exact Or.inl (okP r h1)
    · exact Or.inr ⟨r2, (hP.pts r2 (hsubP r2 h2)).1, okP r2 h2, Or.inl (h2' rfl), h3⟩
  · have hmem : r ∈ sortP st.rays := (hsort _).mem_iff.2 h
    have hz0 : ∀ a ∈ st.rays, a.rhs = 0 := by
      intro a ha
      have h1 := hP.rays a ha
      rcases hwf.rhs a h1.1 with h | h
      · exact h
      · have := h1.2; rw [isZero_iff] at this; linarith
    rcases dedup_rays DIFFEPS hE _ (fun a ha => hz0 a ((hsort _).mem_iff.1 ha)) r hmem with
      h1 | ⟨r2, h2, h3⟩
    · exact Or.inl (okR r h1)
    · have e1 := hz0 r h
      have e2 := hz0 r2 (hsubR r2 h2)
      exact Or.inr ⟨r2, (hP.rays r2 (hsubR r2 h2)).1, okR r2 h2, Or.inr ⟨e1, e2⟩,
        Or.inl (by rw [e1, e2]; exact h3)⟩
  · left
    have h0 : r.rhs = 0 := by
      rcases hwf.rhs r hr with h | h
      · exact h
      · rw [isZero_iff] at hz; linarith
    unfold RowTol
    rw [h0, zero_mul]
    rcases h with h | ⟨j, c, hv, h4, h5⟩
    · rw [h]; simp; linarith
    · have hs := hsing r hr j c hv
      rw [hv, sdot_cons, sdot_nil, add_zero]
      show 0 - T ≤ c * expand nz β j
      by_cases hj : j ∈ nz
      · rw [expand_of_mem hj]
        have hlt : nz.idxOf j < nz.length := List.idxOf_lt_length_iff.2 hj
        have hb := hbd _ hlt
        have e1 : (nz.map st.lb).getD (nz.idxOf j) 0 = st.lb j := by
          rw [List.getD_eq_getElem?_getD, List.getElem?_map, List.getElem?_idxOf hj]; rfl
        have e2 : (nz.map st.ub).getD (nz.idxOf j) 0 = st.ub j := by
          rw [List.getD_eq_getElem?_getD, List.getElem?_map, List.getElem?_idxOf hj]; rfl
        rw [e1, e2] at hb
        have hd := defEps_pos
        rcases le_abs.1 (hwf.sing r hr j c hv h0) with h6 | h6
        · have h7 := h5 h6
          rcases hb.1 with h8 | h8
          · linarith
          · rw [abs_of_nonneg (by linarith)] at hs
            have := mul_le_mul_of_nonneg_left (show -τ ≤ β.getD (nz.idxOf j) 0 by linarith) (show 0 ≤ c by linarith)
            linarith
        · have h7 := h4 (by linarith)
          rcases hb.2 with h8 | h8
          · linarith
          · rw [abs_of_nonpos (by linarith)] at hs
            have := mul_le_mul_of_nonpos_left (show β.getD (nz.idxOf j) 0 ≤ τ by linarith) (show c ≤ 0 by linarith)
            linarith
      · rw [expand, if_neg hj, mul_zero]; linarith

/-- A row represented by a row that is satisfied up to `T`. -/
theorem represented_row_tol {n : ℕ} {DIFFEPS K R scale : ℚ} {rows : List PRow}
    (he : 0 < DIFFEPS) (hsc : 0 ≤ scale) (hsp : Spread DIFFEPS K R rows)
    (hidx : ∀ r ∈ rows, ∀ e ∈ r.vec, e.1 < n) {r r2 : PRow} (hr : r ∈ rows) (hr2 : r2 ∈ rows)
    (hrhs : r.rhs = r2.rhs) (hc : r.rhs = 0 ∨ DIFFEPS ≤ |r.rhs|) {α : Vec} {T : ℚ} (hT : 0 ≤ T) (h2 : RowTol scale T α r2)
    (h : isRowDifferent r.vec r.rhs r2.vec r2.rhs DIFFEPS = 0 ∨
      isRowDifferent r.vec r.rhs r2.vec r2.rhs DIFFEPS = 1) :
    r.rhs * scale ≤ sdot r.vec α + (rowLoss DIFFEPS K R * absSum n α + K * T) +
      (if r.rhs = 0 then 0 else DIFFEPS * scale) := by
  rw [← hrhs] at h
  obtain ⟨ρ, hl, hu, hag, hcc⟩ := near_of_code he (hsp.sorted r hr) (hsp.sorted r2 hr2) hc hsp.one
    (hsp.ratio r hr r2 hr2) h
  have hn := (abs_le.1 (agree_sdot he (hidx r hr) (hidx r2 hr2) hag hl hu hsp.one
    (hsp.size r2 hr2) α)).1
  unfold RowTol at h2
  rw [← hrhs] at h2
  have hp : 0 ≤ max ρ 0 := le_max_right _ _
  have hpK : max ρ 0 * T ≤ K * T := mul_le_mul_of_nonneg_right (max_le hu (by linarith [hsp.one])) hT
  have h3 := mul_le_mul_of_nonneg_left h2 hp
  by_cases h0 : r.rhs = 0
  · rw [if_pos h0]
    rw [h0] at h3 ⊢
    linarith
  · rw [if_neg h0]
    have h4 : r.rhs ≤ max ρ 0 * r.rhs + DIFFEPS := by
      rcases le_total 0 ρ with h | h
      · rw [max_eq_left h]; exact hcc
      · rw [max_eq_right h, zero_mul, zero_add]
        rcases le_total r.rhs 0 with h' | h'
        · linarith
        · have := mul_nonpos_of_nonpos_of_nonneg h h'; linarith
    have h5 := mul_le_mul_of_nonneg_right h4 hsc
    linarith

/-- **C03 with the tolerances of the code and of the LP solver, from the rows to the cut** (partial as `vpc_near_partial`). -/
theorem vpc_near_tol_partial {E : NumEnv} {o : NBData} {flip : Bool} {intPoint : Option (SVec × ℚ)}
    {terms : List TermOutcome} {sortP : List PRow → List PRow} (hsort : ∀ l, (sortP l).Perm l)
    {INF DIFFEPS EPS scale K R : ℚ} (hI : 0 < INF) (hE : 0 < DIFFEPS) (hE1 : DIFFEPS ≤ 1) (h0 : 0 ≤ EPS)
    (hsc : 0 ≤ scale)
    (hwf : WellFormed scale o.lp.numCols (setupConstraints flip intPoint terms))
    (hno : ∀ r ∈ setupConstraints flip intPoint terms, ∀ r2 ∈ setupConstraints flip intPoint terms,
      rhsLineUp r r2 = true → isRowDifferent r.vec r.rhs r2.vec r2.rhs DIFFEPS ≠ -1)
    (hsp : Spread DIFFEPS K R (setupConstraints flip intPoint terms)) {L : BuiltLP}
    (hL : prlpSetup sortP INF DIFFEPS scale o.lp.numCols (setupConstraints flip intPoint terms) = some L)
    {β : List ℚ} {τ T : ℚ} (hτ : 0 ≤ τ) (hτT : τ ≤ T) (hRT : R * τ ≤ T) (hτI : τ < INF) (hβ : L.FeasTol INF τ β) (hne : L.nz ≠ []) {x : Vec} {p : SVec} {dep : ℚ}
    {rays : List (SVec × ℚ)} (ht : TermOutcome.collected p dep rays ∈ terms) {M U : ℚ} (hU : 0 ≤ U)
    (hx : NearTermCone o.lp.numCols p (rays.map (·.1)) (fun j => nbCoord o.lp x (o.nb.getD j 0))
      (E.EPS + E.RAYEPS * M) U)
    (ho : NBOrder o.lp ((scPairs o.lp.numCols L.nz β o.nb).map (·.1))) :
    (cutOf o L β flip scale EPS).lb ≤ sdot (cutOf o L β flip scale EPS).row x +
      (errBound E EPS DIFFEPS scale K R M U o.lp.numCols (expand L.nz β) x + (1 + U) * (K * T)) := by
  set α := expand L.nz β with hα
  set n := o.lp.numCols with hn
  -- right-hand sides are 0 or ±1
  have hrhs1 : ∀ r ∈ setupConstraints flip intPoint terms, r.rhs = 0 ∨ r.rhs = 1 ∨ r.rhs = -1 := by
    intro r hr
    unfold setupConstraints at hr
    rcases List.mem_append.1 hr with hr | hr
    · cases hip : intPoint with
      | none => rw [hip] at hr; simp at hr
      | some q =>
        rw [hip] at hr
        simp only [List.mem_singleton] at hr
        subst hr
        exact .inr (.inl rfl)
    · obtain ⟨t, -, hr⟩ := List.mem_flatMap.1 hr
      unfold termRows at hr
      split at hr
      · rcases List.mem_cons.1 hr with rfl | hr
        · cases flip <;> simp
        · obtain ⟨q, -, rfl⟩ := List.mem_map.1 hr
          exact .inl rfl
      · simp at hr
  have hsame : ∀ r ∈ setupConstraints flip intPoint terms, ∀ r2 ∈ setupConstraints flip intPoint terms,
      (rhsLineUp r r2 = true ∨ (r.rhs = 0 ∧ r2.rhs = 0)) → r.rhs = r2.rhs := by
    intro r hr r2 hr2 h
    rcases h with h | ⟨h1, h2⟩
    · have hd := defEps_pos
      unfold rhsLineUp at h
      simp only [Bool.or_eq_true, Bool.and_eq_true, greaterThanVal_iff, lessThanVal_iff] at h
      rcases hrhs1 r hr with e1 | e1 | e1 <;> rcases hrhs1 r2 hr2 with e2 | e2 | e2 <;>
        rw [e1, e2] at h ⊢ <;> exfalso <;> rcases h with h | h <;> obtain ⟨ha, hb⟩ := h <;> linarith
    · rw [h1, h2]
  have hA : 0 ≤ absSum n α := sum_nonneg fun i _ => abs_nonneg _
  have hT : 0 ≤ T := hτ.trans hτT
  have hKT : T ≤ K * T := by have := mul_le_mul_of_nonneg_right hsp.one hT; linarith
  have hsing : ∀ r ∈ setupConstraints flip intPoint terms, ∀ j c, r.vec = [(j, c)] → |c| * τ ≤ T := by
    intro r hr j c hv
    have h := hsp.size r hr j
    rw [hv] at h
    simp [scoef] at h
    exact (mul_le_mul_of_nonneg_right h hτ).trans hRT
  have hloss : 0 ≤ (rowLoss DIFFEPS K R * absSum n α + K * T) := by
    have hR : 0 ≤ R := by
      have hm : (⟨p, if flip then -1 else 1, dep⟩ : PRow) ∈ setupConstraints flip intPoint terms :=
        List.mem_append_right _ (List.mem_flatMap.2 ⟨_, ht, by simp [termRows]⟩)
      exact (abs_nonneg _).trans (hsp.size _ hm 0)
    refine add_nonneg (mul_nonneg ?_ hA) (by linarith)
    unfold rowLoss
    have := hsp.one
    have := defEps_pos
    positivity
  have hl0 : 0 ≤ rowLoss DIFFEPS K R * absSum n α := by
    have hR : 0 ≤ R := by
      have hm : (⟨p, if flip then -1 else 1, dep⟩ : PRow) ∈ setupConstraints flip intPoint terms :=
        List.mem_append_right _ (List.mem_flatMap.2 ⟨_, ht, by simp [termRows]⟩)
      exact (abs_nonneg _).trans (hsp.size _ hm 0)
    refine mul_nonneg ?_ hA
    unfold rowLoss
    have := hsp.one
    have := defEps_pos
    positivity
  have hok : ∀ r ∈ setupConstraints flip intPoint terms,
      r.rhs * scale ≤ sdot r.vec α + (rowLoss DIFFEPS K R * absSum n α + K * T) +
        (if r.rhs = 0 then 0 else DIFFEPS * scale) := by
    intro r hr
    rcases setup_sound_tol sortP hsort INF DIFFEPS scale n _ hI hE hwf hno L hL β
      hτ hτT hτI hsing hβ r hr with h | ⟨r2, h2, h3, h5, h4⟩
    · have : 0 ≤ (if r.rhs = 0 then 0 else DIFFEPS * scale) := by
        split
        · exact le_refl _
        · exact mul_nonneg hE.le hsc
      unfold RowTol at h
      linarith
    · refine represented_row_tol hE hsc hsp hwf.idx hr h2 (hsame r hr r2 h2 h5) ?_ hT h3 h4
      rcases hrhs1 r hr with e | e | e
      · exact .inl e
      · right; rw [e]; simpa using hE1
      · right; rw [e]; simpa using hE1
  have hmem : ∀ r ∈ termRows flip (.collected p dep rays),
      r ∈ setupConstraints flip intPoint terms := fun r hr =>
    List.mem_append_right _ (List.mem_flatMap.2 ⟨_, ht, hr⟩)
  have hpt : (⟨p, if flip then -1 else 1, dep⟩ : PRow) ∈ termRows flip (.collected p dep rays) := by
    simp [termRows]
  have hraym : ∀ r ∈ rays, r.1 ≠ [] → (⟨r.1, 0, r.2⟩ : PRow) ∈ termRows flip (.collected p dep rays) := by
    intro r hr hne
    unfold termRows
    refine List.mem_cons_of_mem _ (List.mem_map.2 ⟨r, List.mem_filter.2 ⟨hr, ?_⟩, rfl⟩)
    cases h : r.1 with
    | nil => exact absurd h hne
    | cons _ _ => rfl
  obtain ⟨w, hlen, hw, hwU, hnear⟩ := hx
  -- the nearby point of the cone
  let y' : Vec := fun i => scoef p i + ((w.zip (rays.map (·.1))).map fun q => q.1 * scoef q.2 i).sum
  have hcone : ddot n α y' = sdot p α + ((w.zip (rays.map (·.1))).map fun q => q.1 * sdot q.2 α).sum := by
    apply ddot_cone n α y' p _ (fun e he => hwf.idx _ (hmem _ hpt) e he) _ (fun i _ => rfl)
    intro q hq e he
    obtain ⟨r', hr', heq⟩ := List.mem_map.1 (List.of_mem_zip hq).2
    have hne : r'.1 ≠ [] := by intro h0; rw [← heq, h0] at he; simp at he
    rw [← heq] at he
    exact hwf.idx _ (hmem _ (hraym r' hr' hne)) e he
  have hpv := hok _ (hmem _ hpt)
  have hfl : (if flip then (-1 : ℚ) else 1) ≠ 0 := by cases flip <;> simp
  simp only [if_neg hfl] at hpv
  have hrv : ∀ r ∈ rays.map (·.1), -((rowLoss DIFFEPS K R * absSum n α + K * T)) ≤ sdot r α := by
    intro r hr
    obtain ⟨r', hr', rfl⟩ := List.mem_map.1 hr
    by_cases hne : r'.1 = []
    · rw [hne]; simp only [sdot_nil]; linarith
    · have := hok _ (hmem _ (hraym r' hr' hne))
      simp only [zero_mul, if_true, add_zero] at this
      linarith
  have hws := weighted_sum_ge (α := α) hlen hw hrv
  have hUl : w.sum * ((rowLoss DIFFEPS K R * absSum n α + K * T)) ≤ U * ((rowLoss DIFFEPS K R * absSum n α + K * T)) :=
    mul_le_mul_of_nonneg_right hwU hloss
  have hdn := ddot_near (α := α) (y' := y') hnear
  have hnz : L.nz.Nodup ∧ ∀ j ∈ L.nz, j < n := by
    have h := prlpSetup_nz_sublist hL
    exact ⟨h.nodup List.nodup_range, fun j hj => List.mem_range.1 (h.subset hj)⟩
  rw [← nbDot_scPairs o.lp L.nz β o.nb x hne hnz.1 hnz.2] at hdn
  have hcut := setCut_error_bound o.lp L.nz β ((if flip then -1 else 1) * scale) EPS o.nb x ho h0
  simp only at hcut
  have h1 := (abs_le.1 hcut).1
  have h2 := (abs_le.1 hdn).1
  unfold cutOf errBound
  have hX : ∑ k ∈ range o.lp.numCols, |x k| = absSum n x := rfl
  rw [hX] at h1
  linarith

/-- The same from the disjunction. -/
theorem vpc_error_bound_tol_partial {E : NumEnv} (hsort : ∀ l, (E.sortDecr l).Perm l) (hE0 : 0 ≤ E.EPS)
    (hE0R : 0 ≤ E.RAYEPS) {V : Relax}
    {o : NBData} (hV : NBOk V o) {strengthen flip : Bool} {cost : Vec} {offset : ℚ}
    {w : ℕ → TermWorld} {D D' : Disj} {rows : List PRow}
    (hsetup : setupAll E o strengthen flip cost offset V w D = .ok (rows, D'))
    {sortP : List PRow → List PRow} (hsortP : ∀ l, (sortP l).Perm l)
    {INF DIFFEPS EPS scale K R : ℚ} (hI : 0 < INF) (hE : 0 < DIFFEPS) (hE1 : DIFFEPS ≤ 1)
    (h0 : 0 ≤ EPS) (hsc : 0 ≤ scale)
    (hwf : WellFormed scale o.lp.numCols rows)
    (hno : ∀ r ∈ rows, ∀ r2 ∈ rows, rhsLineUp r r2 = true →
      isRowDifferent r.vec r.rhs r2.vec r2.rhs DIFFEPS ≠ -1)
    (hsp : Spread DIFFEPS K R rows) {L : BuiltLP}
    (hL : prlpSetup sortP INF DIFFEPS scale o.lp.numCols rows = some L) (hne : L.nz ≠ [])
    {β : List ℚ} {τ T : ℚ} (hτ : 0 ≤ τ) (hτT : τ ≤ T) (hRT : R * τ ≤ T) (hτI : τ < INF) (hβ : L.FeasTol INF τ β)
    {x : Vec} (hx : V.Feas x) {i : ℕ} {t : Term} (hi : D.terms[i]? = some t)
    (hf : t.feasible = true) (ht : TermOk V t) {M U : ℚ} (hU : 0 ≤ U)
    (hw : WorldNear E o strengthen V (w i) t x M U)
    (hc : ∀ c ∈ t.changes, c.Sat x) (hq : ∀ c ∈ t.ineqs, c.Sat x) :
    (cutOf o L β flip scale EPS).lb ≤ sdot (cutOf o L β flip scale EPS).row x +
      (errBound E EPS DIFFEPS scale K R M U o.lp.numCols (expand L.nz β) x + (1 + U) * (K * T)) := by
  unfold setupAll at hsetup
  obtain ⟨ip, hip, hsetup⟩ := Res.bind_ok hsetup
  obtain ⟨r, hr, hsetup⟩ := Res.bind_ok hsetup
  simp only [Res.ok.injEq, Prod.mk.injEq] at hsetup
  obtain ⟨hrows, -⟩ := hsetup
  subst hrows
  obtain ⟨q, hq', hm⟩ := doTerms_mem hr hi
  rw [Nat.zero_add] at hq'
  obtain ⟨p, d, rays, hcol, hcone⟩ := doTerm_near hsort hE0 hE0R hV ht hf hw hx hc hq hq'
  rw [hcol] at hm
  exact vpc_near_tol_partial hsortP hI hE hE1 h0 hsc hwf hno hsp hL hτ hτT hRT hτI hβ hne hm hU hcone
    (nbOrder_scPairs hV.order hV.len hne (prlpSetup_nz_sublist hL))

/-- The same for a run. -/
theorem run_near_tol_partial {E : NumEnv} {D : Disj} {P : Relax} {st : RootSt} {o : NBData}
    {strengthen flip : Bool} {w : ℕ → TermWorld} {L : BuiltLP} {INF DIFFEPS scale K R M U EPS : ℚ} {x : Vec}
    (h : RunNear E D P st o strengthen flip w L INF DIFFEPS scale K R M U x) (h0 : 0 ≤ EPS) {t : Term}
    (ht : t ∈ D.terms) (hf : t.feasible = true) (hx : InTerm P D t x)
    (hi : ∀ c ∈ D.commonIneqs, c.Sat x) {β : List ℚ} {τ T : ℚ} (hτ : 0 ≤ τ) (hτT : τ ≤ T) (hRT : R * τ ≤ T) (hτI : τ < INF)
    (hβ : L.FeasTol INF τ β) :
    (cutOf o L β flip scale EPS).lb ≤ sdot (cutOf o L β flip scale EPS).row x +
      (errBound E EPS DIFFEPS scale K R M U o.lp.numCols (expand L.nz β) x + (1 + U) * (K * T)) := by
  obtain ⟨hP, hc, htc, hti⟩ := hx
  obtain ⟨DE, limit, bad, opt, hroot⟩ := h.root
  obtain ⟨cost, offset, rows, D', sortP, h1, h2, h3, h4, h5, h6⟩ := h.prlp
  obtain ⟨i, hi'⟩ := List.getElem?_of_mem ht
  exact vpc_error_bound_tol_partial h.sort h.eps.1 h.eps.2.1 h.nb h1 h2 h.pos.1 h.eps.2.2.1 h.eps.2.2.2 h0
    h.pos.2.1 h3 h4 h5 h6 h.nz hτ hτT hRT hτI hβ (rootChanges_keeps hroot hP hc hi) hi' hf (h.terms t ht) h.pos.2.2
    (h.world i t hi') htc hti

/-- **C157, the whole way with an LP solver that has a tolerance** (partial as `run_near_partial`): what the tolerance `τ` adds
is at most `(1 + U) · K · T`, where `T` bounds `τ` and `R · τ`. -/
theorem run_float_tol_partial (hr : RelRnd u rnd) {E : NumEnv} {D : Disj} {P : Relax} {st : RootSt} {o : NBData}
    {strengthen flip : Bool} {w : ℕ → TermWorld} {L : BuiltLP} {INF DIFFEPS scale K R M U EPS EC : ℚ} {x : Vec}
    (h : RunNear E D P st o strengthen flip w L INF DIFFEPS scale K R M U x) (h0 : 0 ≤ EPS)
    (hc : ∀ r, ((o.lp.rows r).map (·.1)).Nodup) {t : Term}
    (ht : t ∈ D.terms) (hf : t.feasible = true) (hx : InTerm P D t x)
    (hi : ∀ c ∈ D.commonIneqs, c.Sat x) {β : List ℚ} {τ T : ℚ} (hτ : 0 ≤ τ) (hτT : τ ≤ T)
    (hRT : R * τ ≤ T) (hτI : τ < INF) (hβ : L.FeasTol INF τ β) {l hi' obj : Vec} (hbox : InBox l hi' x) :
    violAt (removeSmallCoefficientsR rnd l hi' obj EPS EC
        (setCutFromNBCoefficientsR rnd o.lp L.nz β ((if flip then -1 else 1) * scale) o.nb EPS)) x ≤
      floatErr u rnd o.lp l hi' L.nz β ((if flip then -1 else 1) * scale) o.nb EPS EC x +
        (errBound E EPS DIFFEPS scale K R M U o.lp.numCols (expand L.nz β) x + (1 + U) * (K * T) + EPS * ∑ k ∈ range o.lp.numCols, |x k|) := by
  have h1 := run_near_tol_partial h h0 ht hf hx hi hτ hτT hRT hτI hβ
  obtain ⟨cost, offset, rows, D', sortP, -, -, -, -, -, h6⟩ := h.prlp
  have ho : NBOrder o.lp ((scPairs o.lp.numCols L.nz β o.nb).map (·.1)) :=
    nbOrder_scPairs h.nb.order h.nb.len h.nz (prlpSetup_nz_sublist h6)
  have h2 := setCut_error_bound o.lp L.nz β ((if flip then -1 else 1) * scale) EPS o.nb x ho h0
  simp only at h2
  have h3 := (neg_le_neg h2).trans (neg_abs_le _)
  have h3' := (le_abs_self _).trans h2
  refine float_cut_valid hr hc h0 ho hbox ?_
  unfold cutOf at h1
  linarith

/-- A solution of the LP of `Tri` that is off by `1 / 10 ^ 10`: it violates a row, but only within the tolerance `1 / 10 ^ 9`. -/
theorem Tri.feasTolβ : Tri.L.FeasTol 1000000 (1 / 10 ^ 9) [1 / 2 - 1 / 10 ^ 10, 1 / 2] ∧
    ¬ Tri.L.Feas 1000000 [1 / 2 - 1 / 10 ^ 10, 1 / 2] := by
  unfold BuiltLP.FeasTol BuiltLP.Feas
  decide +kernel

example : violAt (removeSmallCoefficientsR (fl 53) (fun _ => 0) (fun _ => 1) (fun _ => 1) (1 / 10000000) (1 / 100000)
        (setCutFromNBCoefficientsR (fl 53) Tri.o.lp Tri.L.nz [1 / 2 - 1 / 10 ^ 10, 1 / 2] ((if false then -1 else 1) * 1) Tri.o.nb
          (1 / 10000000))) (fun _ => 0) ≤ 1 / 10 := by
  have hn : ∀ r, ((Tri.o.lp.rows r).map (·.1)).Nodup := by
    intro r
    show ((if r = 0 then [(0, -2), (1, 1)] else if r = 1 then [(0, 2), (1, 1)] else [] : SVec).map (·.1)).Nodup
    split_ifs <;> decide +kernel
  refine (run_float_tol_partial (fl_relRnd 53) Tri.runNear (by norm_num) hn (t := Tri.t0) (by simp [Tri.D]) rfl
    ⟨by decide +kernel, by simp [Tri.D, Disj.new], by simp [Tri.t0, BChange.Sat], by simp [Tri.t0]⟩
    (by simp [Tri.D, Disj.new]) (τ := 1 / 10 ^ 9) (T := 4 / 10 ^ 9) (by norm_num) (by norm_num) (by norm_num) (by norm_num)
    Tri.feasTolβ.1 (fun i => by norm_num)).trans ?_
  decide +kernel

end VPC
