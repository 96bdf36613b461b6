import Verif.Props.PRLP

/-! # C02/C10/C47: what the LP loaded by `PRLP::setup` means -/
namespace VPC
open Finset

theorem scaledRhs_eq (scale : ℚ) (r : PRow) : scaledRhs scale r = r.rhs * scale := by
  unfold scaledRhs
  split
  · rfl
  · rename_i h; simp only [ne_eq, not_not] at h; rw [h]; ring

/-- Bounds stored for singleton rows never loosen. -/
theorem singletonBound_mono {st st' : SetupSt} {var : ℕ} {c b : ℚ}
    (h : singletonBound st var c b = some st') :
    (∀ k, st.lb k ≤ st'.lb k ∧ st'.ub k ≤ st.ub k) ∧ st'.pts = st.pts ∧ st'.rays = st.rays := by
  unfold singletonBound at h
  repeat' split at h
  all_goals
    first
    | cases h
      done
    | cases h
      first
      | exact ⟨fun k => ⟨le_refl _, le_refl _⟩, rfl, rfl⟩
      | refine ⟨fun k => ?_, rfl, rfl⟩
        simp only
        constructor
        · try split <;> rename_i hk <;> first | (subst hk; linarith) | exact le_refl _
          try exact le_refl _
        · try split <;> rename_i hk <;> first | (subst hk; linarith) | exact le_refl _
          try exact le_refl _

theorem singletonBound_zero {st st' : SetupSt} {var : ℕ} {c b : ℚ}
    (h : singletonBound st var c b = some st') (hb : isZero b = true) :
    (c ≤ -defEps → st'.ub var ≤ 0) ∧ (defEps ≤ c → 0 ≤ st'.lb var) := by
  unfold singletonBound at h
  rw [if_pos hb] at h
  have hd := defEps_pos
  by_cases h1 : c ≤ -defEps
  · rw [if_pos (by simpa using h1)] at h
    simp only [Option.some.injEq] at h
    subst h
    refine ⟨fun _ => ?_, fun h2 => by linarith⟩
    split
    · simp
    · rename_i h3; exact not_lt.1 h3
  · rw [if_neg (by simpa using h1)] at h
    refine ⟨fun h2 => absurd h2 h1, fun h2 => ?_⟩
    rw [if_pos (by simpa using h2)] at h
    simp only [Option.some.injEq] at h
    subst h
    split
    · simp
    · rename_i h3; exact not_lt.1 h3

/-- A bound stored for a singleton row follows from that row (exact right-hand side). -/
theorem singletonBound_implied {st st' : SetupSt} {var : ℕ} {c b INF : ℚ} {α : Vec}
    (h : singletonBound st var c b = some st') (hb : b = 0 ∨ defEps ≤ |b|) (hrow : b ≤ c * α var)
    (hst : ∀ j, (st.lb j ≤ -INF ∨ st.lb j ≤ α j) ∧ (INF ≤ st.ub j ∨ α j ≤ st.ub j)) :
    ∀ j, (st'.lb j ≤ -INF ∨ st'.lb j ≤ α j) ∧ (INF ≤ st'.ub j ∨ α j ≤ st'.ub j) := by
  have hd := defEps_pos
  intro j
  have hj := hst j
  unfold singletonBound at h
  by_cases hz : isZero b = true
  · rw [if_pos hz] at h
    have hb0 : b = 0 := by
      rcases hb with h | h
      · exact h
      · rw [isZero_iff] at hz; linarith
    subst hb0
    by_cases h1 : c ≤ -defEps
    · rw [if_pos (by simpa using h1)] at h
      have hα : α var ≤ 0 := by
        by_contra hc
        nlinarith [mul_neg_of_neg_of_pos (show c < 0 by linarith) (not_le.1 hc)]
      simp only [Option.some.injEq] at h
      subst h
      split
      · refine ⟨hj.1, ?_⟩
        simp only
        split
        · rename_i h2; subst h2; exact Or.inr hα
        · exact hj.2
      · exact hj
    · rw [if_neg (by simpa using h1)] at h
      by_cases h2 : defEps ≤ c
      · rw [if_pos (by simpa using h2)] at h
        have hα : 0 ≤ α var := by
          by_contra hc
          nlinarith [mul_neg_of_pos_of_neg (show 0 < c by linarith) (not_le.1 hc)]
        simp only [Option.some.injEq] at h
        subst h
        split
        · refine ⟨?_, hj.2⟩
          simp only
          split
          · rename_i h2; subst h2; exact Or.inr hα
          · exact hj.1
        · exact hj
      · rw [if_neg (by simpa using h2)] at h
        simp only [Option.some.injEq] at h; subst h; exact hj
  · rw [if_neg hz] at h
    by_cases hc : isVal c 0 = true
    · rw [if_pos hc] at h
      split at h
      · cases h
      · simp only [Option.some.injEq] at h; subst h; exact hj
    · rw [if_neg hc] at h
      rw [isVal_iff, sub_zero, not_lt] at hc
      by_cases h1 : c ≤ -defEps
      · rw [if_pos (by simpa using h1)] at h
        have hcn : c < 0 := by linarith
        have hα : α var ≤ b / c := by
          rw [le_div_iff_of_neg hcn]; linarith [mul_comm c (α var)]
        simp only [Option.some.injEq] at h
        subst h
        split
        · refine ⟨hj.1, ?_⟩
          simp only
          split
          · rename_i h2; subst h2; exact Or.inr hα
          · exact hj.2
        · exact hj
      · rw [if_neg (by simpa using h1)] at h
        have hcp : 0 < c := by
          rcases le_abs.1 hc with h | h <;> linarith
        have hα : b / c ≤ α var := by
          rw [div_le_iff₀ hcp]; linarith [mul_comm c (α var)]
        simp only [Option.some.injEq] at h
        subst h
        split
        · refine ⟨?_, hj.2⟩
          simp only
          split
          · rename_i h2; subst h2; exact Or.inr hα
          · exact hj.1
        · exact hj

/-- Invariant of the first pass after the rows `done`. -/
structure P1 (INF scale : ℚ) (done : List PRow) (st : SetupSt) : Prop where
  cover : ∀ r ∈ done, r ∈ st.pts ∨ r ∈ st.rays ∨ (isZero (r.rhs * scale) = true ∧
    (r.vec = [] ∨ ∃ j c, r.vec = [(j, c)] ∧ (c ≤ -defEps → st.ub j ≤ 0) ∧
      (defEps ≤ c → 0 ≤ st.lb j)))
  pts : ∀ r ∈ st.pts, r ∈ done ∧ isZero (r.rhs * scale) = false
  rays : ∀ r ∈ st.rays, r ∈ done ∧ isZero (r.rhs * scale) = true
  implied : (∀ r ∈ done, r.rhs = 0 ∨ defEps ≤ |r.rhs * scale|) → ∀ α : Vec,
    (∀ r ∈ done, RowOK scale α r) →
    ∀ j, (st.lb j ≤ -INF ∨ st.lb j ≤ α j) ∧ (INF ≤ st.ub j ∨ α j ≤ st.ub j)

theorem setupRow_P1 {INF scale : ℚ} {done : List PRow} {st st' : SetupSt} {r : PRow}
    (hP : P1 INF scale done st) (h : setupRow scale st r = some st') :
    P1 INF scale (done ++ [r]) st' := by
  unfold setupRow at h
  simp only [scaledRhs_eq, Option.map_eq_some_iff] at h
  obtain ⟨st1, h1, h2⟩ := h
  -- bounds after the singleton step
  have hmono : (∀ k, st.lb k ≤ st1.lb k ∧ st1.ub k ≤ st.ub k) ∧ st1.pts = st.pts ∧
      st1.rays = st.rays := by
    revert h1
    split
    · exact singletonBound_mono
    · intro h1
      simp only [Option.some.injEq] at h1
      subst h1
      exact ⟨fun k => ⟨le_refl _, le_refl _⟩, rfl, rfl⟩
  obtain ⟨hm, hp, hr⟩ := hmono
  have hb : st'.lb = st1.lb ∧ st'.ub = st1.ub := by
    revert h2
    split
    · split <;> (rintro rfl; exact ⟨rfl, rfl⟩)
    · rintro rfl; exact ⟨rfl, rfl⟩
  have hpts : (st'.pts = st.pts ∧ (isZero (r.rhs * scale) = true)) ∨
      (st'.pts = st.pts ++ [r] ∧ isZero (r.rhs * scale) = false) := by
    revert h2
    cases hz : isZero (r.rhs * scale) <;> (try split) <;> (rintro rfl; simp_all)
  have hrays : st'.rays = st.rays ∨ (st'.rays = st.rays ++ [r] ∧ isZero (r.rhs * scale) = true) := by
    revert h2
    cases hz : isZero (r.rhs * scale) <;> (try split) <;> (rintro rfl; simp_all)
  have hcov : r ∈ st'.pts ∨ r ∈ st'.rays ∨ (isZero (r.rhs * scale) = true ∧ r.vec.length ≤ 1) := by
    revert h2
    cases hz : isZero (r.rhs * scale) <;> (try split) <;> (rintro rfl; simp_all)
  refine ⟨?_, ?_, ?_, ?_⟩
  · intro a ha
    rcases List.mem_append.1 ha with ha | ha
    · rcases hP.cover a ha with h | h | ⟨hz, h⟩
      · left
        rcases hpts with ⟨h3, _⟩ | ⟨h3, _⟩ <;> rw [h3]
        · exact h
        · exact List.mem_append_left _ h
      · right; left
        rcases hrays with h3 | ⟨h3, _⟩ <;> rw [h3]
        · exact h
        · exact List.mem_append_left _ h
      · right; right
        refine ⟨hz, ?_⟩
        rcases h with h | ⟨j, c, h3, h4, h5⟩
        · exact Or.inl h
        · refine Or.inr ⟨j, c, h3, ?_, ?_⟩
          · intro hc; rw [hb.2]; exact (hm j).2.trans (h4 hc)
          · intro hc; rw [hb.1]; exact (h5 hc).trans (hm j).1
    · simp only [List.mem_singleton] at ha
      subst ha
      rcases hcov with h | h | ⟨hz, hl⟩
      · exact Or.inl h
      · exact Or.inr (Or.inl h)
      · right; right
        refine ⟨hz, ?_⟩
        match hv : a.vec, hl with
        | [], _ => exact Or.inl rfl
        | [(j, c)], _ =>
          right
          rw [hv] at h1
          refine ⟨j, c, rfl, ?_⟩
          rw [hb.1, hb.2]
          exact singletonBound_zero h1 hz
        | _ :: _ :: _, hl => simp at hl
  · intro a ha
    rcases hpts with ⟨h3, _⟩ | ⟨h3, hz⟩ <;> rw [h3] at ha
    · exact ⟨List.mem_append_left _ (hP.pts a ha).1, (hP.pts a ha).2⟩
    · rcases List.mem_append.1 ha with ha | ha
      · exact ⟨List.mem_append_left _ (hP.pts a ha).1, (hP.pts a ha).2⟩
      · simp only [List.mem_singleton] at ha; subst ha
        exact ⟨by simp, hz⟩
  · intro a ha
    rcases hrays with h3 | ⟨h3, hz⟩ <;> rw [h3] at ha
    · exact ⟨List.mem_append_left _ (hP.rays a ha).1, (hP.rays a ha).2⟩
    · rcases List.mem_append.1 ha with ha | ha
      · exact ⟨List.mem_append_left _ (hP.rays a ha).1, (hP.rays a ha).2⟩
      · simp only [List.mem_singleton] at ha; subst ha
        exact ⟨by simp, hz⟩
  · intro hwf α hα
    have hst := hP.implied (fun r hr => hwf r (by simp [hr])) α (fun r hr => hα r (by simp [hr]))
    rw [hb.1, hb.2]
    have hrow := hα r (by simp)
    have hw := hwf r (by simp)
    revert h1
    split
    · rename_i j c hv
      intro h1
      refine singletonBound_implied h1 ?_ ?_ hst
      · rcases hw with h | h
        · left; rw [h]; ring
        · exact Or.inr h
      · unfold RowOK at hrow
        rw [hv] at hrow
        simpa using hrow
    · intro h1
      simp only [Option.some.injEq] at h1
      subst h1
      exact hst

theorem setupPass1_P1 {INF scale : ℚ} {rows : List PRow} {st : SetupSt}
    (h : setupPass1 INF scale rows = some st) : P1 INF scale rows st := by
  have gen : ∀ (rest done : List PRow) (s0 : SetupSt), P1 INF scale done s0 →
      rest.foldlM (setupRow scale) s0 = some st → P1 INF scale (done ++ rest) st := by
    intro rest
    induction rest with
    | nil =>
      intro done s0 h0 h1
      simp only [List.foldlM_nil, Option.pure_def, Option.some.injEq] at h1
      subst h1; simpa using h0
    | cons r rest ih =>
      intro done s0 h0 h1
      rw [List.foldlM_cons] at h1
      cases hr : setupRow scale s0 r with
      | none => rw [hr] at h1; simp at h1
      | some s1 =>
        rw [hr] at h1
        have := ih (done ++ [r]) s1 (setupRow_P1 h0 hr) (by simpa using h1)
        simpa using this
  have := gen rows [] _ ⟨by simp, by simp, by simp, by intro _ _ _ j; simp⟩ h
  simpa using this

/-! ## Column compression -/

theorem expand_of_mem {nz : List ℕ} {β : List ℚ} {j : ℕ} (h : j ∈ nz) :
    expand nz β j = β.getD (nz.idxOf j) 0 := by simp [expand, h]

theorem sdot_compress (nz : List ℕ) (β : List ℚ) (v : SVec) (h : ∀ e ∈ v, e.1 ∈ nz) :
    sdot (v.map fun e => (nz.idxOf e.1, e.2)) (fun t => β.getD t 0) = sdot v (expand nz β) := by
  induction v with
  | nil => rfl
  | cons e v ih =>
    rw [List.map_cons, sdot_cons, sdot_cons, ih (fun e' he' => h e' (by simp [he'])),
      expand_of_mem (h e (by simp))]

theorem keepCol_of_entry {rows : List PRow} {lb ub : Vec} {r : PRow} (hr : r ∈ rows)
    {e : ℕ × ℚ} (he : e ∈ r.vec) : keepCol rows lb ub e.1 = true := by
  unfold keepCol
  rw [if_neg]
  intro h
  rw [List.all_eq_true] at h
  have := h r hr
  rw [List.all_eq_true] at this
  simpa using this e he

/-- C10/C02, soundness of the loaded LP. Let the collection be well formed and let no comparison
between two of its point rows answer `-1` (C10 shows what happens otherwise). Then the coefficient vector
obtained from any feasible solution of the loaded LP satisfies every row of the collection, except
rows `r` for which a row `r2` that *is* satisfied was found parallel and at least as strong. -/
theorem setup_sound_partial (sortP : List PRow → List PRow) (hsort : ∀ l, (sortP l).Perm l)
    (INF DIFFEPS scale : ℚ) (numCols : ℕ) (rows : List PRow) (hI : 0 < INF) (hE : 0 < DIFFEPS)
    (hwf : WellFormed scale numCols rows)
    (hno : ∀ r ∈ rows, ∀ r2 ∈ rows, rhsLineUp r r2 = true →
      isRowDifferent r.vec r.rhs r2.vec r2.rhs DIFFEPS ≠ -1)
    (L : BuiltLP) (hL : prlpSetup sortP INF DIFFEPS scale numCols rows = some L)
    (β : List ℚ) (hβ : L.Feas INF β) :
    ∀ r ∈ rows, RowOK scale (expand L.nz β) r ∨
      ∃ r2 ∈ rows, RowOK scale (expand L.nz β) r2 ∧
        (rhsLineUp r r2 = true ∨ (r.rhs = 0 ∧ r2.rhs = 0)) ∧
        (isRowDifferent r.vec r.rhs r2.vec r2.rhs DIFFEPS = 0 ∨
          isRowDifferent r.vec r.rhs r2.vec r2.rhs DIFFEPS = 1) := by
  unfold prlpSetup at hL
  rw [Option.map_eq_some_iff] at hL
  obtain ⟨st, hst, rfl⟩ := hL
  have hP := setupPass1_P1 hst
  set pts := retained true DIFFEPS (sortP st.pts) with hpts
  set rays := retained false DIFFEPS (sortP st.rays) with hrays
  set nz := (List.range numCols).filter (keepCol (pts ++ rays) st.lb st.ub) with hnz
  obtain ⟨hlen, hbd, hrow⟩ := hβ
  simp only at hlen hbd hrow
  have hsubP : ∀ r ∈ pts, r ∈ st.pts := fun r hr =>
    (hsort _).mem_iff.1 ((retained_sublist _ _ _).subset hr)
  have hsubR : ∀ r ∈ rays, r ∈ st.rays := fun r hr =>
    (hsort _).mem_iff.1 ((retained_sublist _ _ _).subset hr)
  have hin : ∀ r ∈ pts ++ rays, ∀ e ∈ r.vec, e.1 ∈ nz := by
    intro r hr e he
    have hmem : r ∈ rows := by
      rcases List.mem_append.1 hr with h | h
      · exact (hP.pts r (hsubP r h)).1
      · exact (hP.rays r (hsubR r h)).1
    exact List.mem_filter.2 ⟨List.mem_range.2 (hwf.idx r hmem e he), keepCol_of_entry hr he⟩
  have okP : ∀ r ∈ pts, RowOK scale (expand nz β) r := by
    intro r hr
    have := hrow (r.vec.map (fun e => (nz.idxOf e.1, e.2)), r.rhs * scale)
      (List.mem_append_left _ (List.mem_map.2 ⟨r, hr, rfl⟩))
    simp only at this
    rwa [sdot_compress nz β r.vec (hin r (List.mem_append_left _ hr))] at this
  have okR : ∀ r ∈ rays, RowOK scale (expand nz β) r := by
    intro r hr
    have := hrow (r.vec.map (fun e => (nz.idxOf e.1, e.2)), r.rhs)
      (List.mem_append_right _ (List.mem_map.2 ⟨r, hr, rfl⟩))
    simp only at this
    rw [sdot_compress nz β r.vec (hin r (List.mem_append_right _ hr))] at this
    have h0 := hP.rays r (hsubR r hr)
    unfold RowOK
    rcases hwf.rhs r h0.1 with h | h
    · rw [h] at this ⊢; linarith
    · have := h0.2; rw [isZero_iff] at this; linarith
  intro r hr
  rcases hP.cover r hr with h | h | ⟨hz, h⟩
  · have hmem : r ∈ sortP st.pts := (hsort _).mem_iff.2 h
    have hno' : ∀ a ∈ sortP st.pts, ∀ b ∈ sortP st.pts, (true = true → rhsLineUp a b = true) →
        isRowDifferent a.vec a.rhs b.vec b.rhs DIFFEPS ≠ -1 := fun a ha b hb hab =>
      hno a (hP.pts a ((hsort _).mem_iff.1 ha)).1 b (hP.pts b ((hsort _).mem_iff.1 hb)).1 (hab rfl)
    rcases dedup_partial true DIFFEPS _ hno' r hmem with h1 | ⟨r2, h2, h2', h3⟩
    · exact Or.inl (okP r h1)
    · exact Or.inr ⟨r2, (hP.pts r2 (hsubP r2 h2)).1, okP r2 h2, Or.inl (h2' rfl), h3⟩
  · have hmem : r ∈ sortP st.rays := (hsort _).mem_iff.2 h
    have hz0 : ∀ a ∈ st.rays, a.rhs = 0 := by
      intro a ha
      have h1 := hP.rays a ha
      rcases hwf.rhs a h1.1 with h | h
      · exact h
      · have := h1.2; rw [isZero_iff] at this; linarith
    rcases dedup_rays DIFFEPS hE _ (fun a ha => hz0 a ((hsort _).mem_iff.1 ha)) r hmem with
      h1 | ⟨r2, h2, h3⟩
    · exact Or.inl (okR r h1)
    · have e1 := hz0 r h
      have e2 := hz0 r2 (hsubR r2 h2)
      exact Or.inr ⟨r2, (hP.rays r2 (hsubR r2 h2)).1, okR r2 h2, Or.inr ⟨e1, e2⟩,
        Or.inl (by rw [e1, e2]; exact h3)⟩
  · left
    have h0 : r.rhs = 0 := by
      rcases hwf.rhs r hr with h | h
      · exact h
      · rw [isZero_iff] at hz; linarith
    unfold RowOK
    rw [h0, zero_mul]
    rcases h with h | ⟨j, c, hv, h4, h5⟩
    · rw [h]; simp
    · rw [hv, sdot_cons, sdot_nil, add_zero]
      show 0 ≤ c * expand nz β j
      by_cases hj : j ∈ nz
      · rw [expand_of_mem hj]
        have hlt : nz.idxOf j < nz.length := List.idxOf_lt_length_iff.2 hj
        have hb := hbd _ hlt
        have e1 : (nz.map st.lb).getD (nz.idxOf j) 0 = st.lb j := by
          rw [List.getD_eq_getElem?_getD, List.getElem?_map, List.getElem?_idxOf hj]; rfl
        have e2 : (nz.map st.ub).getD (nz.idxOf j) 0 = st.ub j := by
          rw [List.getD_eq_getElem?_getD, List.getElem?_map, List.getElem?_idxOf hj]; rfl
        rw [e1, e2] at hb
        have hd := defEps_pos
        rcases le_abs.1 (hwf.sing r hr j c hv h0) with h6 | h6
        · have h7 := h5 h6
          rcases hb.1 with h8 | h8
          · linarith
          · exact mul_nonneg (by linarith) (h7.trans h8)
        · have h7 := h4 (by linarith)
          rcases hb.2 with h8 | h8
          · linarith
          · exact mul_nonneg_of_nonpos_of_nonpos (by linarith) (h8.trans h7)
      · rw [expand, if_neg hj, mul_zero]

/-- C02, completeness of the loaded LP: deduplication, conversion of singleton rows to bounds and
deletion of empty columns never exclude a valid inequality. Every `α` that satisfies all rows of the
collection gives a feasible solution of the loaded LP, whose expansion is `α` with the deleted
columns set to zero. -/
theorem setup_complete (sortP : List PRow → List PRow) (hsort : ∀ l, (sortP l).Perm l)
    (INF DIFFEPS scale : ℚ) (numCols : ℕ) (rows : List PRow)
    (hwf : WellFormed scale numCols rows)
    (L : BuiltLP) (hL : prlpSetup sortP INF DIFFEPS scale numCols rows = some L)
    (α : Vec) (hα : ∀ r ∈ rows, RowOK scale α r) :
    L.Feas INF (L.nz.map α) ∧
    (∀ j, expand L.nz (L.nz.map α) j = if j ∈ L.nz then α j else 0) := by
  unfold prlpSetup at hL
  rw [Option.map_eq_some_iff] at hL
  obtain ⟨st, hst, rfl⟩ := hL
  have hP := setupPass1_P1 hst
  set pts := retained true DIFFEPS (sortP st.pts) with hpts
  set rays := retained false DIFFEPS (sortP st.rays) with hrays
  set nz := (List.range numCols).filter (keepCol (pts ++ rays) st.lb st.ub) with hnz
  simp only
  have hget : ∀ (f : Vec) t, t < nz.length → (nz.map f).getD t 0 = f (nz.getD t 0) := by
    intro f t ht
    rw [List.getD_eq_getElem?_getD, List.getElem?_map, List.getD_eq_getElem?_getD,
      List.getElem?_eq_getElem ht]; rfl
  have hexp : ∀ j, expand nz (nz.map α) j = if j ∈ nz then α j else 0 := by
    intro j
    unfold expand
    split
    · rename_i hj
      rw [List.getD_eq_getElem?_getD, List.getElem?_map, List.getElem?_idxOf hj]; rfl
    · rfl
  have hsubP : ∀ r ∈ pts, r ∈ st.pts := fun r hr =>
    (hsort _).mem_iff.1 ((retained_sublist _ _ _).subset hr)
  have hsubR : ∀ r ∈ rays, r ∈ st.rays := fun r hr =>
    (hsort _).mem_iff.1 ((retained_sublist _ _ _).subset hr)
  have hmemr : ∀ r ∈ pts ++ rays, r ∈ rows := by
    intro r hr
    rcases List.mem_append.1 hr with h | h
    · exact (hP.pts r (hsubP r h)).1
    · exact (hP.rays r (hsubR r h)).1
  have hin : ∀ r ∈ pts ++ rays, ∀ e ∈ r.vec, e.1 ∈ nz := by
    intro r hr e he
    exact List.mem_filter.2 ⟨List.mem_range.2 (hwf.idx r (hmemr r hr) e he), keepCol_of_entry hr he⟩
  have hdot : ∀ r ∈ pts ++ rays,
      sdot (r.vec.map fun e => (nz.idxOf e.1, e.2)) (fun t => (nz.map α).getD t 0) = sdot r.vec α := by
    intro r hr
    rw [sdot_compress nz _ r.vec (hin r hr)]
    unfold sdot
    congr 1
    apply List.map_congr_left
    intro e he
    rw [hexp, if_pos (hin r hr e he)]
  refine ⟨⟨by simp, ?_, ?_⟩, hexp⟩
  · intro t ht
    rw [hget st.lb t ht, hget st.ub t ht, hget α t ht]
    exact hP.implied hwf.rhs α hα _
  · intro p hp
    rcases List.mem_append.1 hp with h | h <;> obtain ⟨r, hr, rfl⟩ := List.mem_map.1 h <;> simp only
    · rw [hdot r (List.mem_append_left _ hr)]
      exact hα r (hmemr r (List.mem_append_left _ hr))
    · rw [hdot r (List.mem_append_right _ hr)]
      have h0 := hP.rays r (hsubR r hr)
      have hok := hα r h0.1
      rcases hwf.rhs r h0.1 with h | h
      · unfold RowOK at hok; rw [h] at hok ⊢; linarith
      · have := h0.2; rw [isZero_iff] at this; linarith

/-- C47 (violated): a satisfiable collection makes the whole process exit. The single row
`1e-8·α₀ ≥ -1` is satisfied by `α = 0`, but the test for "infeasible row" has its sign inverted. -/
theorem setup_aborts_on_feasible :
    let row : PRow := ⟨[(0, 1/10^8)], -1, 0⟩
    (∀ s, prlpSetup s (10^20) (1/1000) 1 1 [row] = none) ∧ RowOK 1 (fun _ => 0) row := by
  refine ⟨fun s => ?_, by decide +kernel⟩
  have : setupPass1 (10^20) 1 [⟨[(0, 1/10^8)], -1, 0⟩] = none := by
    simp only [setupPass1, List.foldlM_cons, List.foldlM_nil]
    have : setupRow 1 { lb := fun _ => -10^20, ub := fun _ => 10^20, pts := [], rays := [] }
      ⟨[(0, 1/10^8)], -1, 0⟩ = none := by
      simp only [setupRow, scaledRhs_eq, singletonBound]
      norm_num [isZero, isVal, defEps, lessThanVal]
    rw [this]; rfl
  simp only [prlpSetup]
  rw [this]; rfl

/-- C47 (what holds): setup aborts only on a singleton point row whose single coefficient is
negligible and whose right-hand side is negative. -/
theorem setup_aborts_only (sortP : List PRow → List PRow) (INF DIFFEPS scale : ℚ) (numCols : ℕ)
    (rows : List PRow) (h : prlpSetup sortP INF DIFFEPS scale numCols rows = none) :
    ∃ r ∈ rows, ∃ j c, r.vec = [(j, c)] ∧ |c| < defEps ∧ r.rhs * scale ≤ -defEps := by
  unfold prlpSetup at h
  rw [Option.map_eq_none_iff] at h
  unfold setupPass1 at h
  generalize (⟨fun _ => -INF, fun _ => INF, [], []⟩ : SetupSt) = s0 at h
  induction rows generalizing s0 with
  | nil => simp at h
  | cons r rows ih =>
    rw [List.foldlM_cons] at h
    cases hr : setupRow scale s0 r with
    | some s1 =>
      rw [hr] at h
      obtain ⟨r', h1, h2⟩ := ih s1 (by simpa using h)
      exact ⟨r', by simp [h1], h2⟩
    | none =>
      refine ⟨r, by simp, ?_⟩
      unfold setupRow at hr
      simp only [scaledRhs_eq, Option.map_eq_none_iff] at hr
      revert hr
      split
      · rename_i j c hv
        intro hr
        refine ⟨j, c, hv, ?_⟩
        unfold singletonBound at hr
        repeat' split at hr
        all_goals first | cases hr; done | skip
        rename_i h1 h2 h3
        simp only [isVal_iff, sub_zero, lessThanVal_iff, zero_sub] at h2 h3
        exact ⟨h2, h3⟩
      · intro hr; cases hr

/-- Non-vacuity: a collection with a point, a singleton ray, a two-entry ray and an empty column:
three columns, column 2 deleted, column 1 bounded below by 0. -/
example :
    prlpSetup id dblMax (1/1000) 1 3
      [⟨[(0, 1), (1, 3)], 1, 1⟩, ⟨[(1, 2)], 0, 0⟩, ⟨[(0, 1), (1, -1)], 0, 1⟩]
      = some ⟨[0, 1], [-dblMax, 0], [dblMax, dblMax],
          [([(0, 1), (1, 3)], 1), ([(0, 1), (1, -1)], 0)]⟩ := by
  decide +kernel

end VPC
