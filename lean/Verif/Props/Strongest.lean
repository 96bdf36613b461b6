import Verif.Props.NoCut
import Verif.Props.TargetValid
import Verif.Props.TargetEx
import Verif.Props.TargetFacts

/-!
# C148 for the run: every solution turned into a cut is the strongest cut of its kind
-/
namespace VPC

/-! ## Rows of the LP and what was collected -/

theorem getD_map_idx {nz : List ℕ} (α : Vec) {j : ℕ} (h : j ∈ nz) : (nz.map α).getD (nz.idxOf j) 0 = α j := by
  have hlt := List.idxOf_lt_length_of_mem h
  rw [List.getD_eq_getElem?_getD, List.getElem?_map, List.getElem?_eq_getElem hlt]
  simp

theorem sdot_expand_map {nz : List ℕ} (α : Vec) {v : SVec} (h : ∀ e ∈ v, e.1 ∈ nz) :
    sdot v (expand nz (nz.map α)) = sdot v α := by
  induction v with
  | nil => rfl
  | cons e v ih =>
    rw [sdot_cons, sdot_cons, ih (fun e' he' => h e' (by simp [he'])), expand_of_mem (h e (by simp)),
      getD_map_idx α (h e (by simp))]

/-- Every row of the LP is a row collected, over the columns kept, with scaled right-hand side. -/
theorem row_origin {sortP : List PRow → List PRow} (hsort : ∀ l, (sortP l).Perm l) {INF DIFFEPS scale : ℚ} {n : ℕ}
    {rows : List PRow} (hwf : WellFormed scale n rows) {L : BuiltLP}
    (hL : prlpSetup sortP INF DIFFEPS scale n rows = some L) {k : ℕ} (hk : k < L.rows.length) :
    ∃ r ∈ rows, (∀ e ∈ r.vec, e.1 ∈ L.nz) ∧ (∀ β, L.act k β = sdot r.vec (expand L.nz β)) ∧
      L.rhs k = r.rhs * scale := by
  unfold prlpSetup at hL
  rw [Option.map_eq_some_iff] at hL
  obtain ⟨st, hst, rfl⟩ := hL
  have hP := setupPass1_P1 hst
  dsimp only at hk ⊢
  set pts := retained true DIFFEPS (sortP st.pts)
  set rays := retained false DIFFEPS (sortP st.rays)
  set nz := (List.range n).filter (keepCol (pts ++ rays) st.lb st.ub) with hnz
  have hin : ∀ r ∈ pts ++ rays, r ∈ rows ∧ ∀ e ∈ r.vec, e.1 ∈ nz := by
    intro r hr
    have hmem : r ∈ rows := by
      rcases List.mem_append.1 hr with h | h
      · exact (hP.pts r ((hsort _).mem_iff.1 ((retained_sublist _ _ _).subset h))).1
      · exact (hP.rays r ((hsort _).mem_iff.1 ((retained_sublist _ _ _).subset h))).1
    refine ⟨hmem, fun e he => ?_⟩
    rw [hnz]
    simp only [List.mem_filter, List.mem_range]
    exact ⟨hwf.idx r hmem e he, keepCol_of_entry hr he⟩
  have hget : ∀ (M : List (SVec × ℚ)), M.getD k ([], 0) ∈ M ∨ M.length ≤ k := by
    intro M
    by_cases h : k < M.length
    · left; rw [List.getD_eq_getElem?_getD, List.getElem?_eq_getElem h]; exact List.getElem_mem h
    · right; omega
  rcases hget (pts.map (fun r => (r.vec.map fun e => (nz.idxOf e.1, e.2), r.rhs * scale)) ++
      rays.map (fun r => (r.vec.map fun e => (nz.idxOf e.1, e.2), r.rhs))) with h | h
  swap
  · exact absurd hk (not_lt.mpr h)
  simp only [BuiltLP.act, BuiltLP.vec, BuiltLP.rhs]
  rcases List.mem_append.1 h with h | h
  · obtain ⟨r, hr, he⟩ := List.mem_map.1 h
    obtain ⟨h1, h2⟩ := hin r (by simp [hr])
    refine ⟨r, h1, h2, fun β => ?_, ?_⟩
    · rw [← he]; exact sdot_compress nz β r.vec h2
    · rw [← he]
  · obtain ⟨r, hr, he⟩ := List.mem_map.1 h
    obtain ⟨h1, h2⟩ := hin r (by simp [hr])
    refine ⟨r, h1, h2, fun β => ?_, ?_⟩
    · rw [← he]; exact sdot_compress nz β r.vec h2
    · rw [← he]
      have hz := (hP.rays r ((hsort _).mem_iff.1 ((retained_sublist _ _ _).subset hr))).2
      rcases hwf.rhs r h1 with h0 | h0
      · simp [h0]
      · exfalso
        rw [isZero_iff] at hz
        linarith

/-! ## The run -/

/-- What the theorems below assume: the point-ray LP was set up from what was collected (an integer solution, if
there is one, and the terms), the LP solver is truthful, the sorts permute, and the loop over objectives returned. -/
structure StrongRun (W : TWorld) (INF scale : ℚ) (n : ℕ) (terms : List (SVec × List SVec)) (L : BuiltLP)
    (st : TSt) : Prop where
  run : ∃ (sortP : List PRow → List PRow) (DIFFEPS : ℚ) (ip : Option (SVec × ℚ)) (outs : List TermOutcome),
    (∀ l, (sortP l).Perm l) ∧ terms = collectedTerms ip outs ∧
    WellFormed scale n (setupConstraints false ip outs) ∧ IdxBelow n terms ∧
    prlpSetup sortP INF DIFFEPS scale n (setupConstraints false ip outs) = some L
  sorts : W.Sorts L
  truthful : W.Truthful INF
  loop : ∃ cur g, targetCuts W L cur g = .ok st

section
variable {W : TWorld} {INF scale : ℚ} {n : ℕ} {terms : List (SVec × List SVec)} {L : BuiltLP} {st : TSt}

theorem StrongRun.row (h : StrongRun W INF scale n terms L st) {k : ℕ} (hk : k < L.rows.length) :
    ∃ t ∈ terms, ∃ v, (∀ e ∈ v, e.1 ∈ L.nz) ∧ (∀ β, L.act k β = sdot v (expand L.nz β)) ∧
      ((v = t.1 ∧ L.rhs k = scale) ∨ (v ∈ t.2 ∧ L.rhs k = 0)) := by
  obtain ⟨sortP, D, ip, outs, hsort, rfl, hwf, hi, hL⟩ := h.run
  obtain ⟨r, hr, h1, h2, h3⟩ := row_origin hsort hwf hL hk
  obtain ⟨t, ht, hh⟩ := row_of_collected hr
  refine ⟨t, ht, r.vec, h1, h2, ?_⟩
  rcases hh with ⟨e1, e2⟩ | ⟨e1, e2⟩
  · exact Or.inl ⟨e1, by rw [h3, e2, one_mul]⟩
  · exact Or.inr ⟨e1, by rw [h3, e2, zero_mul]⟩

theorem StrongRun.wf (h : StrongRun W INF scale n terms L st) : L.WF := by
  obtain ⟨sortP, D, ip, outs, hsort, rfl, hwf, hi, hL⟩ := h.run
  exact prlpSetup_wf hsort hwf.idx hL

theorem StrongRun.feas (h : StrongRun W INF scale n terms L st) {α : Vec} (hα : ValidCut n terms α scale) :
    L.Feas INF (L.nz.map α) := by
  obtain ⟨sortP, D, ip, outs, hsort, rfl, hwf, hi, hL⟩ := h.run
  exact (setup_complete sortP hsort INF D scale n _ hwf L hL α (rows_ok_of_valid hi hα)).1

theorem StrongRun.opt (h : StrongRun W INF scale n terms L st) {a : Attempt} (ha : a ∈ st.log) {x : List ℚ}
    (hx : a.sol? = some x) :
    L.Feas INF x ∧ (∀ k, a.lp.eqRow = some k → L.act k x = L.rhs k) ∧
    ∀ α, ValidCut n terms α scale → (∀ k, a.lp.eqRow = some k → L.act k (L.nz.map α) = L.rhs k) →
      objVal a.lp.obj x ≤ objVal a.lp.obj (L.nz.map α) := by
  obtain ⟨cur, g, hl⟩ := h.loop
  obtain ⟨h1, h2, h3⟩ := solutions_optimal h.wf h.sorts h.truthful hl a ha x hx
  exact ⟨h1, h2, fun α hα hk => h3 _ (h.feas hα) hk⟩

theorem StrongRun.same (h : StrongRun W INF scale n terms L st) {a : Attempt} (ha : a ∈ st.log) :
    HeurSpec L a.heur a.lp ∧ a.lp.cols = L.nz.length := by
  obtain ⟨cur, g, hl⟩ := h.loop
  have hd := (objectives_as_documented h.wf h.sorts hl).1 a ha
  exact ⟨hd.1, by rw [PLP.cols, hd.2.1]⟩

theorem act_map {k : ℕ} {v : SVec} (hv : ∀ e ∈ v, e.1 ∈ L.nz) (hact : ∀ β, L.act k β = sdot v (expand L.nz β))
    (α : Vec) : L.act k (L.nz.map α) = sdot v α := by
  rw [hact, sdot_expand_map α hv]

/-- **C148, the heuristics that aim at points.** Each attempt aims at a point that was collected.

If its row is an inequality, the solution has at that point the smallest value of all inequalities with the right-hand
side of the LP that are valid for the disjunctive hull; so if any of them is tight at the point, the solution is.

If its row is an equation, the solution is tight at the point. -/
theorem point_cuts_strongest (h : StrongRun W INF scale n terms L st) {a : Attempt}
    (ha : a ∈ st.log) (hh : a.heur = .DISJ_LB ∨ a.heur = .TIGHT_POINTS ∨ a.heur = .TIGHT_POINTS2) {x : List ℚ}
    (hx : a.sol? = some x) :
    ∃ t ∈ terms, scale ≤ sdot t.1 (expand L.nz x) ∧
      (a.lp.eqRow = none → ∀ α, ValidCut n terms α scale → sdot t.1 (expand L.nz x) ≤ sdot t.1 α ∧
        (sdot t.1 α = scale → sdot t.1 (expand L.nz x) = scale)) ∧
      (a.lp.eqRow ≠ none → sdot t.1 (expand L.nz x) = scale) := by
  obtain ⟨hf, hk, ho⟩ := h.opt ha hx
  obtain ⟨hspec, hcols⟩ := h.same ha
  have hpt : ∃ k, IsPoint L k ∧ TargetsPoint L k a.lp := by
    rcases hh with hh | hh | hh <;> rw [hh] at hspec <;> simp only [HeurSpec] at hspec
    · obtain ⟨k, h1, -, h2⟩ := hspec; exact ⟨k, h1, h2⟩
    · exact hspec
    · exact hspec
  obtain ⟨k, ⟨hkl, hz⟩, ht⟩ := hpt
  obtain ⟨t, htm, v, hv, hact, hr⟩ := h.row hkl
  have hp : v = t.1 ∧ L.rhs k = scale := by
    rcases hr with hr | ⟨-, hr⟩
    · exact hr
    · rw [hr, isZero_false_iff] at hz
      norm_num [defEps] at hz
  obtain ⟨rfl, hrhs⟩ := hp
  have hge : scale ≤ sdot t.1 (expand L.nz x) := by
    have := hf.2.2 (L.rows[k]) (List.getElem_mem hkl)
    have e1 : L.rows.getD k ([], 0) = L.rows[k] := by
      rw [List.getD_eq_getElem?_getD, List.getElem?_eq_getElem hkl]; rfl
    rw [← hact, ← hrhs]
    unfold BuiltLP.rhs BuiltLP.act BuiltLP.vec
    rw [e1]; exact this
  refine ⟨t, htm, hge, fun he α hα => ?_, fun he => ?_⟩
  · have hm : a.lp.Minimizes (L.act k) := by
      rcases ht with ⟨-, h⟩ | ⟨h, -⟩
      · exact h
      · rw [he] at h; cases h
    have := ho α hα (fun k' hk' => by rw [he] at hk'; cases hk')
    rw [hm x (by rw [hf.1, hcols]), hm (L.nz.map α) (by simp [hcols]), act_map hv hact, hact] at this
    exact ⟨this, fun h' => le_antisymm (h' ▸ this) hge⟩
  · rcases ht with ⟨h', -⟩ | ⟨h', -⟩
    · exact absurd h' he
    · rw [← hact, hk k h', hrhs]

/-- **C148, further cuts tight at a point.** If the row of the point is an equation, what is minimized is the value at
another point or ray that was collected, or a coefficient, or minus a coefficient, and the solution is the smallest
among all valid inequalities that are tight at the point. -/
theorem more_cuts_strongest (h : StrongRun W INF scale n terms L st) {a : Attempt} (ha : a ∈ st.log) {k : ℕ}
    (hk : a.lp.eqRow = some k) {x : List ℚ} (hx : a.sol? = some x) :
    ∃ t ∈ terms, ∃ f : Vec → ℚ,
      ((∃ t' ∈ terms, f = sdot t'.1 ∨ ∃ v ∈ t'.2, f = sdot v) ∨ ∃ j ∈ L.nz, (f = fun α => α j) ∨ f = fun α => -α j) ∧
      sdot t.1 (expand L.nz x) = scale ∧
      ∀ α, ValidCut n terms α scale → sdot t.1 α = scale → f (expand L.nz x) ≤ f α := by
  obtain ⟨hf, hkx, ho⟩ := h.opt ha hx
  obtain ⟨hspec, hcols⟩ := h.same ha
  have hpt : ∃ k', IsPoint L k' ∧ TargetsPoint L k' a.lp := by
    revert hspec
    cases a.heur <;> simp only [HeurSpec]
    case DISJ_LB => rintro ⟨k, h1, -, h2⟩; exact ⟨k, h1, h2⟩
    case TIGHT_POINTS => exact fun h => h
    case TIGHT_POINTS2 => exact fun h => h
    all_goals simp [hk]
  obtain ⟨k', ⟨hkl, hz⟩, ht⟩ := hpt
  rcases ht with ⟨h', -⟩ | ⟨h', g, hg, hm⟩
  · rw [hk] at h'; cases h'
  rw [hk, Option.some.injEq] at h'
  subst h'
  obtain ⟨t, htm, v, hv, hact, hr⟩ := h.row hkl
  have hp : v = t.1 ∧ L.rhs k = scale := by
    rcases hr with hr | ⟨-, hr⟩
    · exact hr
    · rw [hr, isZero_false_iff] at hz
      norm_num [defEps] at hz
  obtain ⟨rfl, hrhs⟩ := hp
  have hgen : ∀ f : Vec → ℚ, (∀ β : List ℚ, β.length = L.nz.length → g β = f (expand L.nz β)) →
      (∀ α : Vec, f (expand L.nz (L.nz.map α)) = f α) →
      ∀ α, ValidCut n terms α scale → sdot t.1 α = scale → f (expand L.nz x) ≤ f α := by
    intro f hgf hfα α hα hta
    have := ho α hα (fun k' hk' => by
      rw [hk, Option.some.injEq] at hk'; subst hk'
      rw [act_map hv hact, hta, hrhs])
    rw [hm x (by rw [hf.1, hcols]), hm (L.nz.map α) (by simp [hcols]), hgf x hf.1,
      hgf (L.nz.map α) (by simp), hfα] at this
    exact this
  have htight : sdot t.1 (expand L.nz x) = scale := by rw [← hact, hkx k hk, hrhs]
  have hnd : L.nz.Nodup := by
    obtain ⟨sortP, D, ip, outs, hsort, -, hwf, hi, hL⟩ := h.run
    exact prlpSetup_nz hL
  have hcol : ∀ j (hj : j < L.nz.length) (β : List ℚ), β.getD j 0 = expand L.nz β (L.nz[j]) := by
    intro j hj β
    rw [expand_of_mem (List.getElem_mem hj), hnd.idxOf_getElem]
  have hcolα : ∀ j (hj : j < L.nz.length) (α : Vec), expand L.nz (L.nz.map α) (L.nz[j]) = α (L.nz[j]) := by
    intro j hj α
    rw [expand_of_mem (List.getElem_mem hj), getD_map_idx α (List.getElem_mem hj)]
  cases hg with
  | row i hi =>
    obtain ⟨t', ht', v', hv', hact', hr'⟩ := h.row hi
    refine ⟨t, htm, sdot v', Or.inl ⟨t', ht', ?_⟩, htight, hgen _ (fun β _ => hact' β) (fun α => sdot_expand_map α hv')⟩
    rcases hr' with ⟨rfl, -⟩ | ⟨hr', -⟩
    · exact Or.inl rfl
    · exact Or.inr ⟨v', hr', rfl⟩
  | lower j hj =>
    exact ⟨t, htm, _, Or.inr ⟨_, List.getElem_mem hj, Or.inl rfl⟩, htight,
      hgen _ (fun β _ => hcol j hj β) (fun α => hcolα j hj α)⟩
  | upper j hj =>
    exact ⟨t, htm, _, Or.inr ⟨_, List.getElem_mem hj, Or.inr rfl⟩, htight,
      hgen _ (fun β _ => by show -β.getD j 0 = _; rw [hcol j hj β]) (fun α => by rw [hcolα j hj α])⟩

/-- **C148, the heuristics that aim at rays.** The solution has the smallest value on a ray that was collected of all
valid inequalities; so if any of them is parallel to the ray, the solution is. -/
theorem ray_cuts_strongest (h : StrongRun W INF scale n terms L st) (hs : defEps ≤ |scale|) {a : Attempt}
    (ha : a ∈ st.log) (hh : a.heur = .TIGHT_RAYS ∨ a.heur = .TIGHT_RAYS2) {x : List ℚ} (hx : a.sol? = some x) :
    ∃ t ∈ terms, ∃ v ∈ t.2, 0 ≤ sdot v (expand L.nz x) ∧ ∀ α, ValidCut n terms α scale →
      sdot v (expand L.nz x) ≤ sdot v α ∧ (sdot v α = 0 → sdot v (expand L.nz x) = 0) := by
  obtain ⟨hf, -, ho⟩ := h.opt ha hx
  obtain ⟨hspec, hcols⟩ := h.same ha
  have hray : a.lp.eqRow = none ∧ ∃ k, IsRay L k ∧ a.lp.Minimizes (L.act k) := by
    rcases hh with hh | hh <;> rw [hh] at hspec <;> exact hspec
  obtain ⟨he, k, ⟨hkl, hz⟩, hm⟩ := hray
  obtain ⟨t, htm, v, hv, hact, hr⟩ := h.row hkl
  have hp : v ∈ t.2 ∧ L.rhs k = 0 := by
    rcases hr with ⟨-, hr⟩ | hr
    · rw [hr, isZero_iff] at hz
      exact absurd hz (not_lt.mpr hs)
    · exact hr
  obtain ⟨hvt, hrhs⟩ := hp
  have hge : 0 ≤ sdot v (expand L.nz x) := by
    have := hf.2.2 (L.rows[k]) (List.getElem_mem hkl)
    have e1 : L.rows.getD k ([], 0) = L.rows[k] := by
      rw [List.getD_eq_getElem?_getD, List.getElem?_eq_getElem hkl]; rfl
    rw [← hact, ← hrhs]
    unfold BuiltLP.rhs BuiltLP.act BuiltLP.vec
    rw [e1]; exact this
  refine ⟨t, htm, v, hvt, hge, fun α hα => ?_⟩
  have := ho α hα (fun k' hk' => by rw [he] at hk'; cases hk')
  rw [hm x (by rw [hf.1, hcols]), hm (L.nz.map α) (by simp [hcols]), act_map hv hact, hact] at this
  exact ⟨this, fun h' => le_antisymm (h' ▸ this) hge⟩

/-- **C148, unit vectors and the all-ones objective.** A unit vector gives the solution with the smallest coefficient of
its variable among all valid inequalities; all ones the one with the smallest sum of the coefficients kept. -/
theorem unit_cuts_strongest (h : StrongRun W INF scale n terms L st) {a : Attempt} (ha : a ∈ st.log) {x : List ℚ}
    (hx : a.sol? = some x) :
    (a.heur = .UNIT_VECTORS → ∃ j ∈ L.nz, ∀ α, ValidCut n terms α scale → expand L.nz x j ≤ α j) ∧
    (a.heur = .ALL_ONES → ∀ α, ValidCut n terms α scale → x.sum ≤ (L.nz.map α).sum) := by
  obtain ⟨hf, -, ho⟩ := h.opt ha hx
  obtain ⟨hspec, hcols⟩ := h.same ha
  have hnd : L.nz.Nodup := by
    obtain ⟨sortP, D, ip, outs, hsort, -, hwf, hi, hL⟩ := h.run
    exact prlpSetup_nz hL
  constructor
  · intro hh
    rw [hh] at hspec
    obtain ⟨he, j, hj, hm⟩ := hspec
    rw [hcols] at hj
    refine ⟨L.nz[j], List.getElem_mem hj, fun α hα => ?_⟩
    have := ho α hα (fun k' hk' => by rw [he] at hk'; cases hk')
    rw [hm x (by rw [hf.1, hcols]), hm (L.nz.map α) (by simp [hcols])] at this
    rw [expand_of_mem (List.getElem_mem hj), hnd.idxOf_getElem]
    refine this.trans_eq ?_
    show (L.nz.map α).getD j 0 = _
    rw [List.getD_eq_getElem?_getD, List.getElem?_map, List.getElem?_eq_getElem hj]
    simp
  · intro hh α hα
    rw [hh] at hspec
    obtain ⟨he, hm⟩ := hspec
    have := ho α hα (fun k' hk' => by rw [he] at hk'; cases hk')
    rwa [hm x (by rw [hf.1, hcols]), hm (L.nz.map α) (by simp [hcols])] at this

end

/-! ## Non-vacuity -/
namespace Tri

/-- What was collected in the split of `EndToEndEx`. -/
def sOuts : List TermOutcome :=
  [.collected [(1, 2)] 1 [([(1, 4)], 2), ([(0, 1), (1, 1)], 1)],
   .collected [(0, 2)] 1 [([(0, 4)], 2), ([(0, 1), (1, 1)], 1)]]

/-- A solver that, asked for the smallest value at the first point, returns a solution that is not tight at the second. -/
def sW : TWorld :=
  { tW with
    solve := fun n p => if p.base = L ∧ p.eqRow = none ∧ p.obj = [0, 2] then .optimal [3/4, 1/2] else tW.solve n p }

theorem sTruthful : sW.Truthful 1000000 := by
  intro n p x h
  simp only [sW] at h
  split at h
  · rename_i hk
    simp only [Solve.optimal.injEq] at h
    subst h
    obtain ⟨B, eq, obj⟩ := p
    obtain ⟨hb, he, ho⟩ := hk
    simp only at hb he ho
    subst hb he ho
    refine ⟨⟨⟨rfl, by decide +kernel, by decide +kernel⟩, by simp⟩, ?_⟩
    rintro y ⟨hy, -⟩
    have hlen : y.length = 2 := hy.1
    match y, hlen with
    | [u, v], _ =>
      have h1 := hy.2.2 ([(1, 2)], 1) (by simp [L])
      simp [sdot] at h1
      simp [objVal]
      linarith
  · exact tTruthful n p x h

theorem sSorts : sW.Sorts L := ⟨fun _ l => List.Perm.refl l, by decide⟩

/-- The run with this solver meets the hypotheses, with attempts of the kinds that aim at points and rays, with and
without equation. -/
theorem strong_run_ex : ∃ st, StrongRun sW 1000000 1 2 (collectedTerms none sOuts) L st ∧ defEps ≤ |(1 : ℚ)| ∧
    (∃ a ∈ st.log, a.heur = .DISJ_LB ∧ a.lp.eqRow = none ∧ a.sol? = some [3/4, 1/2]) ∧
    (∃ a ∈ st.log, a.heur = .DISJ_LB ∧ a.lp.eqRow = some 0 ∧ a.sol? = some [1/2, 1/2]) ∧
    (∃ a ∈ st.log, a.heur = .TIGHT_RAYS ∧ a.sol? = some [1/2, 1/2]) ∧
    (∃ a ∈ st.log, a.heur = .ALL_ONES ∧ a.sol? = some [1/2, 1/2]) := by
  have hr : setupConstraints false none sOuts = rows := by decide +kernel
  have hwf : WellFormed 1 2 rows := by
    refine ⟨by decide +kernel, ?_, by decide +kernel⟩
    intro r hr j c hv h0
    simp only [rows, List.mem_cons, List.not_mem_nil, or_false] at hr
    rcases hr with rfl | rfl | rfl | rfl | rfl | rfl
    · norm_num at h0
    · simp only [List.cons.injEq, Prod.mk.injEq] at hv
      obtain ⟨⟨-, rfl⟩, -⟩ := hv
      norm_num [defEps]
    · simp at hv
    · norm_num at h0
    · simp only [List.cons.injEq, Prod.mk.injEq] at hv
      obtain ⟨⟨-, rfl⟩, -⟩ := hv
      norm_num [defEps]
    · simp at hv
  have hb : (targetCuts sW L none tG).bind (fun st => Res.ok (
      (st.log.any fun a => decide (a.heur = .DISJ_LB ∧ a.lp.eqRow = none ∧ a.sol? = some [3/4, 1/2])) &&
      (st.log.any fun a => decide (a.heur = .DISJ_LB ∧ a.lp.eqRow = some 0 ∧ a.sol? = some [1/2, 1/2])) &&
      (st.log.any fun a => decide (a.heur = .TIGHT_RAYS ∧ a.sol? = some [1/2, 1/2])) &&
      (st.log.any fun a => decide (a.heur = .ALL_ONES ∧ a.sol? = some [1/2, 1/2])))) = .ok true := by
    decide +kernel
  obtain ⟨st, h, hb⟩ := Res.bind_ok hb
  simp only [Res.ok.injEq, Bool.and_eq_true, List.any_eq_true, decide_eq_true_eq] at hb
  exact ⟨st, ⟨⟨id, 1/1000, none, sOuts, fun l => List.Perm.refl l, rfl, hr ▸ hwf, by unfold IdxBelow; decide +kernel,
    by rw [hr]; exact prlp_eq⟩, sSorts, sTruthful, none, tG, h⟩, by norm_num [defEps], hb.1.1.1, hb.1.1.2, hb.1.2, hb.2⟩

end Tri

end VPC
