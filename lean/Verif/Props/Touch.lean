import Verif.Props.Strongest
import Verif.Props.HullOnly

/-!
# C155: every cut touches the disjunctive hull
-/
namespace VPC
open Finset

/-! ## Specification -/

/-- One of the points collected lies on the hyperplane `α · y = γ`. -/
def Touches (n : ℕ) (terms : List (SVec × List SVec)) (α : Vec) (γ : ℚ) : Prop :=
  ∃ t ∈ terms, ddot n α (scoef t.1) = γ

/-- A solution of the LP that is not halfway between two different solutions (what a simplex method returns). -/
def BuiltLP.Extreme (INF : ℚ) (L : BuiltLP) (β : List ℚ) : Prop :=
  L.Feas INF β ∧ ∀ β₁ β₂, L.Feas INF β₁ → L.Feas INF β₂ → (∀ i, 2 * β.getD i 0 = β₁.getD i 0 + β₂.getD i 0) → β₁ = β₂

/-! ## Lemmas -/

theorem ddot_point {n : ℕ} {p : SVec} (hp : ∀ e ∈ p, e.1 < n) (α : Vec) : ddot n α (scoef p) = sdot p α := by
  simpa using ddot_cone n α (scoef p) p [] hp (by simp) (fun i _ => by simp)

theorem point_in_hull {n : ℕ} {terms : List (SVec × List SVec)} {t : SVec × List SVec} (ht : t ∈ terms) :
    InHull n terms (scoef t.1) := by
  obtain ⟨w, hw, h0, hs⟩ := cone_zero t.2
  exact .term t _ ht ⟨w, hw, h0, fun i _ => by rw [hs i, add_zero]⟩

theorem sdot_smul (v : SVec) (c : ℚ) (α : Vec) : sdot v (fun j => c * α j) = c * sdot v α := by
  induction v with
  | nil => simp [sdot]
  | cons e v ih => rw [sdot_cons, sdot_cons, ih]; ring

theorem expand_map_self {nz : List ℕ} (hnd : nz.Nodup) {β : List ℚ} (hl : β.length = nz.length) (c : ℚ) :
    (nz.map fun j => c * expand nz β j) = β.map (c * ·) := by
  apply List.ext_getElem
  · simp [hl]
  · intro i h1 h2
    simp only [List.length_map] at h1 h2
    simp only [List.getElem_map]
    rw [expand_of_mem (List.getElem_mem h1), hnd.idxOf_getElem, List.getD_eq_getElem?_getD, List.getElem?_eq_getElem h2]
    rfl

theorem objDot_smul (obj β : List ℚ) (c : ℚ) : objDot obj (β.map (c * ·)) = c * objDot obj β := by
  induction obj generalizing β with
  | nil => simp [objDot]
  | cons a obj ih =>
    cases β with
    | nil => simp [objDot]
    | cons b β =>
      have h := ih β
      simp only [objDot, List.map_cons, List.zip_cons_cons, List.sum_cons] at h ⊢
      rw [h]; ring

theorem objVal_eq_objDot (obj β : List ℚ) : objVal obj β = objDot obj β := by
  induction obj generalizing β with
  | nil => simp [objVal, objDot]
  | cons a obj ih =>
    cases β with
    | nil => simp [objVal, objDot]
    | cons b β =>
      have h := ih β
      simp only [objVal, objDot, List.zipWith_cons_cons, List.zip_cons_cons, List.map_cons, List.sum_cons] at h ⊢
      rw [h]

/-- Finitely many values above a positive number stay above it when scaled by a number a little below 1. -/
theorem room {γ : ℚ} (hγ : 0 < γ) (l : List ℚ) (h : ∀ q ∈ l, γ < q) : ∃ c, 0 < c ∧ c < 1 ∧ ∀ q ∈ l, γ ≤ c * q := by
  induction l with
  | nil => exact ⟨1/2, by norm_num, by norm_num, by simp⟩
  | cons a l ih =>
    obtain ⟨c, h0, h1, hc⟩ := ih fun q hq => h q (by simp [hq])
    have ha : γ < a := h a (by simp)
    have hap : 0 < a := hγ.trans ha
    refine ⟨max c (γ / a), lt_max_of_lt_left h0, max_lt h1 ((div_lt_one hap).2 ha), fun q hq => ?_⟩
    rcases List.mem_cons.1 hq with rfl | hq
    · have := mul_le_mul_of_nonneg_right (le_max_right c (γ / q)) hap.le
      rwa [div_mul_cancel₀ _ hap.ne'] at this
    · exact (hc q hq).trans (mul_le_mul_of_nonneg_right (le_max_left _ _) (hγ.trans (h q (by simp [hq]))).le)

/-- A cut that touches the hull cannot be strengthened by a larger right-hand side. -/
theorem touches_rhs {n : ℕ} {terms : List (SVec × List SVec)} {α : Vec} {γ : ℚ} (h : Touches n terms α γ) {γ' : ℚ}
    (hv : ValidCut n terms α γ') : γ' ≤ γ := by
  obtain ⟨t, ht, rfl⟩ := h
  exact hv _ (point_in_hull ht)

section
variable {INF DIFFEPS scale : ℚ} {n : ℕ} {ip : Option (SVec × ℚ)} {outs : List TermOutcome} {L : BuiltLP}

theorem Built.valid (hB : Built INF DIFFEPS scale n ip outs L) (hI : 0 < INF) (hE : 0 < DIFFEPS) {β : List ℚ}
    (hβ : L.Feas INF β) : ValidCut n (collectedTerms ip outs) (expand L.nz β) scale := by
  obtain ⟨s, hs, hL⟩ := hB.built
  exact feas_valid hs hI hE hB.wf hB.idx hB.exact' hL hβ

theorem Built.nodup (hB : Built INF DIFFEPS scale n ip outs L) : L.nz.Nodup := by
  obtain ⟨s, -, hL⟩ := hB.built
  exact prlpSetup_nz hL

theorem Built.smul (hB : Built INF DIFFEPS scale n ip outs L) {β : List ℚ}
    (hβ : L.Feas INF β) {c : ℚ} (hv : ValidCut n (collectedTerms ip outs) (fun j => c * expand L.nz β j) scale) :
    L.Feas INF (β.map (c * ·)) := by
  obtain ⟨s, hs, hL⟩ := hB.built
  have := (valid_feas hs hB.wf hB.idx hL hv).1
  rwa [expand_map_self hB.nodup hβ.1] at this

theorem Built.grow (hB : Built INF DIFFEPS scale n ip outs L) (hI : 0 < INF) (hE : 0 < DIFFEPS) (hs : 0 < scale)
    {β : List ℚ} (hβ : L.Feas INF β) {c : ℚ} (hc : 1 ≤ c) : L.Feas INF (β.map (c * ·)) := by
  refine hB.smul hβ fun y hy => ?_
  have := valid_scaled (hB.valid hI hE hβ) (by linarith : 0 ≤ c) y hy
  nlinarith

/-- A solution that touches no point of the hull can be made smaller. -/
theorem Built.shrink (hB : Built INF DIFFEPS scale n ip outs L) (hI : 0 < INF) (hE : 0 < DIFFEPS) (hs : 0 < scale)
    {β : List ℚ} (hβ : L.Feas INF β) (hno : ¬ Touches n (collectedTerms ip outs) (expand L.nz β) scale) :
    ∃ c, 0 < c ∧ c < 1 ∧ L.Feas INF (β.map (c * ·)) := by
  have hv := (hull_valid_iff n _ _ scale hB.idx).1 (hB.valid hI hE hβ)
  obtain ⟨c, h0, h1, hc⟩ := room hs ((collectedTerms ip outs).map fun t => sdot t.1 (expand L.nz β)) (by
    intro q hq
    obtain ⟨t, ht, rfl⟩ := List.mem_map.1 hq
    refine lt_of_le_of_ne (hv t ht).1 fun he => hno ⟨t, ht, ?_⟩
    rw [ddot_point (hB.idx t ht).1, ← he])
  refine ⟨c, h0, h1, hB.smul hβ ?_⟩
  refine (hull_valid_iff n _ _ scale hB.idx).2 fun t ht => ⟨?_, fun r hr => ?_⟩
  · rw [sdot_smul]
    exact hc _ (List.mem_map.2 ⟨t, ht, rfl⟩)
  · rw [sdot_smul]
    exact mul_nonneg h0.le ((hv t ht).2 r hr)

/-! ## C155 -/

/-- **C155.** The value of an optimal solution is never negative, whatever the objective; and if it is positive, the cut
touches the disjunctive hull: one of the points collected satisfies it with equality. -/
theorem optimal_touches (hB : Built INF DIFFEPS scale n ip outs L) (hI : 0 < INF) (hE : 0 < DIFFEPS) (hs : 0 < scale)
    {obj β : List ℚ} (hopt : L.Optimal INF obj β) :
    0 ≤ objDot obj β ∧ (0 < objDot obj β → Touches n (collectedTerms ip outs) (expand L.nz β) scale) := by
  constructor
  · have := hopt.2 _ (hB.grow hI hE hs hopt.1 (by norm_num : (1 : ℚ) ≤ 2))
    rw [objDot_smul] at this
    linarith
  · intro hp
    by_contra hno
    obtain ⟨c, h0, h1, hf⟩ := hB.shrink hI hE hs hopt.1 hno
    have := hopt.2 _ hf
    rw [objDot_smul] at this
    nlinarith

/-- **C155.** So no inequality with the same coefficients and a larger right-hand side is valid. -/
theorem optimal_rhs_largest (hB : Built INF DIFFEPS scale n ip outs L) (hI : 0 < INF) (hE : 0 < DIFFEPS)
    (hs : 0 < scale) {obj β : List ℚ} (hopt : L.Optimal INF obj β) (hp : 0 < objDot obj β) {γ : ℚ}
    (hv : ValidCut n (collectedTerms ip outs) (expand L.nz β) γ) : γ ≤ scale :=
  touches_rhs ((optimal_touches hB hI hE hs hopt).2 hp) hv

/-- **C155.** Every extreme solution touches the hull, whatever the objective, if anything was collected. -/
theorem extreme_touches (hB : Built INF DIFFEPS scale n ip outs L) (hI : 0 < INF) (hE : 0 < DIFFEPS) (hs : 0 < scale)
    (hne : collectedTerms ip outs ≠ []) {β : List ℚ} (hx : L.Extreme INF β) :
    Touches n (collectedTerms ip outs) (expand L.nz β) scale := by
  by_contra hno
  obtain ⟨c, h0, h1, hf⟩ := hB.shrink hI hE hs hx.1 hno
  have hg := hB.grow hI hE hs hx.1 (by linarith : (1 : ℚ) ≤ 2 - c)
  have hm := hx.2 _ _ hf hg fun i => by
    simp only [List.getD_eq_getElem?_getD, List.getElem?_map]
    cases β[i]? with
    | none => simp
    | some b => simp; ring
  have hz : ∀ b ∈ β, b = 0 := by
    intro b hb
    have := (List.map_inj_left.1 hm) b hb
    have h3 : (2 - 2 * c) * b = 0 := by linarith
    rcases mul_eq_zero.1 h3 with h | h
    · linarith
    · exact h
  obtain ⟨t, ht⟩ := List.exists_mem_of_ne_nil _ hne
  have hv := ((hull_valid_iff n _ _ scale hB.idx).1 (hB.valid hI hE hx.1) t ht).1
  have he : expand L.nz β = fun _ => 0 := by
    funext j
    unfold expand
    split
    · rw [List.getD_eq_getElem?_getD]
      cases h : β[L.nz.idxOf j]? with
      | none => rfl
      | some b => exact hz b (List.mem_of_getElem? h)
    · rfl
  rw [he] at hv
  have : sdot t.1 (fun _ => (0 : ℚ)) = 0 := by unfold sdot; simp
  linarith

/-- **C155, the run.** The solution of every attempt touches the hull, except perhaps when the attempt has no equation
and the value of its objective is 0 (it is never negative): so always if the attempt has an equation, or aims at a point,
or the value is positive, or the solution is an extreme one. -/
theorem run_touches {W : TWorld} {st : TSt} (hB : Built INF DIFFEPS scale n ip outs L) (hI : 0 < INF) (hE : 0 < DIFFEPS)
    (hs : 0 < scale) (h : StrongRun W INF scale n (collectedTerms ip outs) L st) {a : Attempt} (ha : a ∈ st.log)
    {x : List ℚ} (hx : a.sol? = some x) :
    (a.lp.eqRow = none → 0 ≤ objVal a.lp.obj x) ∧
    (a.lp.eqRow ≠ none ∨ a.heur = .DISJ_LB ∨ a.heur = .TIGHT_POINTS ∨ a.heur = .TIGHT_POINTS2 ∨
        0 < objVal a.lp.obj x ∨ (collectedTerms ip outs ≠ [] ∧ L.Extreme INF x) →
      Touches n (collectedTerms ip outs) (expand L.nz x) scale) := by
  obtain ⟨cur, g, hl⟩ := h.loop
  obtain ⟨hf, -, hmin⟩ := solutions_optimal h.wf h.sorts h.truthful hl a ha x hx
  have hopt : a.lp.eqRow = none → L.Optimal INF a.lp.obj x := fun he =>
    ⟨hf, fun β' hβ' => by
      have := hmin β' hβ' (fun k hk => by rw [he] at hk; cases hk)
      rwa [objVal_eq_objDot, objVal_eq_objDot] at this⟩
  have hsdot : ∀ t ∈ collectedTerms ip outs, sdot t.1 (expand L.nz x) = scale →
      Touches n (collectedTerms ip outs) (expand L.nz x) scale := fun t ht he =>
    ⟨t, ht, by rw [ddot_point (hB.idx t ht).1, he]⟩
  have heqn : a.lp.eqRow ≠ none → Touches n (collectedTerms ip outs) (expand L.nz x) scale := by
    intro he
    obtain ⟨k, hk⟩ := Option.ne_none_iff_exists'.1 he
    obtain ⟨t, ht, -, -, h1, -⟩ := more_cuts_strongest h ha hk hx
    exact hsdot t ht h1
  have hpos : 0 < objVal a.lp.obj x → Touches n (collectedTerms ip outs) (expand L.nz x) scale := by
    intro hp
    by_cases he : a.lp.eqRow = none
    · exact (optimal_touches hB hI hE hs (hopt he)).2 (by rwa [objVal_eq_objDot] at hp)
    · exact heqn he
  have hpoint : a.heur = .DISJ_LB ∨ a.heur = .TIGHT_POINTS ∨ a.heur = .TIGHT_POINTS2 →
      Touches n (collectedTerms ip outs) (expand L.nz x) scale := by
    intro hh
    by_cases he : a.lp.eqRow = none
    · by_contra hno
      obtain ⟨c, h0, h1, hfc⟩ := hB.shrink hI hE hs hf hno
      obtain ⟨t, ht, hge, hst, -⟩ := point_cuts_strongest h ha hh hx
      have hv := (hst he _ (hB.valid hI hE hfc)).1
      have hex : ∀ j, expand L.nz (x.map (c * ·)) j = c * expand L.nz x j := by
        intro j
        unfold expand
        split
        · simp only [List.getD_eq_getElem?_getD, List.getElem?_map]
          cases x[L.nz.idxOf j]? <;> simp
        · simp
      rw [show expand L.nz (x.map (c * ·)) = fun j => c * expand L.nz x j from funext hex, sdot_smul] at hv
      nlinarith
    · exact heqn he
  refine ⟨fun he => ?_, ?_⟩
  · have := (optimal_touches hB hI hE hs (hopt he)).1
    rwa [← objVal_eq_objDot] at this
  · rintro (h1 | h1 | h1 | h1 | h1 | ⟨h1, h2⟩)
    · exact heqn h1
    · exact hpoint (.inl h1)
    · exact hpoint (.inr (.inl h1))
    · exact hpoint (.inr (.inr h1))
    · exact hpos h1
    · exact extreme_touches hB hI hE hs h1 h2

end

/-! ## Examples -/

/-- One term: the point `(1, 1)` with the ray `(0, 1)`. -/
def touchOuts : List TermOutcome := [.collected [(0, 1), (1, 1)] 1 [([(1, 1)], 0)]]

def touchLP : BuiltLP := ⟨[0, 1], [-1000000, 0], [1000000, 1000000], [([(0, 1), (1, 1)], 1)]⟩

theorem touchBuilt : Built 1000000 (1/1000) 1 2 none touchOuts touchLP where
  wf := by
    refine ⟨by decide +kernel, ?_, by decide +kernel⟩
    intro r hr j c hv h0
    have : r ∈ [⟨[(0, 1), (1, 1)], 1, 1⟩, (⟨[(1, 1)], 0, 0⟩ : PRow)] := hr
    simp only [List.mem_cons, List.not_mem_nil, or_false] at this
    rcases this with rfl | rfl
    · norm_num at h0
    · simp only [List.cons.injEq, Prod.mk.injEq] at hv
      obtain ⟨⟨-, rfl⟩, -⟩ := hv
      norm_num [defEps]
  idx := by unfold IdxBelow; decide +kernel
  exact' := by
    have hrows : setupConstraints false none touchOuts =
        [⟨[(0, 1), (1, 1)], 1, 1⟩, (⟨[(1, 1)], 0, 0⟩ : PRow)] := by decide +kernel
    rw [hrows]
    refine ⟨by decide +kernel, ?_⟩
    intro r hr r2 hr2 h5 h4 α
    simp only [List.mem_cons, List.not_mem_nil, or_false] at hr hr2
    rcases hr with rfl | rfl <;> rcases hr2 with rfl | rfl
    · exact id
    · exact absurd h5 (by decide +kernel)
    · exact absurd h5 (by decide +kernel)
    · exact id
  built := ⟨id, fun l => List.Perm.refl l, by decide +kernel⟩

/-- Non-vacuity of `optimal_touches`: for the objective `(1, 2)` the solution `(1, 0)` is optimal with the value 1. -/
example : touchLP.Optimal 1000000 [1, 2] [1, 0] ∧ 0 < objDot [1, 2] [1, 0] := by
  refine ⟨⟨by unfold BuiltLP.Feas; decide +kernel, fun β h => ?_⟩, by decide +kernel⟩
  obtain ⟨hl, hb, hr⟩ := h
  match β, hl with
  | [a, b], _ =>
    have h1 := (hb 1 (by simp [touchLP])).1
    have h2 := hr ([(0, 1), (1, 1)], 1) (by simp [touchLP])
    simp [touchLP] at h1
    simp [sdot] at h2
    simp [objDot]
    rcases h1 with h1 | h1 <;> linarith

/-- Non-vacuity of `extreme_touches`. -/
example : touchLP.Extreme 1000000 [1, 0] ∧ collectedTerms none touchOuts ≠ [] := by
  refine ⟨⟨by unfold BuiltLP.Feas; decide +kernel, fun β₁ β₂ h1 h2 hm => ?_⟩, by decide +kernel⟩
  obtain ⟨hl, hb, hr⟩ := h1
  obtain ⟨hl', hb', hr'⟩ := h2
  match β₁, hl, β₂, hl' with
  | [a, b], _, [c, d], _ =>
    have q1 := (hb 1 (by simp [touchLP])).1
    have q2 := (hb' 1 (by simp [touchLP])).1
    have q3 := hr ([(0, 1), (1, 1)], 1) (by simp [touchLP])
    have q4 := hr' ([(0, 1), (1, 1)], 1) (by simp [touchLP])
    have m0 := hm 0
    have m1 := hm 1
    simp [touchLP] at q1 q2
    simp [sdot] at q3 q4
    simp at m0 m1
    have q1' : 0 ≤ b := by rcases q1 with h | h <;> linarith
    have q2' : 0 ≤ d := by rcases q2 with h | h <;> linarith
    rw [show a = 1 by linarith, show b = 0 by linarith, show c = 1 by linarith, show d = 0 by linarith]

/-- Non-vacuity of `run_touches`. -/
example : ∃ st, StrongRun Tri.sW 1000000 1 2 (collectedTerms none Tri.twoOuts) Tri.L st ∧
    Built 1000000 (1/1000) 1 2 none Tri.twoOuts Tri.L ∧
    (∃ a ∈ st.log, a.lp.eqRow = none ∧ a.sol? = some [3/4, 1/2]) ∧
    (∃ a ∈ st.log, a.lp.eqRow = some 0 ∧ a.sol? = some [1/2, 1/2]) := by
  obtain ⟨st, h, -, ⟨a, ha, -, h1, h2⟩, ⟨b, hb, -, h3, h4⟩, -⟩ := Tri.strong_run_ex
  exact ⟨st, h, Tri.twoBuilt, ⟨a, ha, h1, h2⟩, ⟨b, hb, h3, h4⟩⟩

/-- **C155.** The exception is possible: without an extreme solution a value of 0 may go with a cut that touches nothing. -/
theorem untouched_optimal : touchLP.Optimal 1000000 [0, 1] [2, 0] ∧ collectedTerms none touchOuts ≠ [] ∧
    ¬ Touches 2 (collectedTerms none touchOuts) (expand touchLP.nz [2, 0]) 1 := by
  refine ⟨⟨by unfold BuiltLP.Feas; decide +kernel, fun β h => ?_⟩, by decide +kernel, ?_⟩
  · obtain ⟨hl, hb, -⟩ := h
    match β, hl with
    | [a, b], _ =>
      have h1 := (hb 1 (by simp [touchLP])).1
      simp [touchLP] at h1
      simp [objDot]
      rcases h1 with h1 | h1 <;> linarith
  · rintro ⟨t, ht, he⟩
    rw [ddot_point (by revert t; decide +kernel)] at he
    revert ht he
    simp only [collectedTerms, touchOuts, List.nil_append, List.filterMap_cons, List.filterMap_nil, List.mem_singleton]
    rintro rfl
    decide +kernel

end VPC
