import Verif.Props.NoCut

/-!
# C149: a point that is not cut off cannot be cut off
-/
namespace VPC
open Finset

/-- The segment from the LP optimum (the origin) to `p` has a point in the closed hull. -/
def SegmentMeets (terms : List (SVec × List SVec)) (p : SVec) : Prop :=
  ∃ θ : ℚ, 0 ≤ θ ∧ θ ≤ 1 ∧ InClosedHull terms (fun j => θ * scoef p j)

/-- The rows with the right-hand side moved to the left, as coefficient of variable `n`. -/
def homRow (n : ℕ) (r : PRow) : Ineq := (fun j => if j = n then -r.rhs else scoef r.vec j, 0)

/-- `γ ≥ 1` and `γ - α · p ≥ 1`. -/
def sepRows (n : ℕ) (p : SVec) : List Ineq :=
  [(fun j => if j = n then 1 else 0, 1), (fun j => if j = n then 1 else -scoef p j, 1)]

theorem derived_split {n : ℕ} {p : SVec} {rows : List PRow} {r : Ineq}
    (h : Ineq.Derived (rows.map (homRow n) ++ sepRows n p) r) :
    ∃ a c : ℚ, ∃ d : Ineq, 0 ≤ a ∧ 0 ≤ c ∧ Ineq.Derived (rows.map fun r => (scoef r.vec, r.rhs * 1)) d ∧
      r.2 = a + c ∧ r.1 n = a + c - d.2 ∧ ∀ j, j ≠ n → r.1 j = d.1 j - c * scoef p j := by
  induction h with
  | zero => exact ⟨0, 0, _, le_refl _, le_refl _, .zero, by simp, by simp, by simp⟩
  | mem hr =>
    rcases List.mem_append.1 hr with hr | hr
    · obtain ⟨q, hq, rfl⟩ := List.mem_map.1 hr
      exact ⟨0, 0, _, le_refl _, le_refl _, .mem (List.mem_map.2 ⟨q, hq, rfl⟩), by simp [homRow], by simp [homRow],
        fun j hj => by simp [homRow, hj]⟩
    · unfold sepRows at hr
      simp only [List.mem_cons, List.not_mem_nil, or_false] at hr
      rcases hr with rfl | rfl
      · exact ⟨1, 0, _, by norm_num, le_refl _, .zero, by simp, by simp, fun j hj => by simp [hj]⟩
      · exact ⟨0, 1, _, le_refl _, by norm_num, .zero, by simp, by simp, fun j hj => by simp [hj]⟩
  | add _ _ h1 h2 =>
    obtain ⟨a1, c1, d1, ha1, hc1, hd1, e1, f1, g1⟩ := h1
    obtain ⟨a2, c2, d2, ha2, hc2, hd2, e2, f2, g2⟩ := h2
    refine ⟨a1 + a2, c1 + c2, _, add_nonneg ha1 ha2, add_nonneg hc1 hc2, hd1.add hd2, ?_, ?_, fun j hj => ?_⟩
    · dsimp only; rw [e1, e2]; ring
    · dsimp only; rw [f1, f2]; ring
    · dsimp only; rw [g1 j hj, g2 j hj]; ring
  | @mul r k hk _ h1 =>
    obtain ⟨a1, c1, d1, ha1, hc1, hd1, e1, f1, g1⟩ := h1
    refine ⟨k * a1, k * c1, _, mul_nonneg hk ha1, mul_nonneg hk hc1, hd1.mul hk, ?_, ?_, fun j hj => ?_⟩
    · dsimp only; rw [e1]; ring
    · dsimp only; rw [f1]; ring
    · dsimp only; rw [g1 j hj]; ring

/-- If no solution of the rows cuts off `p`, the segment from the origin to `p` meets the closed hull. -/
theorem rows_meet {n : ℕ} {ip : Option (SVec × ℚ)} {outs : List TermOutcome} {scale : ℚ} (hscale : 0 < scale)
    (hidx : ∀ r ∈ setupConstraints false ip outs, ∀ e ∈ r.vec, e.1 < n) {p : SVec} (hp : ∀ e ∈ p, e.1 < n)
    (hno : ∀ α : Vec, (∀ r ∈ setupConstraints false ip outs, RowOK scale α r) → scale ≤ sdot p α) :
    SegmentMeets (collectedTerms ip outs) p := by
  set rows := setupConstraints false ip outs with hrows
  have hsum : ∀ (v : SVec) (x : Vec) (b s : ℚ), (∀ e ∈ v, e.1 < n) →
      ∑ j ∈ range (n + 1), (if j = n then b else s * scoef v j) * x j = s * sdot v x + b * x n := by
    intro v x b s hv
    rw [sum_range_succ, if_pos rfl, sdot_eq_sum n v x hv, mul_sum]
    congr 1
    refine sum_congr rfl fun j hj => ?_
    rw [if_neg (by have := mem_range.1 hj; omega)]
    ring
  obtain ⟨r, hr, hz, hb⟩ := no_solution_derives (n + 1) (rows.map (homRow n) ++ sepRows n p) fun x => by
    by_contra hc
    have hall : ∀ s ∈ rows.map (homRow n) ++ sepRows n p, Ineq.Holds (n + 1) s x := fun s hs => by
      by_contra hn
      exact hc ⟨s, hs, hn⟩
    have h1 : 1 ≤ x n := by
      have := hall (fun j => if j = n then 1 else 0, 1) (by simp [sepRows])
      unfold Ineq.Holds at this
      simpa using this
    have h2 : sdot p x + 1 ≤ x n := by
      have := hall (fun j => if j = n then 1 else -scoef p j, 1) (by simp [sepRows])
      unfold Ineq.Holds at this
      have e := hsum p x 1 (-1) hp
      simp only [neg_one_mul] at e
      dsimp only at this
      rw [e] at this
      linarith
    have h3 : ∀ q ∈ rows, q.rhs * x n ≤ sdot q.vec x := by
      intro q hq
      have := hall (homRow n q) (List.mem_append_left _ (List.mem_map.2 ⟨q, hq, rfl⟩))
      unfold Ineq.Holds homRow at this
      have e := hsum q.vec x (-q.rhs) 1 (hidx q hq)
      simp only [one_mul] at e
      dsimp only at this
      rw [e] at this
      linarith
    have hx : 0 < x n := by linarith
    have hs : ∀ v : SVec, sdot v (fun j => scale / x n * x j) = scale / x n * sdot v x := by
      intro v
      unfold sdot
      rw [← List.sum_map_mul_left]
      congr 1
      exact List.map_congr_left fun e _ => by ring
    have := hno (fun j => scale / x n * x j) fun q hq => by
      unfold RowOK
      rw [hs]
      have := mul_le_mul_of_nonneg_left (h3 q hq) (by positivity : 0 ≤ scale / x n)
      calc q.rhs * scale = scale / x n * (q.rhs * x n) := by field_simp
        _ ≤ _ := this
    rw [hs] at this
    have h4 : scale / x n * sdot p x < scale / x n * x n := mul_lt_mul_of_pos_left (by linarith) (by positivity)
    rw [div_mul_cancel₀ _ hx.ne'] at h4
    linarith
  obtain ⟨a, c, d, ha, hc, hd, e, f, g⟩ := derived_split hr
  have hd2 : d.2 = a + c := by have := hz n (by omega); rw [f] at this; linarith
  have hpos : 0 < d.2 := by rw [hd2, ← e]; exact hb
  have hH := (derived_in_hull (terms := collectedTerms ip outs) (scale := 1) one_pos (by
    intro s hs
    obtain ⟨q, hq, rfl⟩ := List.mem_map.1 hs
    obtain ⟨t, ht, h⟩ := row_of_collected hq
    refine ⟨t, ht, ?_⟩
    rcases h with ⟨h, hb⟩ | ⟨h, hb⟩
    · left; rw [h, hb, one_mul]
    · right; exact ⟨_, h, by rw [hb, zero_mul]⟩) hd).2.2 hpos
  refine ⟨c / d.2, div_nonneg hc hpos.le, by rw [div_le_one hpos, hd2]; linarith, ?_⟩
  convert hH using 2
  rename_i j
  have hdj : d.1 j = c * scoef p j := by
    by_cases hj : j < n
    · have := hz j (by omega)
      rw [g j (by omega)] at this
      linarith
    · have h1 := derived_far (n := n) (by
        intro s hs k hk
        obtain ⟨q, hq, rfl⟩ := List.mem_map.1 hs
        exact scoef_far (hidx q hq) hk) hd j (by omega)
      rw [h1, scoef_far hp (by omega), mul_zero]
  rw [hdj]
  ring

/-- Every valid inequality holds on the closed hull. -/
theorem valid_on_closed {n : ℕ} {terms : List (SVec × List SVec)} (hi : IdxBelow n terms) {α : Vec} {γ : ℚ}
    (hv : ValidCut n terms α γ) {y : Vec} (hy : InClosedHull terms y) : γ ≤ ddot n α y := by
  have hrows := (hull_valid_iff n terms α γ hi).1 hv
  have hd : ∀ v : SVec, (∀ e ∈ v, e.1 < n) → ddot n α (scoef v) = sdot v α := by
    intro v hv
    rw [sdot_eq_sum n v α hv]
    exact sum_congr rfl fun j _ => by ring
  induction hy with
  | point ht => rw [hd _ (hi _ ht).1]; exact (hrows _ ht).1
  | @mix y z l _ _ h0 h1 h2 h3 =>
    have : ddot n α (fun i => l * y i + (1 - l) * z i) = l * ddot n α y + (1 - l) * ddot n α z := by
      unfold ddot
      rw [mul_sum, mul_sum, ← sum_add_distrib]
      exact sum_congr rfl fun j _ => by ring
    rw [this]
    nlinarith
  | @ray y t r c _ ht hr h0 h1 =>
    have : ddot n α (fun i => y i + c * scoef r i) = ddot n α y + c * sdot r α := by
      rw [← hd r ((hi t ht).2 r hr)]
      unfold ddot
      rw [mul_sum, ← sum_add_distrib]
      exact sum_congr rfl fun j _ => by ring
    rw [this]
    have := mul_nonneg h0 ((hrows t ht).2 r hr)
    linarith

/-- **C149.** If the cut of an optimal solution for a point `p` taken as objective does not cut off `p`, then no cut does: every
inequality that is valid for the disjunctive hull and cuts off the LP optimum is satisfied by `p`; and the segment from the LP
optimum to `p` meets the closed hull of the points and rays collected. -/
theorem not_cut_off_meets {sortP : List PRow → List PRow} (hsort : ∀ l, (sortP l).Perm l) {INF DIFFEPS scale : ℚ}
    {n : ℕ} {ip : Option (SVec × ℚ)} {outs : List TermOutcome} (hscale : 0 < scale)
    (hwf : WellFormed scale n (setupConstraints false ip outs)) (hi : IdxBelow n (collectedTerms ip outs))
    {L : BuiltLP} (hL : prlpSetup sortP INF DIFFEPS scale n (setupConstraints false ip outs) = some L)
    {p : SVec} (hpn : ∀ e ∈ p, e.1 < n) (hp : ∀ e ∈ p, e.1 ∈ L.nz) {β : List ℚ}
    (hopt : L.Optimal INF (L.nz.map (scoef p)) β) (hnc : scale ≤ sdot p (expand L.nz β)) :
    SegmentMeets (collectedTerms ip outs) p ∧
      ∀ α γ, 0 < γ → ValidCut n (collectedTerms ip outs) α γ → γ ≤ sdot p α := by
  have h1 : ∀ α : Vec, (∀ r ∈ setupConstraints false ip outs, RowOK scale α r) → scale ≤ sdot p α := by
    intro α hα
    by_contra hlt
    have hv : ValidCut n (collectedTerms ip outs) α scale := by
      refine (hull_valid_iff n _ α scale hi).2 fun t ht => ?_
      unfold collectedTerms at ht
      rcases List.mem_append.1 ht with ht | ht
      · cases ip with
        | none => simp at ht
        | some q =>
          simp only [List.mem_singleton] at ht
          subst ht
          have := hα ⟨q.1, 1, q.2⟩ (by simp [setupConstraints])
          unfold RowOK at this
          exact ⟨by simpa using this, by simp⟩
      · obtain ⟨o, ho, hto⟩ := List.mem_filterMap.1 ht
        cases o with
        | infeasible => simp at hto
        | notOptimal => simp at hto
        | timeLimit => simp at hto
        | collected q d rays =>
          simp only [Option.some.injEq] at hto
          subst hto
          have hmem : ∀ r ∈ termRows false (.collected q d rays), RowOK scale α r := fun r hr =>
            hα r (List.mem_append_right _ (List.mem_flatMap.2 ⟨_, ho, hr⟩))
          refine ⟨?_, fun r hr => ?_⟩
          · have := hmem ⟨q, 1, d⟩ (by simp [termRows])
            unfold RowOK at this
            simpa using this
          · obtain ⟨w, hw, rfl⟩ := List.mem_map.1 hr
            by_cases he : w.1 = []
            · rw [he]; simp [sdot]
            · have := hmem ⟨w.1, 0, w.2⟩ (by
                simp only [termRows, List.mem_cons, List.mem_map, List.mem_filter]
                exact Or.inr ⟨w, ⟨hw, by simpa using he⟩, rfl⟩)
              unfold RowOK at this
              simpa using this
    have := (optimal_strongest_at hsort hwf hi hL hp hopt hv).1
    linarith [not_le.1 hlt]
  refine ⟨rows_meet hscale hwf.idx hpn h1, fun α γ hγ hv => ?_⟩
  have hv' := valid_scaled hv (c := scale / γ) (by positivity)
  rw [div_mul_cancel₀ _ hγ.ne'] at hv'
  have := h1 _ (rows_ok_of_valid hi hv')
  have hs : sdot p (fun j => scale / γ * α j) = scale / γ * sdot p α := by
    unfold sdot
    rw [← List.sum_map_mul_left]
    congr 1
    exact List.map_congr_left fun e _ => by ring
  rw [hs] at this
  have h2 : scale / γ * γ ≤ scale / γ * sdot p α := by rw [div_mul_cancel₀ _ hγ.ne']; exact this
  exact le_of_mul_le_mul_left h2 (by positivity)

/-- **C149, converse.** If the segment from the LP optimum to `p` meets the closed hull, no inequality that is valid for the
disjunctive hull and cuts off the LP optimum cuts off `p`. -/
theorem meets_not_cut_off {n : ℕ} {terms : List (SVec × List SVec)} (hi : IdxBelow n terms) {p : SVec}
    (hpn : ∀ e ∈ p, e.1 < n) (h : SegmentMeets terms p) {α : Vec} {γ : ℚ} (hγ : 0 < γ) (hv : ValidCut n terms α γ) :
    γ ≤ sdot p α := by
  obtain ⟨θ, h0, h1, hθ⟩ := h
  have h2 := valid_on_closed hi hv hθ
  have e : ddot n α (fun j => θ * scoef p j) = θ * sdot p α := by
    rw [sdot_eq_sum n p α hpn]
    unfold ddot
    rw [mul_sum]
    exact sum_congr rfl fun j _ => by ring
  rw [e] at h2
  by_contra hlt
  have hlt := not_le.1 hlt
  rcases le_or_gt (sdot p α) 0 with hs | hs
  · have := mul_nonpos_of_nonneg_of_nonpos h0 hs
    linarith
  · have := mul_le_of_le_one_left hs.le h1
    linarith

/-- One term: the point `(1, 1)` with the rays `(0, 1)` and `(1, 0)`. -/
def sepOuts : List TermOutcome := [.collected [(0, 1), (1, 1)] 1 [([(1, 1)], 0), ([(0, 1)], 0)]]

/-- Non-vacuity: the cut found for the point `(2, 2)` is `y₀ ≥ 1`, it does not cut off the point, and no cut does. -/
example : SegmentMeets (collectedTerms none sepOuts) [(0, 2), (1, 2)] ∧
    ∀ α γ, 0 < γ → ValidCut 2 (collectedTerms none sepOuts) α γ → γ ≤ sdot [(0, 2), (1, 2)] α := by
  have hL : prlpSetup id dblMax (1/1000) 1 2 (setupConstraints false none sepOuts) =
      some ⟨[0, 1], [0, 0], [dblMax, dblMax], [([(0, 1), (1, 1)], 1)]⟩ := by decide +kernel
  refine not_cut_off_meets (β := [1, 0]) (fun l => List.Perm.refl l) one_pos ⟨by decide +kernel, ?_, by decide +kernel⟩
    (by unfold IdxBelow; decide +kernel) hL (by decide) (by decide) ⟨by unfold BuiltLP.Feas; decide +kernel, fun β h => ?_⟩
    (by decide +kernel)
  · intro r hr j c hv h0
    have : r ∈ [⟨[(0, 1), (1, 1)], 1, 1⟩, ⟨[(1, 1)], 0, 0⟩, (⟨[(0, 1)], 0, 0⟩ : PRow)] := hr
    simp only [List.mem_cons, List.not_mem_nil, or_false] at this
    rcases this with rfl | rfl | rfl
    · norm_num at h0
    · simp only [List.cons.injEq, Prod.mk.injEq] at hv
      obtain ⟨⟨-, rfl⟩, -⟩ := hv
      norm_num [defEps]
    · simp only [List.cons.injEq, Prod.mk.injEq] at hv
      obtain ⟨⟨-, rfl⟩, -⟩ := hv
      norm_num [defEps]
  · obtain ⟨hl, -, hr⟩ := h
    have e : [0, 1].map (scoef [(0, 2), (1, 2)]) = [2, 2] := by decide +kernel
    show objDot ([0, 1].map (scoef [(0, 2), (1, 2)])) _ ≤ objDot ([0, 1].map (scoef [(0, 2), (1, 2)])) _
    rw [e]
    match β, hl with
    | [a, b], _ =>
      have h1 := hr ([(0, 1), (1, 1)], 1) (by simp)
      simp [sdot] at h1
      simp [objDot]
      linarith

end VPC
