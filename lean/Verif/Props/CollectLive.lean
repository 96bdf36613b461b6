import Verif.Props.EndToEndEx
import Mathlib.LinearAlgebra.Matrix.NonsingularInverse

/-!
# C129: the internal consistency checks do not end a correct run

While the point-ray collection is made (`genDepth1PRCollection`, `setupConstraints`), every point and every
ray is compared with the objective value reported by the LP solver and the process is ended if they differ.
-/
namespace VPC
open Finset

/-! ## Specification -/

/-- Signed distance of the nonbasic variable `k` from the bound it is at in the original basis. -/
def signedCoor (V : Relax) (o : NBData) (x : Vec) (k : ℕ) : ℚ :=
  (if o.isUB k then -1 else 1) * (varVal V x k - baseVal V o k)

/-- The numbers `rc` are the reduced costs of the basis: they give the change of the objective function at every
point, in terms of the distances of the nonbasic variables from their bounds. -/
def RcOk (V : Relax) (o : NBData) (cost : Vec) : Prop :=
  ∀ x, ddot o.lp.numCols cost x - ddot o.lp.numCols cost o.sol =
    ∑ i ∈ range o.lp.numCols, o.rc i * signedCoor V o x (o.nb.getD i 0)

/-- The structural part of the direction in which the point moves when the nonbasic variable `j` of the term leaves
its bound. -/
def rayDir (s : TermSol) (j : ℕ) : Vec := fun k => rayDelta j k (s.isUB j) (s.row k) (s.tab j)

/-- The LP solver reports the true objective values of an optimal basis of the term: the value of the solution,
every row has its basic variable, and the reduced cost of each nonbasic variable is the slope of the objective along
its ray, which is nonnegative. -/
structure TermObjOk (Q : Relax) (o : NBData) (s : TermSol) (cost : Vec) : Prop where
  obj : s.obj - o.obj = ddot o.lp.numCols cost s.x - ddot o.lp.numCols cost o.sol
  full : ∀ r < Q.rows.length, ∃ b < Q.lo.length + Q.rows.length, s.row b = some r
  slope : ∀ j ∈ s.nb, s.isFixed j = false → s.rayObj j = ddot o.lp.numCols cost (rayDir s j)
  opt : ∀ j ∈ s.nb, s.isFixed j = false → 0 ≤ s.rayObj j

/-! ## What dropping small numbers does to the objective value -/

theorem dotRC_eq_sdot (rc : Vec) (v : SVec) : dotRC rc v = sdot v rc := rfl

theorem packed_error {base : SVec} {vals : List ℚ} {rc : Vec} {EPS THR ov : ℚ}
    (hnd : (base.map (·.1)).Nodup)
    (htrue : ∀ e ∈ base, vals[e.1]? = some e.2)
    (hbig : ∀ (i : ℕ) (v : ℚ), vals[i]? = some v → THR ≤ |v| → (i, v) ∈ base)
    (htiny : ∀ (i : ℕ) (v : ℚ), vals[i]? = some v → |v| < THR → THR ≤ |v * rc i| → (i, v) ∉ base →
      |dotRC rc base - ov| < EPS) (hT : 0 ≤ THR) :
    |dotRC rc base - ov| < EPS ∨
    |dotRC rc base - ∑ i ∈ range vals.length, rc i * vals.getD i 0| ≤ vals.length * THR := by
  by_cases hm : |dotRC rc base - ov| < EPS
  · exact .inl hm
  right
  have hlt : ∀ e ∈ base, e.1 < vals.length := by
    intro e he
    have := htrue e he
    by_contra hc
    rw [List.getElem?_eq_none (by omega)] at this
    cases this
  rw [dotRC_eq_sdot, sdot_eq_sum vals.length base rc hlt, ← sum_sub_distrib]
  refine le_trans (abs_sum_le_sum_abs _ _) ?_
  have hstep : ∀ i ∈ range vals.length, |scoef base i * rc i - rc i * vals.getD i 0| ≤ THR := by
    intro i hi
    rw [mem_range] at hi
    have hv : vals[i]? = some vals[i] := List.getElem?_eq_getElem hi
    rw [List.getD_eq_getElem?_getD, hv, Option.getD_some]
    by_cases hin : (i, vals[i]) ∈ base
    · rw [scoef_of_mem_nodup hnd hin, mul_comm, sub_self, abs_zero]; exact hT
    · rw [scoef_eq_zero_of_forall_ne (v := base) (i := i) (by
        rintro ⟨a, b⟩ he hab
        have h1 := htrue _ he
        simp only at h1 hab
        rw [hab, hv, Option.some.injEq] at h1
        exact hin (by rw [h1, ← hab]; exact he))]
      rw [zero_mul, zero_sub, abs_neg, mul_comm]
      by_contra hc
      rw [not_le] at hc
      by_cases hb : THR ≤ |vals[i]|
      · exact hin (hbig i _ hv hb)
      · exact hm (htiny i _ hv (not_le.1 hb) hc.le hin)
  refine le_trans (sum_le_sum hstep) ?_
  rw [sum_const, card_range, nsmul_eq_mul]

/-! ## Rays -/

/-- With a complete basis, moving along a ray keeps the equations: the change of a slack is minus the change of the
activity of its row. -/
theorem rayDir_slack {Q : Relax} {s : TermSol} (hidx : Q.Idx) (hs : TermSolOk Q s)
    (hfull : ∀ r < Q.rows.length, ∃ b < Q.lo.length + Q.rows.length, s.row b = some r)
    {j : ℕ} (hj : j ∈ s.nb) {r : ℕ} (hr : r < Q.rows.length) :
    rayDir s j (Q.lo.length + r) = - sdot (Q.row r).coeffs (rayDir s j) := by
  obtain ⟨Binv, hB, htab⟩ := hs.basis
  set n := Q.lo.length with hn
  set m := Q.rows.length with hm
  obtain ⟨hjlt, hjrow⟩ := (hs.nb j).1 hj
  choose! b hb1 hb2 using hfull
  let N : Matrix (Fin m) (Fin m) ℚ := fun r i => Binv r i
  let B : Matrix (Fin m) (Fin m) ℚ := fun i r => sysCol Q (b r) i
  have hNB : N * B = 1 := by
    ext r r'
    rw [Matrix.mul_apply, Matrix.one_apply]
    have h := hB.unit (b r') (hb1 r' r'.2) r' (hb2 r' r'.2) r r.2
    rw [← Fin.sum_univ_eq_sum_range (fun i => Binv r i * sysCol Q (b r') i) m] at h
    rw [h]
    simp [Fin.ext_iff]
  have hBN : B * N = 1 := mul_eq_one_comm.1 hNB
  let d : ℕ → ℚ := rayDir s j
  let step : ℚ := if s.isUB j then -1 else 1
  have hd : ∀ k, d k = if k = j then step else match s.row k with
      | some r => - (tabCol m (sysCol Q) Binv j r) * step
      | none => 0 := by
    intro k
    show rayDelta j k (s.isUB j) (s.row k) (s.tab j) = _
    unfold rayDelta
    rw [htab j hj]
    rfl
  have hkey : ∀ i < m, ∑ k ∈ range (n + m), sysCol Q k i * d k = 0 := by
    intro i hi
    -- split into the column itself and the basic columns
    rw [← sum_filter_add_sum_filter_not (range (n + m)) (fun k => s.row k = none)]
    have h1 : ∑ k ∈ (range (n + m)).filter (fun k => s.row k = none), sysCol Q k i * d k =
        sysCol Q j i * step := by
      rw [sum_eq_single j]
      · rw [hd, if_pos rfl]
      · intro k hk hkj
        rw [mem_filter] at hk
        rw [hd, if_neg hkj, hk.2, mul_zero]
      · intro h
        exact absurd (mem_filter.2 ⟨mem_range.2 hjlt, hjrow⟩) h
    have h2 : ∑ k ∈ (range (n + m)).filter (fun k => ¬ s.row k = none), sysCol Q k i * d k =
        ∑ r ∈ range m, sysCol Q (b r) i * (- (tabCol m (sysCol Q) Binv j r) * step) := by
      symm
      refine sum_bij (fun r _ => b r) ?_ ?_ ?_ ?_
      · intro r hr
        rw [mem_range] at hr
        exact mem_filter.2 ⟨mem_range.2 (hb1 r hr), by rw [hb2 r hr]; simp⟩
      · intro r hr r' hr' h
        rw [mem_range] at hr hr'
        have := hb2 r hr
        rw [h, hb2 r' hr'] at this
        simpa using this.symm
      · intro k hk
        rw [mem_filter, mem_range] at hk
        obtain ⟨r, hkr⟩ := Option.ne_none_iff_exists'.1 hk.2
        have hrm := hB.row k hk.1 r hkr
        exact ⟨r, mem_range.2 hrm, hB.inj _ (hb1 r hrm) _ hk.1 r (hb2 r hrm) hkr⟩
      · intro r hr
        rw [mem_range] at hr
        rw [hd, if_neg (by
          intro h
          have := hb2 r hr
          rw [h, hjrow] at this
          cases this), hb2 r hr]
    rw [h1, h2]
    have h3 : ∑ r ∈ range m, sysCol Q (b r) i * (- (tabCol m (sysCol Q) Binv j r) * step) =
        - (∑ i' ∈ range m, (∑ r ∈ range m, sysCol Q (b r) i * Binv r i') * sysCol Q j i') * step := by
      unfold tabCol
      rw [← sum_neg_distrib, sum_mul]
      have : ∀ i' ∈ range m, -((∑ r ∈ range m, sysCol Q (b r) i * Binv r i') * sysCol Q j i') * step =
          ∑ r ∈ range m, -(sysCol Q (b r) i * Binv r i' * sysCol Q j i') * step := by
        intro i' _
        rw [sum_mul, ← sum_neg_distrib, sum_mul]
      rw [sum_congr rfl this, sum_comm]
      refine sum_congr rfl fun r _ => ?_
      rw [← sum_neg_distrib, sum_mul, mul_sum]
      refine sum_congr rfl fun i' _ => ?_
      ring
    have h4 : ∀ i' < m, ∑ r ∈ range m, sysCol Q (b r) i * Binv r i' = if i = i' then 1 else 0 := by
      intro i' hi'
      have h := congrFun (congrFun hBN ⟨i, hi⟩) ⟨i', hi'⟩
      rw [Matrix.mul_apply, Matrix.one_apply] at h
      rw [← Fin.sum_univ_eq_sum_range (fun r => sysCol Q (b r) i * Binv r i') m]
      simpa [Fin.ext_iff] using h
    rw [h3]
    have h5 : ∑ i' ∈ range m, (∑ r ∈ range m, sysCol Q (b r) i * Binv r i') * sysCol Q j i' = sysCol Q j i := by
      rw [sum_eq_single i]
      · rw [h4 i hi, if_pos rfl, one_mul]
      · intro i' hi' hne
        rw [h4 i' (mem_range.1 hi'), if_neg (Ne.symm hne), zero_mul]
      · intro h; exact absurd (mem_range.2 hi) h
    rw [h5]; ring
  have h := hkey r hr
  rw [sum_range_add] at h
  have hmem : Q.row r ∈ Q.rows := by
    unfold Relax.row
    rw [List.getD_eq_getElem?_getD, List.getElem?_eq_getElem hr]
    exact List.getElem_mem hr
  have e1 : ∑ k ∈ range n, sysCol Q k r * d k = sdot (Q.row r).coeffs d := by
    rw [sdot_eq_sum n _ d (hidx _ hmem)]
    refine sum_congr rfl fun k hk => ?_
    rw [mem_range] at hk
    simp only [sysCol]
    rw [if_pos hk]
  have e2 : ∑ k ∈ range m, sysCol Q (n + k) r * d (n + k) = d (n + r) := by
    rw [sum_eq_single r]
    · simp [sysCol, ← hn]
    · intro k _ hk
      have : ¬ (n + k = n + r) := by omega
      simp [sysCol, ← hn, hk]
    · intro h; exact absurd (mem_range.2 hr) h
  rw [e1, e2] at h
  show d (n + r) = - sdot (Q.row r).coeffs d
  linarith

theorem sdot_add (v : SVec) (x y : Vec) : sdot v (fun k => x k + y k) = sdot v x + sdot v y := by
  induction v with
  | nil => simp
  | cons e v ih => rw [sdot_cons, sdot_cons, sdot_cons, ih]; ring

theorem ddot_add (n : ℕ) (c x y : Vec) : ddot n c (fun k => x k + y k) = ddot n c x + ddot n c y := by
  unfold ddot
  rw [← sum_add_distrib]
  exact sum_congr rfl fun k _ => by ring

/-- The objective slope along the ray, computed from the coordinates of the ray in the nonbasic space. -/
theorem ray_slope {V Q : Relax} {o : NBData} {s : TermSol} {cost : Vec} (hV : NBOk V o) (hQ : Refines V Q)
    (hidx : Q.Idx) (hs : TermSolOk Q s) (hrc : RcOk V o cost)
    (hfull : ∀ r < Q.rows.length, ∃ b < Q.lo.length + Q.rows.length, s.row b = some r)
    {j : ℕ} (hj : j ∈ s.nb) :
    ddot o.lp.numCols cost (rayDir s j) = ∑ i ∈ range (rayVals o s j).length, o.rc i * (rayVals o s j).getD i 0 := by
  have h0 := hrc o.sol
  have h1 := hrc (fun k => o.sol k + rayDir s j k)
  rw [ddot_add] at h1
  have hlen : (rayVals o s j).length = o.lp.numCols := by
    rw [rayVals, List.length_map, hV.len]
  rw [hlen]
  have h2 : ddot o.lp.numCols cost (rayDir s j) =
      ∑ i ∈ range o.lp.numCols, (o.rc i * signedCoor V o (fun k => o.sol k + rayDir s j k) (o.nb.getD i 0) -
        o.rc i * signedCoor V o o.sol (o.nb.getD i 0)) := by
    rw [sum_sub_distrib]; linarith
  rw [h2]
  refine sum_congr rfl fun i hi => ?_
  rw [mem_range] at hi
  have hil : i < o.nb.length := by rw [hV.len]; exact hi
  rw [← mul_sub]
  congr 1
  have hg : o.nb.getD i 0 = o.nb[i] := by
    rw [List.getD_eq_getElem?_getD, List.getElem?_eq_getElem hil, Option.getD_some]
  have hv : (rayVals o s j).getD i 0 = rayCoor j o.nb[i] (s.isUB j) (o.isUB o.nb[i]) (s.row o.nb[i])
      (genRay (s.isLB j) (s.tab j)) := by
    rw [List.getD_eq_getElem?_getD, rayVals, List.getElem?_map, List.getElem?_eq_getElem hil]
    rfl
  rw [hv, hg, rayCoor_exact _ _ _ _ _ _ _ (hs.one j hj)]
  set k := o.nb[i] with hk
  have hkm : k ∈ o.nb := List.getElem_mem hil
  have hklt := hV.lt k hkm
  unfold signedCoor
  rw [← mul_sub]
  congr 1
  show _ = rayDir s j k
  unfold varVal
  by_cases hc : k < V.lo.length
  · simp only [if_pos hc]; ring
  · simp only [if_neg hc]
    have hr : k - V.lo.length < V.rows.length := by omega
    have hrQ : k - V.lo.length < Q.rows.length := by
      obtain ⟨t, ht⟩ := hQ.rows
      rw [← ht, List.length_append]; omega
    have hsl := rayDir_slack hidx hs hfull hj hrQ
    rw [hQ.cols, hQ.row hr] at hsl
    rw [show V.lo.length + (k - V.lo.length) = k by omega] at hsl
    rw [sdot_add, hsl]; ring

/-! ## The checks -/

theorem pointCheck_passes {E : NumEnv} {got viol : ℚ} (hE : E.EPS ≤ E.DIFFEPS)
    (h : |got - viol| < E.EPS ∨ |got - viol| < E.DIFFEPS) : pointCheckExits E got viol = false := by
  have h' : |got - viol| < E.DIFFEPS := by rcases h with h | h <;> linarith
  unfold pointCheckExits
  split
  · rfl
  · have : isVal (got - viol) 0 E.DIFFEPS = true := by rw [isVal_iff, sub_zero]; exact h'
    rw [this]; rfl

theorem rayCheck_passes {E : NumEnv} {got viol : ℚ} (hE : E.EPS ≤ E.DIFFEPS) (hv : 0 ≤ viol)
    (h : |got - viol| < E.EPS ∨ |got - viol| < E.DIFFEPS) :
    rayCheckExits E got viol = false ∧ rayStoreExits E got viol = false := by
  have h' : |got - viol| < E.DIFFEPS := by rcases h with h | h <;> linarith
  have h1 : lessThanVal got 0 E.DIFFEPS = false := by
    rw [Bool.eq_false_iff]
    intro hc
    rw [lessThanVal_iff] at hc
    have := (abs_lt.1 h').1
    linarith
  have h2 : isVal got viol E.DIFFEPS = true := by rw [isVal_iff]; exact h'
  have h3 : isVal viol got E.DIFFEPS = true := by rw [isVal_iff, abs_sub_comm]; exact h'
  unfold rayCheckExits rayStoreExits
  rw [h1, h2, h3]
  simp

/-- Sum over the nonbasic space of the true coordinates of a feasible point. -/
theorem point_value {V Q : Relax} {o : NBData} {cost : Vec} (hV : NBOk V o) (hQ : Refines V Q)
    (hrc : RcOk V o cost) {x : Vec} (hx : Q.Feas x) :
    ∑ i ∈ range (o.nb.map (compCoor o.lp o.sol x)).length, o.rc i * (o.nb.map (compCoor o.lp o.sol x)).getD i 0 =
      ddot o.lp.numCols cost x - ddot o.lp.numCols cost o.sol := by
  rw [hrc x, List.length_map, hV.len]
  refine sum_congr rfl fun i hi => ?_
  rw [mem_range] at hi
  have hil : i < o.nb.length := by rw [hV.len]; exact hi
  rw [List.getD_eq_getElem?_getD, List.getElem?_map, List.getD_eq_getElem?_getD, List.getElem?_eq_getElem hil]
  simp only [Option.map_some, Option.getD_some]
  rw [(coor_signed hV hQ hx (List.getElem_mem hil)).2]
  unfold signedCoor
  congr 2
  have hklt := hV.lt _ (List.getElem_mem hil)
  unfold varVal
  rw [hQ.cols]
  by_cases hc : o.nb[i] < V.lo.length
  · simp only [if_pos hc]
  · simp only [if_neg hc]
    rw [hQ.row (by omega)]

theorem packCoor_objective {E : NumEnv} (hsort : ∀ l, (E.sortDecr l).Perm l) (hE : 0 ≤ E.EPS) (ov : ℚ) (rc : Vec)
    (vals : List ℚ) :
    |dotRC rc (packCoor E.sortDecr E.EPS ov rc vals) - ov| < E.EPS ∨
    |dotRC rc (packCoor E.sortDecr E.EPS ov rc vals) - ∑ i ∈ range vals.length, rc i * vals.getD i 0| ≤
      vals.length * E.EPS := by
  obtain ⟨h1, h2, h3⟩ := packCoor_spec E.sortDecr hsort E.EPS ov rc vals
  exact packed_error (packCoor_nodup E.sortDecr hsort E.EPS ov rc vals) h1 h2 h3 hE

/-- Tolerances as used: the number of columns times the size of dropped numbers stays below the tolerance of the
checks. With the default values this is a problem with fewer than 10000 columns. -/
structure TolOk (E : NumEnv) (n : ℕ) : Prop where
  eps : 0 ≤ E.EPS
  ray : 0 ≤ E.RAYEPS
  le : E.EPS ≤ E.DIFFEPS
  sumEps : n * E.EPS < E.DIFFEPS
  sumRay : n * E.RAYEPS < E.DIFFEPS

/-- **C129, points.** The vertex of a correctly solved term passes the check. -/
theorem collectPoint_live {E : NumEnv} (hsort : ∀ l, (E.sortDecr l).Perm l) {V Q : Relax} {o : NBData} {s : TermSol}
    {cost : Vec} (hV : NBOk V o) (hQ : Refines V Q) (hs : TermSolOk Q s) (hrc : RcOk V o cost)
    (hob : TermObjOk Q o s cost) (ht : TolOk E o.lp.numCols) : ∃ p, collectPoint E o s = .ok p := by
  unfold collectPoint
  dsimp only
  rw [if_neg]
  · exact ⟨_, rfl⟩
  rw [Bool.not_eq_true]
  refine pointCheck_passes ht.le ?_
  have h := packCoor_objective hsort ht.eps (s.obj - o.obj) o.rc (o.nb.map (compCoor o.lp o.sol s.x))
  rw [point_value hV hQ hrc hs.feas, ← hob.obj, List.length_map, hV.len] at h
  rcases h with h | h
  · exact .inl h
  · exact .inr (lt_of_le_of_lt h ht.sumEps)

/-- **C129, rays.** Every ray of a correctly solved term passes the checks. -/
theorem collectRay_live {E : NumEnv} (hsort : ∀ l, (E.sortDecr l).Perm l) {V Q : Relax} {o : NBData} {s : TermSol}
    {cost : Vec} (hV : NBOk V o) (hQ : Refines V Q) (hidx : Q.Idx) (hs : TermSolOk Q s) (hrc : RcOk V o cost)
    (hob : TermObjOk Q o s cost) (ht : TolOk E o.lp.numCols) {j : ℕ} (hj : j ∈ s.nb) (hf : s.isFixed j = false) :
    ∃ r, collectRay E o s j = .ok r := by
  have hspec := packRay_spec E.sortDecr hsort E.expo E.EPS E.RAYEPS (s.rayObj j) o.rc (rayVals o s j)
  dsimp only at hspec
  obtain ⟨hpos, base, hb, hnd, h1, h2, h3⟩ := hspec
  have hgot : dotRC o.rc (packRay E.sortDecr E.expo E.EPS E.RAYEPS (s.rayObj j) o.rc (rayVals o s j)).1 /
      (packRay E.sortDecr E.expo E.EPS E.RAYEPS (s.rayObj j) o.rc (rayVals o s j)).2 = dotRC o.rc base := by
    set p := packRay E.sortDecr E.expo E.EPS E.RAYEPS (s.rayObj j) o.rc (rayVals o s j)
    rw [hb]
    have : dotRC o.rc (base.map fun e => (e.1, e.2 * p.2)) = dotRC o.rc base * p.2 := by
      clear hb hnd h1 h2 h3
      unfold dotRC
      induction base with
      | nil => simp
      | cons e v ih => simp only [List.map_cons, List.sum_cons]; rw [ih]; ring
    rw [this]
    field_simp
  have herr := packed_error hnd h1 h2 h3 ht.ray
  have hsl := ray_slope hV hQ hidx hs hrc hob.full hj
  rw [← hob.slope j hj hf] at hsl
  rw [← hsl, show (rayVals o s j).length = o.lp.numCols by rw [rayVals, List.length_map, hV.len]] at herr
  obtain ⟨hc1, hc2⟩ := rayCheck_passes (E := E) ht.le (hob.opt j hj hf) (by
    rcases herr with h | h
    · exact Or.inl h
    · exact Or.inr (lt_of_le_of_lt h ht.sumRay))
  unfold collectRay
  dsimp only
  rw [hgot, hc1, hc2]
  simp only [Bool.false_eq_true, if_false]
  split
  · exact ⟨_, rfl⟩
  · exact ⟨_, rfl⟩

theorem collectRays_live {E : NumEnv} {o : NBData} {s : TermSol} {js : List ℕ}
    (h : ∀ j ∈ js, s.isFixed j = false → ∃ r, collectRay E o s j = .ok r) : ∃ rs, collectRays E o s js = .ok rs := by
  induction js with
  | nil => exact ⟨[], rfl⟩
  | cons j js ih =>
    obtain ⟨rs, hrs⟩ := ih fun j hj => h j (by simp [hj])
    simp only [collectRays]
    cases hf : s.isFixed j with
    | true => exact ⟨rs, by simpa using hrs⟩
    | false =>
      obtain ⟨r, hr⟩ := h j (by simp) hf
      rw [hr, hrs]
      exact ⟨_, rfl⟩

/-- **C129, terms.** Collecting the vertex and the rays of a correctly solved term never ends the process. -/
theorem genDepth1_live {E : NumEnv} (hsort : ∀ l, (E.sortDecr l).Perm l) {V Q : Relax} {o : NBData} {s : TermSol}
    {cost : Vec} (hV : NBOk V o) (hQ : Refines V Q) (hidx : Q.Idx) (hs : TermSolOk Q s) (hrc : RcOk V o cost)
    (hob : TermObjOk Q o s cost) (ht : TolOk E o.lp.numCols) : ∃ oc, genDepth1 E o s = .ok oc := by
  obtain ⟨p, hp⟩ := collectPoint_live hsort hV hQ hs hrc hob ht
  obtain ⟨rs, hrs⟩ := collectRays_live (E := E) (o := o) (s := s) (js := s.nb) fun j hj hf =>
    collectRay_live hsort hV hQ hidx hs hrc hob ht hj hf
  unfold genDepth1
  rw [hp, hrs]
  exact ⟨_, rfl⟩

/-! ## Whole loop -/

/-- A correct answer for the LP `Q`: not optimal, or optimal with true data; never dual infeasible (the
relaxation solved at the root has an optimal solution). -/
def AnsLive (o : NBData) (cost : Vec) (Q : Relax) : LPAns → Prop
  | .notOptimal => True
  | .dualInfeasible => False
  | .optimal s => TermSolOk Q s ∧ TermObjOk Q o s cost

/-- The outside world of a term answers correctly, and the objective value saved with the term, if any, is the
value found. -/
structure WorldLive (E : NumEnv) (o : NBData) (cost : Vec) (strengthen : Bool) (V : Relax) (w : TermWorld)
    (t : Term) : Prop where
  warm : w.warmOk = true
  lp : ∃ Q, termLP V t = .ok Q
  solve : ∀ Q, termLP V t = .ok Q → AnsLive o cost Q (w.solve Q)
  saved : ∀ Q s, termLP V t = .ok Q → w.solve Q = .optimal s →
    isInfinity t.obj = true ∨ |s.obj - t.obj| < E.DIFFEPS
  gmic : strengthen = true → ∀ Q, termLP V t = .ok Q → ∀ c ∈ w.gmics Q, ∀ e ∈ c.row, e.1 < V.lo.length
  solve2 : strengthen = true → ∀ Q, termLP V t = .ok Q →
    AnsLive o cost (applyIneqs (w.gmics Q) Q) (w.solve2 (applyIneqs (w.gmics Q) Q))

theorem savedObj_passes {D saved new : ℚ} (h : isInfinity saved = true ∨ |new - saved| < D) :
    savedObjExits D saved new = false := by
  unfold savedObjExits
  rcases h with h | h
  · rw [h]; rfl
  · have : isVal new saved D = true := by rw [isVal_iff]; exact h
    rw [this]; simp

theorem finishTerm_live {E : NumEnv} (hsort : ∀ l, (E.sortDecr l).Perm l) {V Q : Relax} {o : NBData}
    {cost : Vec} (hV : NBOk V o) (hrc : RcOk V o cost) (hQ : Refines V Q) (hidx : Q.Idx)
    (htol : TolOk E o.lp.numCols) (w : TermWorld) (t : Term) {s : TermSol} (hs : TermSolOk Q s)
    (hob : TermObjOk Q o s cost) : ∃ r, finishTerm E o w t (some s) = .ok r := by
  unfold finishTerm
  cases w.timeUp with
  | true => exact ⟨_, rfl⟩
  | false =>
    obtain ⟨oc, h⟩ := genDepth1_live hsort hV hQ hidx hs hrc hob htol
    simp only [Bool.false_eq_true, if_false]
    rw [h]
    exact ⟨_, rfl⟩

theorem doTerm_live {E : NumEnv} (hsort : ∀ l, (E.sortDecr l).Perm l) {V : Relax} {o : NBData}
    {cost : Vec} (hV : NBOk V o) (hrc : RcOk V o cost) (htol : TolOk E o.lp.numCols) {strengthen : Bool}
    {w : TermWorld} {t : Term} (ht : t.feasible = true → TermOk V t)
    (hw : t.feasible = true → WorldLive E o cost strengthen V w t) :
    ∃ r, doTerm E o strengthen V w t = .ok r := by
  unfold doTerm
  cases hf : t.feasible with
  | false => exact ⟨_, rfl⟩
  | true =>
    specialize ht hf
    specialize hw hf
    obtain ⟨Q, hQ⟩ := hw.lp
    obtain ⟨href, hidx⟩ := termLP_refines ht hV.idx hQ
    have hans := hw.solve Q hQ
    simp only [Bool.not_true, Bool.false_eq_true, if_false]
    rw [hQ]
    simp only [Res.bind, hw.warm, Bool.not_true, Bool.false_eq_true, if_false]
    cases ha : w.solve Q with
    | notOptimal => exact ⟨_, rfl⟩
    | dualInfeasible => rw [ha] at hans; exact hans.elim
    | optimal s =>
      rw [ha] at hans
      obtain ⟨hs, hob⟩ := hans
      simp only [LPAns.check, savedObj_passes (hw.saved Q s hQ ha), Bool.false_eq_true, if_false]
      unfold strengthenTerm
      cases hst : strengthen with
      | false =>
        simp only [Bool.false_eq_true, if_false]
        exact finishTerm_live hsort hV hrc href hidx htol w t hs hob
      | true =>
        simp only [if_true]
        have h2 := hw.solve2 hst Q hQ
        obtain ⟨href2, hidx2⟩ := applyIneqs_refines href hidx (hw.gmic hst Q hQ)
        cases ha2 : w.solve2 (applyIneqs (w.gmics Q) Q) with
        | notOptimal => exact ⟨_, rfl⟩
        | dualInfeasible => rw [ha2] at h2; exact h2.elim
        | optimal s2 =>
          rw [ha2] at h2
          exact finishTerm_live hsort hV hrc href2 hidx2 htol w t h2.1 h2.2

theorem doTerms_live {E : NumEnv} {o : NBData} {strengthen : Bool} {V : Relax} {w : ℕ → TermWorld} {k : ℕ}
    {ts : List Term} (h : ∀ i t, ts[i]? = some t → ∃ r, doTerm E o strengthen V (w (k + i)) t = .ok r) :
    ∃ r, doTerms E o strengthen V w k ts = .ok r := by
  induction ts generalizing k with
  | nil => exact ⟨_, rfl⟩
  | cons t ts ih =>
    obtain ⟨r, hr⟩ := h 0 t rfl
    obtain ⟨rs, hrs⟩ := ih (k := k + 1) fun i t hi => by
      have := h (i + 1) t (by simpa using hi)
      rwa [show k + (i + 1) = k + 1 + i by omega] at this
    rw [Nat.add_zero] at hr
    simp only [doTerms]
    rw [hr]
    simp only [Res.bind]
    rw [hrs]
    exact ⟨_, rfl⟩

theorem listSum_ddot (n : ℕ) (c y : Vec) : ((List.range n).map fun i => c i * y i).sum = ddot n c y := by
  unfold ddot
  rw [Finset.sum_range]
  rw [← List.sum_ofFn]
  congr 1
  apply List.ext_getElem <;> simp

theorem collectInt_cases (E : NumEnv) (o : NBData) (cost : Vec) (offset : ℚ) (sol : List ℚ) (hn : sol ≠ [])
    (v : SVec) (viol : ℚ) (hviol : viol = ddot o.lp.numCols cost (fun i => sol.getD i 0) - ddot o.lp.numCols cost o.sol)
    (hv : v = packCoor E.sortDecr E.EPS viol o.rc (o.nb.map (compCoor o.lp o.sol (fun i => sol.getD i 0)))) :
    collectInt E o cost offset sol =
      if !(isVal (dotRC o.rc v) viol E.EPS) && !(isVal (dotRC o.rc v) viol E.DIFFEPS) then .exit
      else .ok (some (v, viol), [ddot o.lp.numCols cost (fun i => sol.getD i 0) - offset]) := by
  unfold collectInt
  rw [if_neg hn]
  simp only [listSum_ddot]
  rw [← hviol, ← hv]

/-- **C129, integer solution.** An incumbent feasible for the relaxation passes the check. -/
theorem collectInt_live {E : NumEnv} (hsort : ∀ l, (E.sortDecr l).Perm l) {V : Relax} {o : NBData}
    {cost : Vec} (hV : NBOk V o) (hrc : RcOk V o cost) (htol : TolOk E o.lp.numCols) (offset : ℚ)
    {sol : List ℚ} (hsol : sol = [] ∨ V.Feas (fun i => sol.getD i 0)) :
    ∃ r, collectInt E o cost offset sol = .ok r := by
  by_cases hn : sol = []
  · subst hn; exact ⟨(none, []), rfl⟩
  have hx := hsol.resolve_left hn
  obtain ⟨viol, hviol⟩ : ∃ viol, viol = ddot o.lp.numCols cost (fun i => sol.getD i 0) -
    ddot o.lp.numCols cost o.sol := ⟨_, rfl⟩
  obtain ⟨v, hv⟩ : ∃ v, v = packCoor E.sortDecr E.EPS viol o.rc
    (o.nb.map (compCoor o.lp o.sol (fun i => sol.getD i 0))) := ⟨_, rfl⟩
  rw [collectInt_cases E o cost offset sol hn v viol hviol hv]
  have hobj := packCoor_objective hsort htol.eps viol o.rc
    (o.nb.map (compCoor o.lp o.sol (fun i => sol.getD i 0)))
  have hVV : Refines V V := ⟨rfl, List.prefix_rfl, fun _ h => h⟩
  have hpv := point_value hV hVV hrc hx
  rw [hpv, ← hv, ← hviol, List.length_map, hV.len] at hobj
  have h' : |dotRC o.rc v - viol| < E.DIFFEPS := by
    rcases hobj with h | h
    · exact lt_of_lt_of_le h htol.le
    · exact lt_of_le_of_lt h htol.sumEps
  have hb : isVal (dotRC o.rc v) viol E.DIFFEPS = true := by rw [isVal_iff]; exact h'
  rw [hb, Bool.not_true, Bool.and_false, if_neg Bool.false_ne_true]
  exact ⟨_, rfl⟩

/-- **C129.** With exact answers of the LP solver and tolerances that match the number of columns, the point-ray
collection of every disjunction is made completely: no check ends the process. Partial: rows with one right-hand
side, exact arithmetic, see the witnesses below. -/
theorem setup_live_partial {E : NumEnv} (hsort : ∀ l, (E.sortDecr l).Perm l) {V : Relax} {o : NBData}
    {cost : Vec} (hV : NBOk V o) (hrc : RcOk V o cost) (htol : TolOk E o.lp.numCols) {D : Disj}
    (hint : D.intSol = [] ∨ V.Feas (fun i => D.intSol.getD i 0)) {strengthen : Bool} {w : ℕ → TermWorld}
    (hterm : ∀ i t, D.terms[i]? = some t → t.feasible = true →
      TermOk V t ∧ WorldLive E o cost strengthen V (w i) t) (flip : Bool) (offset : ℚ) :
    ∃ rows D', setupAll E o strengthen flip cost offset V w D = .ok (rows, D') := by
  obtain ⟨p, hp⟩ := collectInt_live hsort hV hrc htol offset hint
  obtain ⟨r, hr⟩ := doTerms_live (E := E) (o := o) (strengthen := strengthen) (V := V) (w := w) (k := 0)
    (ts := D.terms) fun i t hi => by
      rw [Nat.zero_add]
      exact doTerm_live hsort hV hrc htol (fun hf => (hterm i t hi hf).1) fun hf => (hterm i t hi hf).2
  unfold setupAll
  rw [hp]
  simp only [Res.bind]
  rw [hr]
  exact ⟨_, _, rfl⟩

/-! ## What the checks do not accept -/

/-- The coordinate computed for any point, feasible or not, is the absolute value of the signed distance. -/
theorem compCoor_abs {V : Relax} {o : NBData} (hV : NBOk V o) (x : Vec) {k : ℕ} (hk : k ∈ o.nb) :
    compCoor o.lp o.sol x k = |signedCoor V o x k| := by
  have hkl := hV.lt k hk
  unfold compCoor signedCoor varVal baseVal
  rw [hV.lp.cols]
  have hs : ∀ a : ℚ, |(if o.isUB k then -1 else 1) * a| = |a| := by
    intro a; cases o.isUB k <;> simp
  rw [hs]
  by_cases hc : k < V.lo.length
  · simp only [if_pos hc]
  · simp only [if_neg hc]
    rw [hV.lp.row _ (by omega), hV.lp.rhs _ (by omega)]

/-- **C129, negation.** For any list of numbers stored as the integer solution, the process ends exactly if the part
of the objective value lying outside the bounds of the nonbasic variables, counted twice, is not below the tolerance:
an incumbent that violates the relaxation by a little more than the tolerance ends the process. No coordinate is
assumed to be tiny here. -/
theorem collectInt_exits_iff {E : NumEnv} (hsort : ∀ l, (E.sortDecr l).Perm l) {V : Relax} {o : NBData}
    {cost : Vec} (hV : NBOk V o) (hrc : RcOk V o cost) (hle : E.EPS ≤ E.DIFFEPS) (offset : ℚ)
    {sol : List ℚ} (hn : sol ≠ []) (hnt : ∀ k ∈ o.nb, signedCoor V o (fun i => sol.getD i 0) k = 0 ∨
      E.EPS ≤ |signedCoor V o (fun i => sol.getD i 0) k|) :
    collectInt E o cost offset sol = .exit ↔ E.DIFFEPS ≤ |∑ i ∈ range o.lp.numCols,
      o.rc i * (|signedCoor V o (fun i => sol.getD i 0) (o.nb.getD i 0)| -
        signedCoor V o (fun i => sol.getD i 0) (o.nb.getD i 0))| := by
  obtain ⟨x, hx⟩ : ∃ x : Vec, x = fun i => sol.getD i 0 := ⟨_, rfl⟩
  obtain ⟨viol, hviol⟩ : ∃ viol, viol = ddot o.lp.numCols cost x - ddot o.lp.numCols cost o.sol := ⟨_, rfl⟩
  obtain ⟨v, hv⟩ : ∃ v, v = packCoor E.sortDecr E.EPS viol o.rc (o.nb.map (compCoor o.lp o.sol x)) := ⟨_, rfl⟩
  rw [← hx] at hnt ⊢
  rw [collectInt_cases E o cost offset sol hn v viol (by rw [hviol, hx]) (by rw [hv, hx])]
  have hspec := packCoor_spec E.sortDecr hsort E.EPS viol o.rc (o.nb.map (compCoor o.lp o.sol x))
  have hnd := packCoor_nodup E.sortDecr hsort E.EPS viol o.rc (o.nb.map (compCoor o.lp o.sol x))
  rw [← hv] at hnd
  simp only [← hv] at hspec
  obtain ⟨h1, h2, -⟩ := hspec
  have hlen : (o.nb.map (compCoor o.lp o.sol x)).length = o.lp.numCols := by rw [List.length_map, hV.len]
  have hgot : dotRC o.rc v = ∑ i ∈ range o.lp.numCols, o.rc i * |signedCoor V o x (o.nb.getD i 0)| := by
    rw [dotRC_eq_sdot, sdot_eq_sum o.lp.numCols v o.rc (by
      intro e he
      have := h1 e he
      by_contra hc
      rw [List.getElem?_eq_none (by rw [hlen]; omega)] at this
      cases this)]
    refine sum_congr rfl fun i hi => ?_
    rw [mem_range] at hi
    have hil : i < o.nb.length := by rw [hV.len]; exact hi
    have hval : (o.nb.map (compCoor o.lp o.sol x))[i]? = some |signedCoor V o x (o.nb.getD i 0)| := by
      rw [List.getElem?_map, List.getD_eq_getElem?_getD, List.getElem?_eq_getElem hil, Option.map_some,
        Option.getD_some, compCoor_abs hV x (List.getElem_mem hil)]
    rw [scoef_packed hnd h1 (fun i c hi hc => h2 i c hi (by
      rw [List.getElem?_map, Option.map_eq_some_iff] at hi
      obtain ⟨k, hk, hkc⟩ := hi
      have hkm := List.mem_of_getElem? hk
      rw [compCoor_abs hV x hkm] at hkc
      subst hkc
      rw [abs_abs]
      rcases hnt k hkm with h | h
      · rw [h, abs_zero] at hc; exact absurd rfl hc
      · exact h)) hval]
    ring
  have hdiff : dotRC o.rc v - viol = ∑ i ∈ range o.lp.numCols,
      o.rc i * (|signedCoor V o x (o.nb.getD i 0)| - signedCoor V o x (o.nb.getD i 0)) := by
    rw [hgot, hviol, hrc x, ← sum_sub_distrib]
    exact sum_congr rfl fun i _ => by ring
  rw [← hdiff]
  have e1 : isVal (dotRC o.rc v) viol E.DIFFEPS = true ↔ |dotRC o.rc v - viol| < E.DIFFEPS := isVal_iff
  have e2 : isVal (dotRC o.rc v) viol E.EPS = true ↔ |dotRC o.rc v - viol| < E.EPS := isVal_iff
  by_cases hb : |dotRC o.rc v - viol| < E.DIFFEPS
  · rw [e1.2 hb, Bool.not_true, Bool.and_false, if_neg Bool.false_ne_true]
    constructor
    · intro h; cases h
    · intro h; exact absurd hb (not_lt.2 h)
  · have f1 : isVal (dotRC o.rc v) viol E.DIFFEPS = false := by rw [Bool.eq_false_iff, Ne, e1]; exact hb
    have f2 : isVal (dotRC o.rc v) viol E.EPS = false := by
      rw [Bool.eq_false_iff, Ne, e2]; intro h; exact hb (lt_of_lt_of_le h hle)
    rw [f1, f2]
    simp only [Bool.not_false, Bool.and_self, if_true, true_iff]
    exact not_lt.1 hb

/-- An LP without rows: minimise the sum of `n` variables between 0 and 1, solved at 0. -/
def tinyO (n : ℕ) : NBData where
  lp := ⟨n, fun _ => [], fun _ => .L, fun _ => 0, fun _ => 0, fun _ => 1, fun _ => .atLower⟩
  sol := fun _ => 0
  obj := 0
  nb := List.range n
  isUB := fun _ => false
  rc := fun _ => 1

/-- The exact solution of a term that raises every lower bound to `e`. -/
def tinyS (n : ℕ) (e : ℚ) : TermSol where
  x := fun _ => e
  obj := n * e
  nb := List.range n
  row := fun _ => none
  isUB := fun _ => false
  isLB := fun _ => true
  isFixed := fun _ => false
  tab := fun _ _ => 0
  rayObj := fun _ => 1

/-- **C129, negation.** The bound on the number of columns cannot be left out: in the LP above every coordinate is
half of the tolerance, none is kept, and if there are enough of them the point is found to be inconsistent with the
(exact) objective value and the process ends. -/
theorem collectPoint_tiny_exits (E : NumEnv) (h0 : 0 < E.EPS) (hs : E.sortDecr [] = []) (n : ℕ)
    (h1 : E.DIFFEPS ≤ n * (E.EPS / 2)) (h2 : 4 / 100 ≤ n * (E.EPS / 2)) (h3 : E.EPS ≤ 4 / 100) :
    collectPoint E (tinyO n) (tinyS n (E.EPS / 2)) = .exit := by
  have hpack : setCompNBCoorPoint E.sortDecr E.EPS (n * (E.EPS / 2)) (tinyO n).lp (tinyO n).sol
      (tinyS n (E.EPS / 2)).x (tinyO n).nb (tinyO n).rc = [] := by
    unfold setCompNBCoorPoint packCoor
    have hv : (tinyO n).nb.map (compCoor (tinyO n).lp (tinyO n).sol (tinyS n (E.EPS / 2)).x) =
        List.replicate n (E.EPS / 2) := by
      apply List.ext_getElem
      · simp [tinyO]
      · intro i hi hi'
        have : i < n := by simpa [tinyO] using hi
        have hh : 0 < E.EPS / 2 := by linarith
        simp [tinyO, tinyS, compCoor, this, abs_of_pos hh]
    rw [hv]
    have hsmall : ∀ e ∈ (List.replicate n (E.EPS / 2)).zipIdx, e.1 = E.EPS / 2 := by
      intro e he
      exact List.eq_of_mem_replicate (List.fst_mem_of_mem_zipIdx he)
    have hz : isZero (E.EPS / 2) E.EPS = true := by
      rw [isZero_iff, abs_of_pos (by linarith)]; linarith
    have hA : ((List.replicate n (E.EPS / 2)).zipIdx.filter fun e => !(isZero e.1 E.EPS)) = [] := by
      rw [List.filter_eq_nil_iff]
      intro e he
      rw [hsmall e he, hz]; simp
    have hB : ((List.replicate n (E.EPS / 2)).zipIdx.filter fun e =>
        isZero e.1 E.EPS && !(isZero (e.1 * (tinyO n).rc e.2) E.EPS)) = [] := by
      rw [List.filter_eq_nil_iff]
      intro e he
      rw [hsmall e he]
      simp only [tinyO, mul_one, hz]; simp
    simp only [hA, hB, List.map_nil, List.sum_nil, hs]
    split
    · simp [takeTiny, mergeTiny]
    · rfl
  unfold collectPoint
  dsimp only
  have hobj : (tinyS n (E.EPS / 2)).obj - (tinyO n).obj = n * (E.EPS / 2) := by simp [tinyS, tinyO]
  rw [hobj, hpack]
  have hp : 0 < (n : ℚ) * (E.EPS / 2) := by linarith
  have hgot : dotRC (tinyO n).rc [] = 0 := rfl
  have : pointCheckExits E 0 (n * (E.EPS / 2)) = true := by
    unfold pointCheckExits
    have a1 : isVal (0 - n * (E.EPS / 2)) 0 E.EPS = false := by
      rw [Bool.eq_false_iff, Ne, isVal_iff, sub_zero, zero_sub, abs_neg, abs_of_pos hp]; linarith
    have a2 : isVal (0 - n * (E.EPS / 2)) 0 E.DIFFEPS = false := by
      rw [Bool.eq_false_iff, Ne, isVal_iff, sub_zero, zero_sub, abs_neg, abs_of_pos hp]; linarith
    rw [a1, a2]
    simp only [Bool.false_eq_true, if_false, Bool.not_false, Bool.true_and]
    have b0 : lessThanVal 0 0 E.EPS = false := by
      rw [Bool.eq_false_iff, Ne, lessThanVal_iff]; linarith
    have b1 : lessThanVal (n * (E.EPS / 2)) 0 E.EPS = false := by
      rw [Bool.eq_false_iff, Ne, lessThanVal_iff]; linarith
    have b2 : isZero 0 E.EPS = true := by rw [isZero_iff, abs_zero]; exact h0
    have b3 : isZero (n * (E.EPS / 2)) E.EPS = false := by
      rw [Bool.eq_false_iff, Ne, isZero_iff, abs_of_pos hp]; linarith
    have b4 : pointRatio E.EPS 0 (n * (E.EPS / 2)) = 1 + n * (E.EPS / 2) := by
      unfold pointRatio
      rw [b0, b1, b2, b3]
      simp only [Bool.false_and, Bool.or_false, Bool.false_eq_true, if_false, Bool.and_false, Bool.true_or, if_true]
      rw [zero_sub, abs_neg, abs_of_pos hp]
    rw [b4, greaterThanVal_iff]
    norm_num [defEps]
    linarith
  rw [hgot, this, if_pos rfl]

end VPC

namespace VPC.Tri
open Finset

/-! ## The concrete run meets the hypotheses -/

theorem rcOk : RcOk V o cost := by
  intro x
  simp [o, lp, ddot, sum_range_succ, signedCoor, varVal, baseVal, V, Relax.row, MRow.rhs, sdot, cost]
  ring

theorem objOk0 : TermObjOk Q0 o s0 cost where
  obj := by decide +kernel
  full := by decide +kernel
  slope := by decide +kernel
  opt := by decide +kernel

theorem objOk1 : TermObjOk Q1 o s1 cost where
  obj := by decide +kernel
  full := by decide +kernel
  slope := by decide +kernel
  opt := by decide +kernel

theorem tolOk : TolOk E o.lp.numCols where
  eps := by decide +kernel
  ray := by decide +kernel
  le := by decide +kernel
  sumEps := by decide +kernel
  sumRay := by decide +kernel

theorem live0 : WorldLive E o cost true V (w 0) t0 where
  warm := rfl
  lp := ⟨Q0, by decide +kernel⟩
  solve := fun Q h => by rw [lp0 h]; exact ⟨sol0, objOk0⟩
  saved := fun Q s _ _ => .inl (by decide +kernel)
  gmic := by intro _ _ _ c hc; cases hc
  solve2 := fun _ Q h => by
    rw [lp0 h]
    have : applyIneqs ((w 0).gmics Q0) Q0 = Q0 := by decide +kernel
    rw [this]; exact ⟨sol0, objOk0⟩

theorem live1 : WorldLive E o cost true V (w 1) t1 where
  warm := rfl
  lp := ⟨Q1, by decide +kernel⟩
  solve := fun Q h => by rw [lp1 h]; exact ⟨sol1, objOk1⟩
  saved := fun Q s _ _ => .inl (by decide +kernel)
  gmic := by intro _ _ _ c hc; cases hc
  solve2 := fun _ Q h => by
    rw [lp1 h]
    have : applyIneqs ((w 1).gmics Q1) Q1 = Q1 := by decide +kernel
    rw [this]; exact ⟨sol1, objOk1⟩

/-- Non-vacuity of `setup_live_partial`, with a stored integer solution and strengthening. -/
example : ∃ rows D', setupAll E o true false cost 0 V w D2 = .ok (rows, D') :=
  setup_live_partial (fun _ => List.Perm.refl _) nbOk rcOk tolOk (.inr (by decide +kernel)) (by
    intro i t hi hf
    match i, hi with
    | 0, hi => simp only [D2, D, List.getElem?_cons_zero, Option.some.injEq] at hi; subst hi; exact ⟨termOk0, live0⟩
    | 1, hi =>
      simp only [D2, D, List.getElem?_cons_succ, List.getElem?_cons_zero, Option.some.injEq] at hi
      subst hi; exact ⟨termOk1, live1⟩
    | i + 2, hi => simp [D2, D] at hi) false 0

/-- An incumbent that violates the first row by 1/500 ends the process with the tolerance 1/1000. -/
theorem incumbent_outside_exits : collectInt E o cost 0 [0, 1/500] = .exit := by
  rw [collectInt_exits_iff (V := V) (fun _ => List.Perm.refl _) nbOk rcOk (by decide +kernel) 0 (by simp)
    (by decide +kernel)]
  decide +kernel

example : collectInt E o cost 0 [0, 1/2000] ≠ .exit := by decide +kernel

/-- A row `1 ≤ x0 ≤ 3` nonbasic at its lower side: the solution of a term in which nothing changes (the vertex itself,
objective value 1) is found to be inconsistent, and the process ends. -/
theorem ranged_row_exits :
    collectPoint E
      { lp := { numCols := 1, rows := fun _ => [(0, 1)], sense := fun _ => .R, rhs := fun _ => 3
                colLower := fun _ => 0, colUpper := fun _ => 9, colStat := fun _ => .other }
        sol := fun _ => 1, obj := 1, nb := [1], isUB := fun _ => true, rc := fun _ => 1 }
      { s0 with x := fun _ => 1, obj := 1 } = .exit := by decide +kernel

/-- Non-vacuity of `collectPoint_tiny_exits` with the default tolerances: 800000 columns. -/
example : collectPoint E (tinyO 800000) (tinyS 800000 (E.EPS / 2)) = .exit :=
  collectPoint_tiny_exits E (by decide +kernel) rfl 800000 (by norm_num [E]) (by norm_num [E]) (by norm_num [E])

end VPC.Tri
