import Verif.Props.PRLPSetup
import Verif.Props.NBPack
import Verif.Props.CutClean

/-! # C02 and C03: validity of the cuts -/
namespace VPC
open Finset

/-! ## Specification: the disjunctive hull -/

/-- `y` lies in the vertex `p` plus the cone of the rays (coordinates below `n`). -/
def InTermCone (n : ℕ) (p : SVec) (rays : List SVec) (y : Vec) : Prop :=
  ∃ w : List ℚ, w.length = rays.length ∧ (∀ c ∈ w, 0 ≤ c) ∧
    ∀ i < n, y i = scoef p i + ((w.zip rays).map fun q => q.1 * scoef q.2 i).sum

/-- The convex hull of the union of the terms' vertex-plus-cone sets. -/
inductive InHull (n : ℕ) (terms : List (SVec × List SVec)) : Vec → Prop
  | term (t : SVec × List SVec) (y : Vec) : t ∈ terms → InTermCone n t.1 t.2 y → InHull n terms y
  | mix (y z : Vec) (l : ℚ) : InHull n terms y → InHull n terms z → 0 ≤ l → l ≤ 1 →
      InHull n terms (fun i => l * y i + (1 - l) * z i)

/-- All indices of the vertices and rays are coordinates below `n`. -/
def IdxBelow (n : ℕ) (terms : List (SVec × List SVec)) : Prop :=
  ∀ t ∈ terms, (∀ e ∈ t.1, e.1 < n) ∧ ∀ r ∈ t.2, ∀ e ∈ r, e.1 < n

theorem ddot_cone (n : ℕ) (α y : Vec) (p : SVec) (q : List (ℚ × SVec)) (hp : ∀ e ∈ p, e.1 < n)
    (hr : ∀ r ∈ q, ∀ e ∈ r.2, e.1 < n)
    (hy : ∀ i < n, y i = scoef p i + (q.map fun q => q.1 * scoef q.2 i).sum) :
    ddot n α y = sdot p α + (q.map fun q => q.1 * sdot q.2 α).sum := by
  have h1 : ddot n α y
      = ∑ i ∈ range n, (scoef p i * α i + (q.map fun q => q.1 * scoef q.2 i).sum * α i) := by
    unfold ddot
    apply sum_congr rfl
    intro i hi
    rw [hy i (mem_range.1 hi)]; ring
  rw [h1, sum_add_distrib, ← sdot_eq_sum n p α hp]
  congr 1
  clear h1 hy
  induction q with
  | nil => simp
  | cons a q ih =>
    simp only [List.map_cons, List.sum_cons, add_mul]
    rw [sum_add_distrib, ih (fun r hr' => hr r (by simp [hr'])), sdot_eq_sum n a.2 α (hr a (by simp)),
      mul_sum]
    congr 1
    apply sum_congr rfl
    intro i _; ring

/-- C02. The inequality `α · y ≥ β` is valid for the whole disjunctive hull if and only if it
satisfies every point row and every ray row. -/
theorem hull_valid_iff (n : ℕ) (terms : List (SVec × List SVec)) (α : Vec) (β : ℚ)
    (hi : IdxBelow n terms) :
    (∀ y, InHull n terms y → β ≤ ddot n α y) ↔
    ∀ t ∈ terms, β ≤ sdot t.1 α ∧ ∀ r ∈ t.2, 0 ≤ sdot r α := by
  constructor
  · intro h t ht
    have hvert : ∀ c : List ℚ, c.length = t.2.length → (∀ a ∈ c, 0 ≤ a) →
        β ≤ sdot t.1 α + ((c.zip t.2).map fun q => q.1 * sdot q.2 α).sum := by
      intro c hc hpos
      let y : Vec := fun i => scoef t.1 i + ((c.zip t.2).map fun q => q.1 * scoef q.2 i).sum
      have := h y (.term t y ht ⟨c, hc, hpos, fun i _ => rfl⟩)
      rwa [ddot_cone n α y t.1 (c.zip t.2) (hi t ht).1
        (fun r hr => (hi t ht).2 r.2 (List.of_mem_zip hr).2) (fun i _ => rfl)] at this
    have hz : ∀ l : List SVec, (((List.replicate l.length (0 : ℚ)).zip l).map
        fun q => q.1 * sdot q.2 α).sum = 0 := by
      intro l
      induction l with
      | nil => rfl
      | cons a l ih => simpa [List.replicate_succ] using ih
    have h0 : β ≤ sdot t.1 α := by
      have := hvert (List.replicate t.2.length 0) (by simp) (by
        intro a ha; rw [List.eq_of_mem_replicate ha])
      rwa [hz, add_zero] at this
    refine ⟨h0, fun r hr => ?_⟩
    by_contra hneg
    rw [not_le] at hneg
    obtain ⟨l1, l2, hl⟩ := List.append_of_mem hr
    -- move far along the ray
    let M : ℚ := (sdot t.1 α - β + 1) / (- sdot r α)
    have hM : 0 ≤ M := div_nonneg (by linarith) (by linarith)
    have := hvert (List.replicate l1.length 0 ++ M :: List.replicate l2.length 0)
      (by rw [hl]; simp) (by
        intro a ha
        rcases List.mem_append.1 ha with h | h
        · rw [List.eq_of_mem_replicate h]
        · rcases List.mem_cons.1 h with h | h
          · rw [h]; exact hM
          · rw [List.eq_of_mem_replicate h])
    rw [hl, List.zip_append (by simp), List.map_append, List.sum_append, hz, List.zip_cons_cons,
      List.map_cons, List.sum_cons, hz] at this
    have hMr : M * sdot r α = -(sdot t.1 α - β + 1) := by
      show (sdot t.1 α - β + 1) / (- sdot r α) * sdot r α = _
      have : sdot r α ≠ 0 := ne_of_lt hneg
      field_simp
    simp only at this
    rw [hMr] at this
    linarith
  · intro h y hy
    induction hy with
    | term t y ht hin =>
      obtain ⟨w, hw, hpos, hyi⟩ := hin
      obtain ⟨h1, h2⟩ := h t ht
      rw [ddot_cone n α y t.1 (w.zip t.2) (hi t ht).1
        (fun r hr => (hi t ht).2 r.2 (List.of_mem_zip hr).2) hyi]
      have : 0 ≤ ((w.zip t.2).map fun q => q.1 * sdot q.2 α).sum := by
        apply List.sum_nonneg
        intro a ha
        obtain ⟨q, hq, rfl⟩ := List.mem_map.1 ha
        have := List.of_mem_zip hq
        exact mul_nonneg (hpos _ this.1) (h2 _ this.2)
      linarith
    | mix y z l _ _ h0 h1 ihy ihz =>
      have : ddot n α (fun i => l * y i + (1 - l) * z i) = l * ddot n α y + (1 - l) * ddot n α z := by
        unfold ddot
        rw [mul_sum, mul_sum, ← sum_add_distrib]
        apply sum_congr rfl; intro i _; ring
      rw [this]
      nlinarith [mul_le_mul_of_nonneg_left ihy h0, mul_le_mul_of_nonneg_left ihz (by linarith : 0 ≤ 1 - l)]

example : InHull 2 [([(0, 1)], [[(1, 1)]])] (fun i => if i = 0 then 1 else 5) :=
  .term ([(0, 1)], [[(1, 1)]]) _ (by simp) ⟨[5], rfl, by simp, by
    intro i hi
    have : i = 0 ∨ i = 1 := by omega
    rcases this with rfl | rfl <;> norm_num [scoef]⟩

/-! ## The corner of a term's basis -/

/-- Variables `0 … nv-1` (structurals and slacks) with constraint columns `col k`, `m` equality
rows, and a basis: `rowOf k = some r` if `k` is basic in row `r`. `tab k r` is the tableau entry
(`getBInvACol`, external). This is the specification of what the LP solver provides. -/
structure BasisSpec (nv m : ℕ) (col : ℕ → Vec) (Binv : ℕ → Vec) (rowOf : ℕ → Option ℕ) : Prop where
  unit : ∀ k < nv, ∀ r, rowOf k = some r → ∀ r' < m,
    ∑ i ∈ range m, Binv r' i * col k i = if r' = r then 1 else 0
  inj : ∀ k < nv, ∀ k' < nv, ∀ r, rowOf k = some r → rowOf k' = some r → k = k'
  row : ∀ k < nv, ∀ r, rowOf k = some r → r < m

/-- The tableau column of variable `k`. -/
def tabCol (m : ℕ) (col : ℕ → Vec) (Binv : ℕ → Vec) (k : ℕ) : Vec :=
  fun r => ∑ i ∈ range m, Binv r i * col k i

/-- Basic variables move along `-tab` when nonbasic variables move. -/
theorem tableau_identity {nv m : ℕ} {col Binv : ℕ → Vec} {rowOf : ℕ → Option ℕ}
    (hB : BasisSpec nv m col Binv rowOf) (d : Vec)
    (hd : ∀ i < m, ∑ k ∈ range nv, col k i * d k = 0) (b r : ℕ) (hb : b < nv)
    (hr : rowOf b = some r) :
    d b = ∑ k ∈ (range nv).filter (fun k => rowOf k = none), - tabCol m col Binv k r * d k := by
  have hrm := hB.row b hb r hr
  have h0 : ∑ k ∈ range nv, tabCol m col Binv k r * d k = 0 := by
    unfold tabCol
    have : ∀ k ∈ range nv, (∑ i ∈ range m, Binv r i * col k i) * d k
        = ∑ i ∈ range m, Binv r i * (col k i * d k) := by
      intro k _; rw [sum_mul]; apply sum_congr rfl; intro i _; ring
    rw [sum_congr rfl this, sum_comm]
    apply sum_eq_zero
    intro i hi
    rw [← mul_sum, hd i (mem_range.1 hi), mul_zero]
  rw [← sum_filter_add_sum_filter_not (range nv) (fun k => rowOf k = none)] at h0
  have h1 : ∑ k ∈ (range nv).filter (fun k => ¬ rowOf k = none), tabCol m col Binv k r * d k = d b := by
    rw [sum_eq_single b]
    · unfold tabCol
      rw [hB.unit b hb r hr r hrm, if_pos rfl, one_mul]
    · intro k hk hkb
      rw [mem_filter, mem_range] at hk
      obtain ⟨hk1, hk2⟩ := hk
      cases hrk : rowOf k with
      | none => exact absurd hrk hk2
      | some r' =>
        unfold tabCol
        rw [hB.unit k hk1 r' hrk r hrm, if_neg, zero_mul]
        intro h; subst h
        exact hkb (hB.inj k hk1 b hb r hrk hr)
    · intro hnb
      exfalso; apply hnb
      rw [mem_filter, mem_range]
      exact ⟨hb, by rw [hr]; simp⟩
  rw [h1] at h0
  have h2 : ∑ k ∈ (range nv).filter (fun k => rowOf k = none), - tabCol m col Binv k r * d k
      = - ∑ k ∈ (range nv).filter (fun k => rowOf k = none), tabCol m col Binv k r * d k := by
    rw [← sum_neg_distrib]; apply sum_congr rfl; intro k _; ring
  rw [h2]; linarith

/-- C03 (the corner). Let `p` be the vertex of a term's basis and `x` any solution of the same
equations in which every nonbasic variable is on the feasible side of its value at `p` (not above
if it is at its upper bound, not below otherwise). Then every variable's change from `p` to `x` is
the sum of the rays' changes weighted by the nonnegative distances of the nonbasic variables; in
particular the complemented coordinates used by the code are in the cone of its rays
(`rayCoor_exact`). Fixed nonbasic variables have distance 0, so skipping their rays is sound. -/
theorem corner_decomposition {nv m : ℕ} {col Binv : ℕ → Vec} {rowOf : ℕ → Option ℕ}
    (hB : BasisSpec nv m col Binv rowOf) (xv pv : Vec)
    (heq : ∀ i < m, ∑ k ∈ range nv, col k i * xv k = ∑ k ∈ range nv, col k i * pv k)
    (ub : ℕ → Bool)
    (hside : ∀ k < nv, rowOf k = none → if ub k then xv k ≤ pv k else pv k ≤ xv k)
    (k : ℕ) (hk : k < nv) (origUB : Bool) :
    (if origUB then -1 else 1) * (xv k - pv k)
      = ∑ j ∈ (range nv).filter (fun j => rowOf j = none),
          |xv j - pv j| * rayCoor j k (ub j) origUB (rowOf k)
            (genRay (!(ub j)) (tabCol m col Binv j)) := by
  have hstep : ∀ j ∈ (range nv).filter (fun j => rowOf j = none),
      |xv j - pv j| * rayCoor j k (ub j) origUB (rowOf k) (genRay (!(ub j)) (tabCol m col Binv j))
      = (if origUB then -1 else 1) * ((if k = j then 1 else match rowOf k with
          | some r => - tabCol m col Binv j r
          | none => 0) * (xv j - pv j)) := by
    intro j hj
    rw [mem_filter, mem_range] at hj
    rw [rayCoor_exact j k (!(ub j)) (ub j) origUB (rowOf k) _ rfl]
    have hs := hside j hj.1 hj.2
    unfold rayDelta
    cases hu : ub j
    · rw [hu] at hs
      simp only [Bool.false_eq_true, if_false] at hs ⊢
      rw [abs_of_nonneg (by linarith)]
      by_cases hkj : k = j
      · rw [if_pos hkj, if_pos hkj]; ring
      · rw [if_neg hkj, if_neg hkj]; cases rowOf k <;> simp only <;> ring
    · rw [hu] at hs
      simp only [if_true] at hs ⊢
      rw [abs_of_nonpos (by linarith)]
      by_cases hkj : k = j
      · rw [if_pos hkj, if_pos hkj]; ring
      · rw [if_neg hkj, if_neg hkj]; cases rowOf k <;> simp only <;> ring
  rw [sum_congr rfl hstep, ← mul_sum]
  congr 1
  cases hr : rowOf k with
  | some r =>
    have hne : ∀ j ∈ (range nv).filter (fun j => rowOf j = none), (if k = j then 1 else
        (match some r with | some r => - tabCol m col Binv j r | none => 0)) * (xv j - pv j)
        = - tabCol m col Binv j r * (xv j - pv j) := by
      intro j hj
      rw [mem_filter] at hj
      rw [if_neg]
      intro h; subst h; rw [hr] at hj; simp at hj
    rw [sum_congr rfl hne]
    exact tableau_identity hB (fun k => xv k - pv k) (by
      intro i hi
      have := heq i hi
      simp only [mul_sub, sum_sub_distrib]
      linarith) k r hk hr
  | none =>
    rw [sum_eq_single k]
    · simp
    · intro j _ hjk
      rw [if_neg (fun h => hjk h.symm)]; simp
    · intro h; exfalso; apply h; rw [mem_filter, mem_range]; exact ⟨hk, hr⟩

/-- Non-vacuity: one row `x₀ + x₁ = 1`, variable 1 basic, variable 0 nonbasic at lower bound. -/
example : BasisSpec 2 1 (fun _ _ => 1) (fun _ _ => 1) (fun k => if k = 1 then some 0 else none) := by
  refine ⟨?_, ?_, ?_⟩
  · intro k hk r hr r' hr'
    have h1 : k = 1 := by by_contra h; simp [h] at hr
    subst h1
    simp at hr; subst hr
    have : r' = 0 := by omega
    subst this; simp
  · intro k hk k' hk' r hr hr'
    have h1 : k = 1 := by by_contra h; simp [h] at hr
    have h2 : k' = 1 := by by_contra h; simp [h] at hr'
    omega
  · intro k hk r hr
    have h1 : k = 1 := by by_contra h; simp [h] at hr
    subst h1; simp at hr; omega

/-! ## From the LP solution to the cut -/

theorem nbDot_scPairs (lp : LP) (nz : List ℕ) (β : List ℚ) (nbVar : List ℕ) (x : Vec)
    (hne : nz ≠ []) (hnd : nz.Nodup) (hlt : ∀ j ∈ nz, j < lp.numCols) :
    nbDot lp (scPairs lp.numCols nz β nbVar) x
      = ddot lp.numCols (expand nz β) (fun j => nbCoord lp x (nbVar.getD j 0)) := by
  have hpos : nz.length > 0 := List.length_pos_iff.2 hne
  let y : Vec := fun j => nbCoord lp x (nbVar.getD j 0)
  have h1 : nbDot lp (scPairs lp.numCols nz β nbVar) x
      = (nz.map fun j => expand nz β j * y j).sum := by
    unfold nbDot scPairs
    simp only [if_pos hpos]
    rw [List.map_map]
    have hnz : nz = (List.range nz.length).map (fun t => nz.getD t 0) := by
      apply List.ext_getElem
      · simp
      · intro i h1 h2
        simp only [List.getElem_map, List.getElem_range, List.getD_eq_getElem?_getD]
        rw [List.getElem?_eq_getElem h1]; rfl
    have h3 : (nz.map fun j => expand nz β j * y j)
        = (List.range nz.length).map ((fun j => expand nz β j * y j) ∘ fun t => nz.getD t 0) := by
      rw [← List.map_map, ← hnz]
    rw [h3]
    congr 1
    apply List.map_congr_left
    intro t ht
    rw [List.mem_range] at ht
    simp only [Function.comp]
    have hg : nz.getD t 0 = nz[t] := by
      rw [List.getD_eq_getElem?_getD, List.getElem?_eq_getElem ht]; rfl
    rw [hg, expand_of_mem (List.getElem_mem ht)]
    rw [hnd.idxOf_getElem t ht]
  rw [h1]
  unfold ddot
  have h2 : ∀ j ∈ range lp.numCols, expand nz β j * y j
      = if j ∈ nz.toFinset then expand nz β j * y j else 0 := by
    intro j _
    split
    · rfl
    · rename_i h; rw [List.mem_toFinset] at h; rw [expand, if_neg h, zero_mul]
  rw [sum_congr rfl h2, ← sum_filter]
  have h3 : (range lp.numCols).filter (fun j => j ∈ nz.toFinset) = nz.toFinset := by
    ext j
    rw [mem_filter, mem_range, List.mem_toFinset]
    exact ⟨fun h => h.2, fun h => ⟨hlt j h, h⟩⟩
  rw [h3, List.sum_toFinset _ hnd]

/-- Everything that has to be true of the numerical world for a cut to be exactly valid. -/
structure Exact (scale DIFFEPS : ℚ) (rows : List PRow) : Prop where
  /-- no comparison of two points claims that one row is strictly stronger -/
  noReplace : ∀ r ∈ rows, ∀ r2 ∈ rows, rhsLineUp r r2 = true →
    isRowDifferent r.vec r.rhs r2.vec r2.rhs DIFFEPS ≠ -1
  /-- rows found "equal or weaker" within tolerance really are implied -/
  truthful : ∀ r ∈ rows, ∀ r2 ∈ rows, (rhsLineUp r r2 = true ∨ (r.rhs = 0 ∧ r2.rhs = 0)) →
    isRowDifferent r.vec r.rhs r2.vec r2.rhs DIFFEPS = 0 ∨
    isRowDifferent r.vec r.rhs r2.vec r2.rhs DIFFEPS = 1 →
    ∀ α, RowOK scale α r2 → RowOK scale α r

/-- C03 (partial: hypotheses `Exact` and `hbig` exclude the tolerance effects quantified by the
other theorems; the hypothesis that the term containing `x` was *collected* is essential, see
`dropped_term_cuts_off`). Let `x` be a point whose nonbasic coordinates lie in the vertex-plus-cone
set of some collected term. Then the structural cut produced from any feasible solution of the
point-ray LP is satisfied by `x`. -/
theorem vpc_valid_partial (lp : LP) (nbVar : List ℕ) (flip : Bool) (intPoint : Option (SVec × ℚ))
    (terms : List TermOutcome) (sortP : List PRow → List PRow) (hsort : ∀ l, (sortP l).Perm l)
    (INF DIFFEPS EPS scale : ℚ) (hI : 0 < INF) (hE : 0 < DIFFEPS)
    (hwf : WellFormed scale lp.numCols (setupConstraints flip intPoint terms))
    (hex : Exact scale DIFFEPS (setupConstraints flip intPoint terms))
    (L : BuiltLP)
    (hL : prlpSetup sortP INF DIFFEPS scale lp.numCols (setupConstraints flip intPoint terms) = some L)
    (β : List ℚ) (hβ : L.Feas INF β) (hne : L.nz ≠ [])
    (x : Vec) (p : SVec) (dep : ℚ) (rays : List (SVec × ℚ))
    (ht : TermOutcome.collected p dep rays ∈ terms)
    (hx : InTermCone lp.numCols p (rays.map (·.1)) (fun j => nbCoord lp x (nbVar.getD j 0)))
    (ho : NBOrder lp ((scPairs lp.numCols L.nz β nbVar).map (·.1)))
    (hbig : ∀ k < lp.numCols, structCoeff lp (scPairs lp.numCols L.nz β nbVar)
        ((if flip then -1 else 1) * scale) k = 0 ∨
      EPS ≤ |structCoeff lp (scPairs lp.numCols L.nz β nbVar) ((if flip then -1 else 1) * scale) k|) :
    (setCutFromNBCoefficients lp L.nz β ((if flip then -1 else 1) * scale) nbVar EPS).Sat x := by
  have hok : ∀ r ∈ setupConstraints flip intPoint terms, RowOK scale (expand L.nz β) r := by
    intro r hr
    rcases setup_sound_partial sortP hsort INF DIFFEPS scale lp.numCols _ hI hE hwf hex.noReplace L hL β
      hβ r hr with h | ⟨r2, h2, h3, h5, h4⟩
    · exact h
    · exact hex.truthful r hr r2 h2 h5 h4 _ h3
  have hmem : ∀ r ∈ termRows flip (.collected p dep rays),
      r ∈ setupConstraints flip intPoint terms := by
    intro r hr
    unfold setupConstraints
    exact List.mem_append_right _ (List.mem_flatMap.2 ⟨_, ht, hr⟩)
  have hpt : (⟨p, if flip then -1 else 1, dep⟩ : PRow) ∈ termRows flip (.collected p dep rays) := by
    simp [termRows]
  have hray : ∀ r ∈ rays, r.1 ≠ [] → (⟨r.1, 0, r.2⟩ : PRow) ∈ termRows flip (.collected p dep rays) := by
    intro r hr hne
    unfold termRows
    refine List.mem_cons_of_mem _ (List.mem_map.2 ⟨r, List.mem_filter.2 ⟨hr, ?_⟩, rfl⟩)
    cases h : r.1 with
    | nil => exact absurd h hne
    | cons _ _ => rfl
  have hidx : IdxBelow lp.numCols [(p, rays.map (·.1))] := by
    intro t htt
    simp only [List.mem_singleton] at htt
    subst htt
    refine ⟨fun e he => hwf.idx _ (hmem _ hpt) e he, fun r hr e he => ?_⟩
    obtain ⟨r', hr', rfl⟩ := List.mem_map.1 hr
    have hne : r'.1 ≠ [] := by intro h0; rw [h0] at he; simp at he
    exact hwf.idx _ (hmem _ (hray r' hr' hne)) e he
  have hv := (hull_valid_iff lp.numCols [(p, rays.map (·.1))] (expand L.nz β)
    ((if flip then -1 else 1) * scale) hidx).2 (by
      intro t htt
      simp only [List.mem_singleton] at htt
      subst htt
      refine ⟨hok _ (hmem _ hpt), fun r hr => ?_⟩
      obtain ⟨r', hr', rfl⟩ := List.mem_map.1 hr
      by_cases hne : r'.1 = []
      · rw [hne]; simp
      · have := hok _ (hmem _ (hray r' hr' hne))
        unfold RowOK at this
        simpa using this) _ (.term (p, rays.map (·.1)) _ (by simp) hx)
  have hnz : L.nz.Nodup ∧ ∀ j ∈ L.nz, j < lp.numCols := by
    unfold prlpSetup at hL
    rw [Option.map_eq_some_iff] at hL
    obtain ⟨st, _, rfl⟩ := hL
    refine ⟨List.Nodup.filter _ List.nodup_range, fun j hj => ?_⟩
    simp only at hj
    exact List.mem_range.1 (List.mem_filter.1 hj).1
  rw [← nbDot_scPairs lp L.nz β nbVar x hne hnz.1 hnz.2] at hv
  exact ((setCut_exact lp L.nz β _ EPS nbVar ho hbig x).2).2 hv

/-- Non-vacuity of `vpc_valid_partial`: a term with vertex `2` and ray `1`, the point `x = 5`. -/
example :
    let rows := setupConstraints false none [.collected [(0, 2)] 2 [([(0, 1)], 1)]]
    WellFormed 1 1 rows ∧ Exact 1 (1/1000) rows ∧
    prlpSetup id dblMax (1/1000) 1 1 rows = some ⟨[0], [1/2], [dblMax], [([(0, 2)], 1)]⟩ ∧
    InTermCone 1 [(0, 2)] [[(0, 1)]] (fun _ => 5) := by
  intro rows
  have hrows : rows = [⟨[(0, 2)], 1, 2⟩, ⟨[(0, 1)], 0, 1⟩] := by decide +kernel
  refine ⟨⟨?_, ?_, ?_⟩, ⟨?_, ?_⟩, by decide +kernel, ⟨[3], rfl, by simp, ?_⟩⟩
  · rw [hrows]; intro r hr
    simp only [List.mem_cons, List.not_mem_nil, or_false] at hr
    rcases hr with rfl | rfl <;> norm_num [defEps]
  · rw [hrows]; intro r hr j c hv h0
    simp only [List.mem_cons, List.not_mem_nil, or_false] at hr
    rcases hr with rfl | rfl
    · norm_num at h0
    · simp at hv; rw [← hv.2]; norm_num [defEps]
  · rw [hrows]; intro r hr e he
    simp only [List.mem_cons, List.not_mem_nil, or_false] at hr
    rcases hr with rfl | rfl <;> (simp at he; rw [he]; simp)
  · rw [hrows]; decide +kernel
  · rw [hrows]; intro r hr r2 hr2 hk hd α
    simp only [List.mem_cons, List.not_mem_nil, or_false] at hr hr2
    rcases hr with rfl | rfl <;> rcases hr2 with rfl | rfl
    · exact id
    · exfalso; revert hk; decide +kernel
    · exfalso; revert hk; decide +kernel
    · exact id
  · intro i hi; have : i = 0 := by omega
    subst this; norm_num [scoef]

/-- C03, cleaned form: the cut that survives small-coefficient removal is still satisfied by every
`x` in the variable bounds that satisfied it before (no coefficient below `EPS`, right-hand side not
rounded up). Together with `vpc_valid_partial` this covers `genCutHelper`. -/
theorem vpc_cleaned_valid_partial (l u obj x : Vec) (EPS EC : ℚ) (cut : RowCut)
    (hx : InBox l u x) (hs : cut.Sat x) (htiny : ∀ e ∈ cut.row, EPS ≤ |e.2|)
    (hrhs : 0 ≤ (cut.lb - ((cut.row.map (rscStep l u obj EPS EC)).map (·.2)).sum)) :
    (removeSmallCoefficients l u obj EPS EC cut).Sat x :=
  removeSmall_valid_partial l u obj x EPS EC cut hx hs htiny (by
    simp only; intro h; exact absurd h.2 (not_lt.2 hrhs))

/-- C03 is violated when a term's LP is not proven optimal (e.g. it hit an iteration limit): the
term is silently skipped, and the point-ray LP accepts a cut that is valid for the remaining term
but cuts off a point of the skipped one. Here one nonbasic variable, term 1 with vertex `2`, and the
skipped term containing `1/2`: the resulting cut is `x ≥ 1`. -/
theorem dropped_term_cuts_off :
    let lp : LP := { numCols := 1, rows := fun _ => [], sense := fun _ => .L, rhs := fun _ => 0
                     colLower := fun _ => 0, colUpper := fun _ => 9, colStat := fun _ => .atLower }
    let terms := [TermOutcome.collected [(0, 2)] 2 [([(0, 1)], 1)], TermOutcome.notOptimal]
    let L : BuiltLP := ⟨[0], [1/2], [dblMax], [([(0, 2)], 1)]⟩
    prlpSetup id dblMax (1/1000) 1 1 (setupConstraints false none terms) = some L ∧
    L.Feas dblMax [1] ∧
    setCutFromNBCoefficients lp [0] [1] 1 [0] (1/10^7) = ⟨[(0, 1)], 1⟩ ∧
    ¬ (⟨[(0, 1)], 1⟩ : RowCut).Sat (fun _ => 1/2) := by
  refine ⟨by decide +kernel, ?_, by decide +kernel, ?_⟩
  · refine ⟨rfl, ?_, ?_⟩
    · intro t ht
      have : t = 0 := by simpa using ht
      subst this
      norm_num [dblMax]
    · intro r hr
      simp only [List.mem_singleton] at hr
      subst hr; norm_num [sdot]
  · norm_num [RowCut.Sat, sdot]

end VPC
