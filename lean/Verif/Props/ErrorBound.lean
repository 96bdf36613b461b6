import Verif.Props.EndToEnd
import Verif.Props.RowDiff
import Verif.Props.TargetValid

/-!
# C03: by how much a cut can be violated when tolerances matter

`vpc_end_to_end_partial` asks that nothing is so small that it is dropped. Here nothing of the kind is
asked: coordinates of points and rays, coefficients of the cut and rows of the point-ray LP may be
dropped as the code does, and the violation of the cut is bounded.
-/
namespace VPC
open Finset

/-! ## Specification -/

/-- `Σ |α_i|` over the first `n` coordinates. -/
def absSum (n : ℕ) (α : Vec) : ℚ := ∑ i ∈ range n, |α i|

/-- How far `x` is from the vertex of the term, summed over the nonbasic variables of its basis. -/
def moveSum (Q : Relax) (s : TermSol) (x : Vec) : ℚ :=
  (s.nb.map fun j => |varVal Q x j - varVal Q s.x j|).sum

/-- The same, each variable measured in units of the ray collected for it. -/
def rayUnits (E : NumEnv) (o : NBData) (Q : Relax) (s : TermSol) (x : Vec) : ℚ :=
  (s.nb.map fun j => |varVal Q x j - varVal Q s.x j| / (rayOf E o s j).2).sum

/-- `y` is within `δ`, in every coordinate, of a point `p + Σ w_j r_j` with `w ≥ 0` and `Σ w ≤ U`. -/
def NearTermCone (n : ℕ) (p : SVec) (rays : List SVec) (y : Vec) (δ U : ℚ) : Prop :=
  ∃ w : List ℚ, w.length = rays.length ∧ (∀ c ∈ w, 0 ≤ c) ∧ w.sum ≤ U ∧
    ∀ i < n, |y i - (scoef p i + ((w.zip rays).map fun q => q.1 * scoef q.2 i).sum)| ≤ δ

/-- Coefficients that are not negligible differ by at most the factor `K` between the rows, and none
is larger than `R`. -/
structure Spread (DIFFEPS K R : ℚ) (rows : List PRow) : Prop where
  one : 1 ≤ K
  ratio : ∀ r ∈ rows, ∀ r2 ∈ rows, ∀ i, DIFFEPS ≤ |scoef r.vec i| → DIFFEPS ≤ |scoef r2.vec i| →
    |scoef r.vec i| + DIFFEPS ≤ K * |scoef r2.vec i|
  size : ∀ r ∈ rows, ∀ i, |scoef r.vec i| ≤ R
  sorted : ∀ r ∈ rows, Sorted r.vec

/-- What a row loses per unit of `Σ|α|` if it is represented by another one that was found equal. -/
def rowLoss (DIFFEPS K R : ℚ) : ℚ := DIFFEPS * (1 + K) + defEps * R

/-! ## Packing -/

theorem scoef_packed_near {base : SVec} {vals : List ℚ} {ε : ℚ} (h0 : 0 ≤ ε)
    (hnd : (base.map (·.1)).Nodup) (htrue : ∀ e ∈ base, vals[e.1]? = some e.2)
    (hall : ∀ (i : ℕ) (v : ℚ), vals[i]? = some v → ε ≤ |v| → (i, v) ∈ base)
    {i : ℕ} {v : ℚ} (hi : vals[i]? = some v) : |v - scoef base i| ≤ ε := by
  by_cases hm : ∃ w, (i, w) ∈ base
  · obtain ⟨w, hw⟩ := hm
    have := htrue _ hw
    rw [hi] at this
    simp only [Option.some.injEq] at this
    rw [scoef_of_mem_nodup hnd hw, ← this, sub_self, abs_zero]
    exact h0
  · have hz : scoef base i = 0 := by
      apply scoef_eq_zero_of_forall_ne
      rintro ⟨a, b⟩ he rfl
      exact hm ⟨b, he⟩
    rw [hz, sub_zero]
    by_contra hc
    exact hm ⟨v, hall i v hi (le_of_lt (not_le.1 hc))⟩

theorem sum_near (l : List ℕ) (f g h : ℕ → ℚ) (hh : ∀ j ∈ l, |f j - g j| ≤ h j) :
    |(l.map f).sum - (l.map g).sum| ≤ (l.map h).sum := by
  induction l with
  | nil => simp
  | cons a l ih =>
    simp only [List.map_cons, List.sum_cons]
    have h1 := hh a (by simp)
    have h2 := ih fun j hj => hh j (by simp [hj])
    rw [show f a + (l.map f).sum - (g a + (l.map g).sum)
      = (f a - g a) + ((l.map f).sum - (l.map g).sum) by ring]
    exact (abs_add_le _ _).trans (add_le_add h1 h2)

theorem filter_sum_le (l : List ℕ) (p : ℕ → Bool) (f : ℕ → ℚ) (h : ∀ j ∈ l, 0 ≤ f j) :
    ((l.filter p).map f).sum ≤ (l.map f).sum := by
  induction l with
  | nil => simp
  | cons a l ih =>
    have ih := ih fun j hj => h j (by simp [hj])
    have ha := h a (by simp)
    cases hp : p a with
    | true =>
      rw [List.filter_cons_of_pos hp, List.map_cons, List.map_cons, List.sum_cons, List.sum_cons]
      linarith
    | false =>
      rw [List.filter_cons_of_neg (by simp [hp]), List.map_cons, List.sum_cons]
      linarith

/-- **C03, one term, with the tolerances of the code.** Every point of the LP of the term is close to
the vertex plus the cone of the collected rays: coordinates of the vertex below `EPS` are dropped, and
coordinates of a ray below `RAYEPS` per unit of movement. -/
theorem term_cone_near_partial {E : NumEnv} (hsort : ∀ l, (E.sortDecr l).Perm l) {V Q : Relax}
    {o : NBData} {s : TermSol} (hV : NBOk V o) (hQ : Refines V Q) (hidx : Q.Idx) (hs : TermSolOk Q s)
    (h0 : 0 ≤ E.EPS) (h0R : 0 ≤ E.RAYEPS) {p : SVec} {d : ℚ} {rays : List (SVec × ℚ)}
    (h : genDepth1 E o s = .ok (.collected p d rays)) {x : Vec} (hx : Q.Feas x) :
    NearTermCone o.lp.numCols p (rays.map (·.1)) (fun i => nbCoord o.lp x (o.nb.getD i 0))
      (E.EPS + E.RAYEPS * moveSum Q s x) (rayUnits E o Q s x) := by
  have h' := genDepth1_ok h
  simp only [TermOutcome.collected.injEq] at h'
  obtain ⟨hp, -, hr⟩ := h'
  let js := s.nb.filter (rayKept E o s)
  let pk : ℕ → SVec × ℚ := fun j => rayOf E o s j
  let dist : ℕ → ℚ := fun j => |varVal Q x j - varVal Q s.x j|
  have hdist : ∀ j, 0 ≤ dist j := fun j => abs_nonneg _
  have hpos : ∀ j, 0 < (pk j).2 := fun j => (packRay_spec E.sortDecr hsort E.expo E.EPS E.RAYEPS
      (s.rayObj j) o.rc (rayVals o s j)).1
  have hrays : rays.map (·.1) = js.map fun j => (pk j).1 := by
    rw [hr, List.map_map]; rfl
  refine ⟨js.map fun j => dist j / (pk j).2, by rw [hrays]; simp, ?_, ?_, ?_⟩
  · intro c hc
    obtain ⟨j, _, rfl⟩ := List.mem_map.1 hc
    exact div_nonneg (abs_nonneg _) (hpos j).le
  · exact filter_sum_le s.nb _ (fun j => dist j / (pk j).2)
      fun j _ => div_nonneg (abs_nonneg _) (hpos j).le
  intro i hi
  have hil : i < o.nb.length := by rw [hV.len]; exact hi
  set k := o.nb.getD i 0 with hk
  have hkm : k ∈ o.nb := by
    rw [hk, List.getD_eq_getElem?_getD, List.getElem?_eq_getElem hil]; exact List.getElem_mem hil
  obtain ⟨hx1, -⟩ := coor_signed hV hQ hx hkm
  obtain ⟨-, hs2⟩ := coor_signed hV hQ hs.feas hkm
  -- the point
  have hpt : |compCoor o.lp o.sol s.x k - scoef p i| ≤ E.EPS := by
    rw [hp]
    unfold setCompNBCoorPoint
    obtain ⟨h1, h2, -⟩ := packCoor_spec E.sortDecr hsort E.EPS (s.obj - o.obj) o.rc
      (o.nb.map (compCoor o.lp o.sol s.x))
    exact scoef_packed_near h0
      (packCoor_nodup E.sortDecr hsort E.EPS (s.obj - o.obj) o.rc _) h1 h2 (getElem?_nb hil)
  -- the rays
  let rcr : ℕ → ℚ := fun j =>
    rayCoor j k (s.isUB j) (o.isUB k) (s.row k) (genRay (s.isLB j) (s.tab j))
  have hray : ∀ j, ∃ b, scoef (pk j).1 i = b * (pk j).2 ∧ |rcr j - b| ≤ E.RAYEPS := by
    intro j
    obtain ⟨-, base, hb, hnd, h1, h2, -⟩ := packRay_spec E.sortDecr hsort E.expo E.EPS E.RAYEPS
      (s.rayObj j) o.rc (rayVals o s j)
    refine ⟨scoef base i, ?_, ?_⟩
    · show scoef (packRay E.sortDecr E.expo E.EPS E.RAYEPS (s.rayObj j) o.rc (rayVals o s j)).1 i = _
      rw [hb, scoef_scaled]; rfl
    · exact scoef_packed_near h0R hnd h1 h2 (getElem?_nb hil)
  choose b hb hbn using hray
  rw [hrays]
  have hzip : ((js.map fun j => dist j / (pk j).2).zip (js.map fun j => (pk j).1)).map
      (fun q => q.1 * scoef q.2 i) = js.map fun j => dist j * b j := by
    rw [List.zip_map', List.map_map]
    apply List.map_congr_left
    intro j _
    simp only [Function.comp]
    rw [hb j]
    have hne : (pk j).2 ≠ 0 := ne_of_gt (hpos j)
    field_simp
  rw [hzip]
  rw [filter_sum_zero s.nb _ _ (by
    intro j hj hf
    show |varVal Q x j - varVal Q s.x j| * _ = 0
    cases hfx : s.isFixed j with
    | true => rw [hs.fixed j hj hfx x hx]; simp
    | false =>
      have he : (pk j).1 = [] := by
        simpa [rayKept, hfx, pk] using hf
      have h0' := hb j
      rw [he, show scoef ([] : SVec) i = 0 from rfl] at h0'
      rw [(mul_eq_zero.1 h0'.symm).resolve_right (ne_of_gt (hpos j)), mul_zero])]
  obtain ⟨Binv, hB, htab⟩ := hs.basis
  have hset : (range (Q.lo.length + Q.rows.length)).filter (fun j => s.row j = none) = s.nb.toFinset := by
    ext j
    rw [mem_filter, mem_range, List.mem_toFinset, hs.nb j]
  have hkl : k < Q.lo.length + Q.rows.length := by
    have := hV.lt k hkm
    have h2 := hQ.rows.length_le
    rw [hQ.cols]; omega
  have hcd := corner_decomposition hB (varVal Q x) (varVal Q s.x) (by
      intro i hi; rw [sys_eq Q hidx x i hi, sys_eq Q hidx s.x i hi]) s.isUB
    (by intro j hj hn; exact nb_side hs hx ((hs.nb j).2 ⟨hj, hn⟩)) k hkl (o.isUB k)
  rw [hset, List.sum_toFinset _ hs.nodup] at hcd
  have hlist : (s.nb.map fun j => dist j * rcr j)
      = s.nb.map fun j => |varVal Q x j - varVal Q s.x j| *
        rayCoor j k (s.isUB j) (o.isUB k) (s.row k)
          (genRay (!(s.isUB j)) (tabCol Q.rows.length (sysCol Q) Binv j)) := by
    apply List.map_congr_left
    intro j hj
    show dist j * rayCoor j k (s.isUB j) (o.isUB k) (s.row k) (genRay (s.isLB j) (s.tab j)) = _
    rw [hs.one j hj, htab j hj]
  rw [← hlist] at hcd
  have hy : nbCoord o.lp x k = compCoor o.lp o.sol s.x k + (s.nb.map fun j => dist j * rcr j).sum := by
    rw [← hcd, hs2, hx1]; ring
  show |nbCoord o.lp x k - _| ≤ _
  rw [hy]
  have hsum : |(s.nb.map fun j => dist j * rcr j).sum - (s.nb.map fun j => dist j * b j).sum|
      ≤ (s.nb.map fun j => E.RAYEPS * dist j).sum := by
    apply sum_near
    intro j _
    rw [← mul_sub, abs_mul, abs_of_nonneg (hdist j), mul_comm]
    exact mul_le_mul_of_nonneg_right (hbn j) (hdist j)
  rw [List.sum_map_mul_left] at hsum
  rw [show compCoor o.lp o.sol s.x k + (s.nb.map fun j => dist j * rcr j).sum -
      (scoef p i + (s.nb.map fun j => dist j * b j).sum)
      = (compCoor o.lp o.sol s.x k - scoef p i) + ((s.nb.map fun j => dist j * rcr j).sum -
        (s.nb.map fun j => dist j * b j).sum) by ring]
  exact (abs_add_le _ _).trans (add_le_add hpt hsum)

/-! ## Rows that are represented by others -/

/-- If a row was found equal to or weaker than another one with the same right-hand side, it is a
nonnegative multiple of it up to the tolerances, and the multiple keeps the right-hand side. -/
theorem near_of_code {EPS c K : ℚ} {v1 v2 : SVec} (he : 0 < EPS) (hs1 : Sorted v1) (hs2 : Sorted v2)
    (hc : c = 0 ∨ EPS ≤ |c|) (hK1 : 1 ≤ K)
    (hK : ∀ i, EPS ≤ |scoef v1 i| → EPS ≤ |scoef v2 i| → |scoef v1 i| + EPS ≤ K * |scoef v2 i|)
    (h : isRowDifferent v1 c v2 c EPS = 0 ∨ isRowDifferent v1 c v2 c EPS = 1) :
    ∃ ρ, - defEps ≤ ρ ∧ ρ ≤ K ∧ AgreeUpTo EPS ρ v1 v2 ∧ c ≤ ρ * c + EPS := by
  by_cases hall : ∀ i, |scoef v1 i| < EPS ∧ |scoef v2 i| < EPS
  · exact ⟨1, by norm_num [defEps], hK1, fun i => .inl (hall i), by linarith⟩
  -- the factor is bounded because there is a coefficient that is not negligible
  have hle : ∀ ρ, AgreeUpTo EPS ρ v1 v2 → ρ ≤ K := by
    intro ρ hag
    by_contra hcon
    rw [not_le] at hcon
    apply hall
    intro i
    rcases hag i with h1 | ⟨h1, h2, h3⟩
    · exact h1
    · exfalso
      have h4 := hK i h1 h2
      have hp : 0 < |scoef v2 i| := lt_of_lt_of_le he h2
      have h5 : |ρ * scoef v2 i| < |scoef v1 i| + EPS := by
        have := abs_sub_abs_le_abs_sub (ρ * scoef v2 i) (scoef v1 i)
        rw [abs_sub_comm] at this
        linarith
      rw [abs_mul, abs_of_pos (by linarith : (0 : ℚ) < ρ)] at h5
      nlinarith
  unfold isRowDifferent at h
  cases hl : rdLoop EPS v1 v2 (rdInit EPS c c) with
  | none => rw [hl] at h; simp at h
  | some s =>
    rw [hl] at h
    simp only at h
    have hi := rdInit_nonneg EPS c c
    have P := rdLoop_post he v1 v2 _ s hs1 hs2 hi.1 (le_of_eq hi.2.symm) hl
    have A := agree_of_post he hs1 hs2 P
    have hr : - defEps < s.ratio ∧ - defEps < s.ratioCoeff := by
      have nz : ∀ {v : SVec} {i : ℕ}, EPS ≤ |scoef v i| → scoef v i ≠ 0 := by
        intro v i hv h0; rw [h0, abs_zero] at hv; linarith
      by_contra hcon
      apply hall
      intro i
      by_cases h1 : EPS ≤ |scoef v1 i|
      · have m1 := mem_of_scoef_ne_zero hs1 (nz h1)
        obtain ⟨b, hb, hb'⟩ := P.c1 i _ m1 h1
        exact absurd (P.c3 i _ b m1 hb h1 hb').2.2 hcon
      · refine ⟨not_le.1 h1, ?_⟩
        by_contra h2
        rw [not_lt] at h2
        obtain ⟨a, ha, ha'⟩ := P.c2 i _ (mem_of_scoef_ne_zero hs2 (nz h2)) h2
        rw [scoef_of_mem hs1 ha] at h1
        exact h1 ha'
    by_cases hz : isZero s.maxDiff EPS = true
    · have hag := A.1 (lt_of_le_of_lt (le_abs_self _) (isZero_iff.1 hz))
      refine ⟨s.ratio, hr.1.le, hle _ hag, hag, ?_⟩
      rcases hc with rfl | hc
      · linarith
      · have hne : c ≠ 0 := by intro h0; rw [h0, abs_zero] at hc; linarith
        have h1 : (rdInit EPS c c).ratio = 1 := by
          unfold rdInit
          rw [isZero_false_iff.2 hc]; simp [hne]
        have := P.fix (by rw [h1]; norm_num [defEps])
        rw [this, h1]; linarith
    · rw [if_neg hz] at h
      by_cases hz2 : isZero s.maxDiffCoeff EPS = true
      · rw [if_pos hz2] at h
        have hag := A.2 (lt_of_le_of_lt (le_abs_self _) (isZero_iff.1 hz2))
        refine ⟨s.ratioCoeff, hr.2.le, hle _ hag, hag, ?_⟩
        split at h
        · simp at h
        · split at h
          · rename_i hd
            rw [isZero_iff] at hd
            have := (abs_lt.1 hd).2
            linarith
          · split at h
            · simp at h
            · rename_i hg
              rw [greaterThanVal_iff, not_le] at hg
              linarith
      · exfalso
        rw [isZero_iff, not_lt] at hz hz2
        exact P.notBoth (rdInit_notBoth he _ _) ⟨hz, hz2⟩

/-- Two vectors that agree up to a factor give values that agree up to it. -/
theorem agree_sdot {n : ℕ} {EPS ρ K R : ℚ} {v1 v2 : SVec} (he : 0 < EPS)
    (h1 : ∀ e ∈ v1, e.1 < n) (h2 : ∀ e ∈ v2, e.1 < n) (hag : AgreeUpTo EPS ρ v1 v2)
    (hl : - defEps ≤ ρ) (hu : ρ ≤ K) (hK : 1 ≤ K) (hR : ∀ i, |scoef v2 i| ≤ R) (α : Vec) :
    |sdot v1 α - max ρ 0 * sdot v2 α| ≤ rowLoss EPS K R * absSum n α := by
  rw [sdot_eq_sum n v1 α h1, sdot_eq_sum n v2 α h2, mul_sum, ← sum_sub_distrib]
  unfold absSum
  rw [mul_sum]
  refine (abs_sum_le_sum_abs _ _).trans (sum_le_sum fun i _ => ?_)
  rw [show scoef v1 i * α i - max ρ 0 * (scoef v2 i * α i)
    = (scoef v1 i - max ρ 0 * scoef v2 i) * α i by ring, abs_mul]
  refine mul_le_mul_of_nonneg_right ?_ (abs_nonneg _)
  have hd := defEps_pos
  have hR0 : 0 ≤ R := (abs_nonneg _).trans (hR i)
  have hdR : 0 ≤ defEps * R := mul_nonneg hd.le hR0
  have hp : 0 ≤ max ρ 0 := le_max_right _ _
  have hpK : max ρ 0 ≤ K := max_le hu (by linarith)
  unfold rowLoss
  rcases hag i with ⟨h3, h4⟩ | ⟨-, -, h5⟩
  · have h6 : |max ρ 0 * scoef v2 i| ≤ K * EPS := by
      rw [abs_mul, abs_of_nonneg hp]
      exact mul_le_mul hpK h4.le (abs_nonneg _) (by linarith)
    have := abs_sub (scoef v1 i) (max ρ 0 * scoef v2 i)
    linarith
  · have h6 : |(ρ - max ρ 0) * scoef v2 i| ≤ defEps * R := by
      rw [abs_mul]
      refine mul_le_mul ?_ (hR i) (abs_nonneg _) hd.le
      rw [abs_le]
      rcases le_total ρ 0 with h | h
      · rw [max_eq_right h]; constructor <;> linarith
      · rw [max_eq_left h]; constructor <;> linarith
    rw [show scoef v1 i - max ρ 0 * scoef v2 i
      = (scoef v1 i - ρ * scoef v2 i) + (ρ - max ρ 0) * scoef v2 i by ring]
    have := abs_add_le (scoef v1 i - ρ * scoef v2 i) ((ρ - max ρ 0) * scoef v2 i)
    have hKE : 0 ≤ K * EPS := mul_nonneg (by linarith) he.le
    linarith

/-- A row represented by a satisfied row is satisfied up to `rowLoss · Σ|α|` (plus
`DIFFEPS · scale` for a point). -/
theorem represented_row {n : ℕ} {DIFFEPS K R scale : ℚ} {rows : List PRow}
    (he : 0 < DIFFEPS) (hsc : 0 ≤ scale) (hsp : Spread DIFFEPS K R rows)
    (hidx : ∀ r ∈ rows, ∀ e ∈ r.vec, e.1 < n) {r r2 : PRow} (hr : r ∈ rows) (hr2 : r2 ∈ rows)
    (hrhs : r.rhs = r2.rhs) (hc : r.rhs = 0 ∨ DIFFEPS ≤ |r.rhs|) {α : Vec} (h2 : RowOK scale α r2)
    (h : isRowDifferent r.vec r.rhs r2.vec r2.rhs DIFFEPS = 0 ∨
      isRowDifferent r.vec r.rhs r2.vec r2.rhs DIFFEPS = 1) :
    r.rhs * scale ≤ sdot r.vec α + rowLoss DIFFEPS K R * absSum n α +
      (if r.rhs = 0 then 0 else DIFFEPS * scale) := by
  rw [← hrhs] at h
  obtain ⟨ρ, hl, hu, hag, hcc⟩ := near_of_code he (hsp.sorted r hr) (hsp.sorted r2 hr2) hc hsp.one
    (hsp.ratio r hr r2 hr2) h
  have hn := (abs_le.1 (agree_sdot he (hidx r hr) (hidx r2 hr2) hag hl hu hsp.one
    (hsp.size r2 hr2) α)).1
  unfold RowOK at h2
  rw [← hrhs] at h2
  have hp : 0 ≤ max ρ 0 := le_max_right _ _
  have h3 := mul_le_mul_of_nonneg_left h2 hp
  by_cases h0 : r.rhs = 0
  · rw [if_pos h0]
    rw [h0] at h3 ⊢
    linarith
  · rw [if_neg h0]
    have h4 : r.rhs ≤ max ρ 0 * r.rhs + DIFFEPS := by
      rcases le_total 0 ρ with h | h
      · rw [max_eq_left h]; exact hcc
      · rw [max_eq_right h, zero_mul, zero_add]
        rcases le_total r.rhs 0 with h' | h'
        · linarith
        · have := mul_nonpos_of_nonpos_of_nonneg h h'; linarith
    have h5 := mul_le_mul_of_nonneg_right h4 hsc
    linarith

/-! ## The cut -/

theorem ddot_near {n : ℕ} {α y y' : Vec} {δ : ℚ} (h : ∀ i < n, |y i - y' i| ≤ δ) :
    |ddot n α y - ddot n α y'| ≤ absSum n α * δ := by
  unfold ddot absSum
  rw [← sum_sub_distrib, sum_mul]
  refine (abs_sum_le_sum_abs _ _).trans (sum_le_sum fun i hi => ?_)
  rw [← mul_sub, abs_mul]
  exact mul_le_mul_of_nonneg_left (h i (mem_range.1 hi)) (abs_nonneg _)

theorem weighted_sum_ge {w : List ℚ} {rays : List SVec} {α : Vec} {η : ℚ} (hlen : w.length = rays.length)
    (hw : ∀ c ∈ w, 0 ≤ c) (hr : ∀ r ∈ rays, -η ≤ sdot r α) :
    - (w.sum * η) ≤ ((w.zip rays).map fun q => q.1 * sdot q.2 α).sum := by
  induction w generalizing rays with
  | nil => simp
  | cons a w ih =>
    cases rays with
    | nil => simp at hlen
    | cons b rays =>
      simp only [List.length_cons, add_left_inj] at hlen
      have h1 := ih hlen (fun c hc => hw c (by simp [hc])) (fun r hr' => hr r (by simp [hr']))
      have h2 := mul_le_mul_of_nonneg_left (hr b (by simp)) (hw a (by simp))
      simp only [List.zip_cons_cons, List.map_cons, List.sum_cons]
      linarith

/-- By how much the cut can be violated at `x`: `EPS` for the coefficients dropped from the cut,
`E.EPS` and `E.RAYEPS` for the coordinates dropped from the points and rays (`M`: movement from the
vertex), `DIFFEPS` for the rows of the point-ray LP dropped as duplicates (`U`: movement in units of
the rays). -/
def errBound (E : NumEnv) (EPS DIFFEPS scale K R M U : ℚ) (n : ℕ) (α x : Vec) : ℚ :=
  EPS * absSum n x + absSum n α * (E.EPS + E.RAYEPS * M) +
    (1 + U) * (rowLoss DIFFEPS K R * absSum n α) + DIFFEPS * scale

/-- **C03 with the tolerances of the code, from the rows to the cut** (partial: no comparison of two
points may answer "strictly stronger", which loses both: `dedup_drops_both`). -/
theorem vpc_near_partial {E : NumEnv} {o : NBData} {flip : Bool} {intPoint : Option (SVec × ℚ)}
    {terms : List TermOutcome} {sortP : List PRow → List PRow} (hsort : ∀ l, (sortP l).Perm l)
    {INF DIFFEPS EPS scale K R : ℚ} (hI : 0 < INF) (hE : 0 < DIFFEPS) (hE1 : DIFFEPS ≤ 1) (h0 : 0 ≤ EPS)
    (hsc : 0 ≤ scale)
    (hwf : WellFormed scale o.lp.numCols (setupConstraints flip intPoint terms))
    (hno : ∀ r ∈ setupConstraints flip intPoint terms, ∀ r2 ∈ setupConstraints flip intPoint terms,
      rhsLineUp r r2 = true → isRowDifferent r.vec r.rhs r2.vec r2.rhs DIFFEPS ≠ -1)
    (hsp : Spread DIFFEPS K R (setupConstraints flip intPoint terms)) {L : BuiltLP}
    (hL : prlpSetup sortP INF DIFFEPS scale o.lp.numCols (setupConstraints flip intPoint terms) = some L)
    {β : List ℚ} (hβ : L.Feas INF β) (hne : L.nz ≠ []) {x : Vec} {p : SVec} {dep : ℚ}
    {rays : List (SVec × ℚ)} (ht : TermOutcome.collected p dep rays ∈ terms) {M U : ℚ} (hU : 0 ≤ U)
    (hx : NearTermCone o.lp.numCols p (rays.map (·.1)) (fun j => nbCoord o.lp x (o.nb.getD j 0))
      (E.EPS + E.RAYEPS * M) U)
    (ho : NBOrder o.lp ((scPairs o.lp.numCols L.nz β o.nb).map (·.1))) :
    (cutOf o L β flip scale EPS).lb ≤ sdot (cutOf o L β flip scale EPS).row x +
      errBound E EPS DIFFEPS scale K R M U o.lp.numCols (expand L.nz β) x := by
  set α := expand L.nz β with hα
  set n := o.lp.numCols with hn
  -- right-hand sides are 0 or ±1
  have hrhs1 : ∀ r ∈ setupConstraints flip intPoint terms, r.rhs = 0 ∨ r.rhs = 1 ∨ r.rhs = -1 := by
    intro r hr
    unfold setupConstraints at hr
    rcases List.mem_append.1 hr with hr | hr
    · cases hip : intPoint with
      | none => rw [hip] at hr; simp at hr
      | some q =>
        rw [hip] at hr
        simp only [List.mem_singleton] at hr
        subst hr
        exact .inr (.inl rfl)
    · obtain ⟨t, -, hr⟩ := List.mem_flatMap.1 hr
      unfold termRows at hr
      split at hr
      · rcases List.mem_cons.1 hr with rfl | hr
        · cases flip <;> simp
        · obtain ⟨q, -, rfl⟩ := List.mem_map.1 hr
          exact .inl rfl
      · simp at hr
  have hsame : ∀ r ∈ setupConstraints flip intPoint terms, ∀ r2 ∈ setupConstraints flip intPoint terms,
      (rhsLineUp r r2 = true ∨ (r.rhs = 0 ∧ r2.rhs = 0)) → r.rhs = r2.rhs := by
    intro r hr r2 hr2 h
    rcases h with h | ⟨h1, h2⟩
    · have hd := defEps_pos
      unfold rhsLineUp at h
      simp only [Bool.or_eq_true, Bool.and_eq_true, greaterThanVal_iff, lessThanVal_iff] at h
      rcases hrhs1 r hr with e1 | e1 | e1 <;> rcases hrhs1 r2 hr2 with e2 | e2 | e2 <;>
        rw [e1, e2] at h ⊢ <;> exfalso <;> rcases h with h | h <;> obtain ⟨ha, hb⟩ := h <;> linarith
    · rw [h1, h2]
  have hA : 0 ≤ absSum n α := sum_nonneg fun i _ => abs_nonneg _
  have hloss : 0 ≤ rowLoss DIFFEPS K R * absSum n α := by
    have hR : 0 ≤ R := by
      have hm : (⟨p, if flip then -1 else 1, dep⟩ : PRow) ∈ setupConstraints flip intPoint terms :=
        List.mem_append_right _ (List.mem_flatMap.2 ⟨_, ht, by simp [termRows]⟩)
      exact (abs_nonneg _).trans (hsp.size _ hm 0)
    refine mul_nonneg ?_ hA
    unfold rowLoss
    have := hsp.one
    have := defEps_pos
    positivity
  have hok : ∀ r ∈ setupConstraints flip intPoint terms,
      r.rhs * scale ≤ sdot r.vec α + rowLoss DIFFEPS K R * absSum n α +
        (if r.rhs = 0 then 0 else DIFFEPS * scale) := by
    intro r hr
    rcases setup_sound_partial sortP hsort INF DIFFEPS scale n _ hI hE hwf hno L hL β
      hβ r hr with h | ⟨r2, h2, h3, h5, h4⟩
    · have : 0 ≤ (if r.rhs = 0 then 0 else DIFFEPS * scale) := by
        split
        · exact le_refl _
        · exact mul_nonneg hE.le hsc
      unfold RowOK at h
      linarith
    · refine represented_row hE hsc hsp hwf.idx hr h2 (hsame r hr r2 h2 h5) ?_ h3 h4
      rcases hrhs1 r hr with e | e | e
      · exact .inl e
      · right; rw [e]; simpa using hE1
      · right; rw [e]; simpa using hE1
  have hmem : ∀ r ∈ termRows flip (.collected p dep rays),
      r ∈ setupConstraints flip intPoint terms := fun r hr =>
    List.mem_append_right _ (List.mem_flatMap.2 ⟨_, ht, hr⟩)
  have hpt : (⟨p, if flip then -1 else 1, dep⟩ : PRow) ∈ termRows flip (.collected p dep rays) := by
    simp [termRows]
  have hraym : ∀ r ∈ rays, r.1 ≠ [] → (⟨r.1, 0, r.2⟩ : PRow) ∈ termRows flip (.collected p dep rays) := by
    intro r hr hne
    unfold termRows
    refine List.mem_cons_of_mem _ (List.mem_map.2 ⟨r, List.mem_filter.2 ⟨hr, ?_⟩, rfl⟩)
    cases h : r.1 with
    | nil => exact absurd h hne
    | cons _ _ => rfl
  obtain ⟨w, hlen, hw, hwU, hnear⟩ := hx
  -- the nearby point of the cone
  let y' : Vec := fun i => scoef p i + ((w.zip (rays.map (·.1))).map fun q => q.1 * scoef q.2 i).sum
  have hcone : ddot n α y' = sdot p α + ((w.zip (rays.map (·.1))).map fun q => q.1 * sdot q.2 α).sum := by
    apply ddot_cone n α y' p _ (fun e he => hwf.idx _ (hmem _ hpt) e he) _ (fun i _ => rfl)
    intro q hq e he
    obtain ⟨r', hr', heq⟩ := List.mem_map.1 (List.of_mem_zip hq).2
    have hne : r'.1 ≠ [] := by intro h0; rw [← heq, h0] at he; simp at he
    rw [← heq] at he
    exact hwf.idx _ (hmem _ (hraym r' hr' hne)) e he
  have hpv := hok _ (hmem _ hpt)
  have hfl : (if flip then (-1 : ℚ) else 1) ≠ 0 := by cases flip <;> simp
  simp only [if_neg hfl] at hpv
  have hrv : ∀ r ∈ rays.map (·.1), -(rowLoss DIFFEPS K R * absSum n α) ≤ sdot r α := by
    intro r hr
    obtain ⟨r', hr', rfl⟩ := List.mem_map.1 hr
    by_cases hne : r'.1 = []
    · rw [hne]; simpa using hloss
    · have := hok _ (hmem _ (hraym r' hr' hne))
      simp only [zero_mul, if_true, add_zero] at this
      linarith
  have hws := weighted_sum_ge (α := α) hlen hw hrv
  have hUl : w.sum * (rowLoss DIFFEPS K R * absSum n α) ≤ U * (rowLoss DIFFEPS K R * absSum n α) :=
    mul_le_mul_of_nonneg_right hwU hloss
  have hdn := ddot_near (α := α) (y' := y') hnear
  have hnz : L.nz.Nodup ∧ ∀ j ∈ L.nz, j < n := by
    have h := prlpSetup_nz_sublist hL
    exact ⟨h.nodup List.nodup_range, fun j hj => List.mem_range.1 (h.subset hj)⟩
  rw [← nbDot_scPairs o.lp L.nz β o.nb x hne hnz.1 hnz.2] at hdn
  have hcut := setCut_error_bound o.lp L.nz β ((if flip then -1 else 1) * scale) EPS o.nb x ho h0
  simp only at hcut
  have h1 := (abs_le.1 hcut).1
  have h2 := (abs_le.1 hdn).1
  unfold cutOf errBound
  have hX : ∑ k ∈ range o.lp.numCols, |x k| = absSum n x := rfl
  rw [hX] at h1
  linarith

/-! ## End to end -/

/-- The LP solver tells the truth about `Q` as far as `x` can tell; `M` and `U` bound the movement
from its vertex to `x`. No lower bound on the size of any coordinate. -/
def AnsNear (E : NumEnv) (o : NBData) (Q : Relax) (x : Vec) (M U : ℚ) : LPAns → Prop
  | .notOptimal => ¬ Q.Feas x
  | .dualInfeasible => True
  | .optimal s => TermSolOk Q s ∧ moveSum Q s x ≤ M ∧ rayUnits E o Q s x ≤ U

/-- Truthful world of a term, without any assumption on the size of numbers. -/
structure WorldNear (E : NumEnv) (o : NBData) (strengthen : Bool) (V : Relax) (w : TermWorld) (t : Term)
    (x : Vec) (M U : ℚ) : Prop where
  time : w.timeUp = false
  solve : ∀ Q, termLP V t = .ok Q → AnsNear E o Q x M U (w.solve Q)
  gmic : strengthen = true → ∀ Q, termLP V t = .ok Q → ∀ c ∈ w.gmics Q, c.Sat x ∧
    ∀ e ∈ c.row, e.1 < V.lo.length
  solve2 : strengthen = true → ∀ Q, termLP V t = .ok Q →
    AnsNear E o (applyIneqs (w.gmics Q) Q) x M U (w.solve2 (applyIneqs (w.gmics Q) Q))

theorem NearTermCone.mono {n : ℕ} {p : SVec} {rays : List SVec} {y : Vec} {δ δ' U U' : ℚ}
    (h : NearTermCone n p rays y δ U) (hd : δ ≤ δ') (hU : U ≤ U') : NearTermCone n p rays y δ' U' := by
  obtain ⟨w, h1, h2, h3, h4⟩ := h
  exact ⟨w, h1, h2, h3.trans hU, fun i hi => (h4 i hi).trans hd⟩

theorem doTerm_near {E : NumEnv} (hsort : ∀ l, (E.sortDecr l).Perm l) (h0 : 0 ≤ E.EPS)
    (h0R : 0 ≤ E.RAYEPS) {o : NBData} {strengthen : Bool} {V : Relax} {w : TermWorld} {t : Term} {x : Vec}
    {M U : ℚ} (hV : NBOk V o) (ht : TermOk V t) (hf : t.feasible = true)
    (hw : WorldNear E o strengthen V w t x M U)
    (hx : V.Feas x) (hc : ∀ c ∈ t.changes, c.Sat x) (hi : ∀ c ∈ t.ineqs, c.Sat x)
    {r : Option ℚ × Term × TermOutcome} (h : doTerm E o strengthen V w t = .ok r) :
    ∃ p d rays, r.2.2 = .collected p d rays ∧
      NearTermCone o.lp.numCols p (rays.map (·.1)) (fun i => nbCoord o.lp x (o.nb.getD i 0))
        (E.EPS + E.RAYEPS * M) U := by
  unfold doTerm at h
  rw [hf] at h
  simp only [Bool.not_true, Bool.false_eq_true, if_false] at h
  obtain ⟨Q, hQ, h⟩ := Res.bind_ok h
  obtain ⟨href, hidx⟩ := termLP_refines ht hV.idx hQ
  have hxQ : Q.Feas x := by
    have h' := hQ
    unfold termLP at h'
    obtain ⟨Q1, h1, h'⟩ := Res.bind_ok h'
    simp only [Res.ok.injEq] at h'
    subst h'
    exact (applyIneqs_feas t.ineqs Q1 x).2 ⟨applyChanges_keeps h1 hx hc, hi⟩
  split at h
  · cases h
  have hfin : ∀ (Q' : Relax) (s : TermSol), Refines V Q' → Q'.Idx → Q'.Feas x → TermSolOk Q' s →
      moveSum Q' s x ≤ M ∧ rayUnits E o Q' s x ≤ U →
      finishTerm E o w t (some s) = .ok r → ∃ p d rays, r.2.2 = .collected p d rays ∧
      NearTermCone o.lp.numCols p (rays.map (·.1)) (fun i => nbCoord o.lp x (o.nb.getD i 0))
        (E.EPS + E.RAYEPS * M) U := by
    intro Q' s hR hI hF hS hN hfin
    unfold finishTerm at hfin
    rw [hw.time] at hfin
    simp only [Bool.false_eq_true, if_false] at hfin
    obtain ⟨oc, hoc, hfin⟩ := Res.bind_ok hfin
    simp only [Res.ok.injEq] at hfin
    subst hfin
    have hoc' := genDepth1_ok hoc
    exact ⟨_, _, _, hoc', (term_cone_near_partial hsort hV hR hI hS h0 h0R (by rw [hoc, hoc']) hF).mono
      (by have := mul_le_mul_of_nonneg_left hN.1 h0R; linarith) hN.2⟩
  have hans := hw.solve Q hQ
  obtain ⟨a, ha, h⟩ := Res.bind_ok h
  cases hsol : w.solve Q with
  | notOptimal => rw [hsol] at hans; exact absurd hxQ hans
  | dualInfeasible => rw [hsol] at ha; cases ha
  | optimal s =>
    rw [hsol] at ha hans
    simp only [LPAns.check, Res.ok.injEq] at ha
    subst ha
    simp only at h
    split at h
    · cases h
    unfold strengthenTerm at h
    cases hst : strengthen with
    | false =>
      rw [hst] at h
      simp only [Bool.false_eq_true, if_false, Res.bind] at h
      exact hfin Q s href hidx hxQ hans.1 hans.2 h
    | true =>
      rw [hst] at h
      simp only [if_true] at h
      obtain ⟨a2, ha2, h⟩ := Res.bind_ok h
      have hg := hw.gmic hst Q hQ
      have hans2 := hw.solve2 hst Q hQ
      have hx2 : (applyIneqs (w.gmics Q) Q).Feas x :=
        (applyIneqs_feas _ Q x).2 ⟨hxQ, fun c hc => (hg c hc).1⟩
      obtain ⟨hr2, hi2⟩ := applyIneqs_refines href hidx (fun c hc => (hg c hc).2)
      cases hsol2 : w.solve2 (applyIneqs (w.gmics Q) Q) with
      | notOptimal => rw [hsol2] at hans2; exact absurd hx2 hans2
      | dualInfeasible => rw [hsol2] at ha2; cases ha2
      | optimal s2 =>
        rw [hsol2] at ha2 hans2
        simp only [LPAns.check, Res.ok.injEq] at ha2
        subst ha2
        exact hfin _ s2 hr2 hi2 hx2 hans2.1 hans2.2 h

/-- **C03, end to end, with the tolerances of the code** (partial: truthful LP answers, no free
nonbasic variables or ranged rows, packed rows sorted, and no comparison of two points answering
"strictly stronger"). Every point of `V` that satisfies one of the terms marked feasible satisfies the
cut up to `errBound`. In contrast to `vpc_end_to_end_partial`, small coordinates, small coefficients
and rows that are nearly equal may occur and are dropped as the code drops them. -/
theorem vpc_error_bound_partial {E : NumEnv} (hsort : ∀ l, (E.sortDecr l).Perm l) (hE0 : 0 ≤ E.EPS)
    (hE0R : 0 ≤ E.RAYEPS) {V : Relax}
    {o : NBData} (hV : NBOk V o) {strengthen flip : Bool} {cost : Vec} {offset : ℚ}
    {w : ℕ → TermWorld} {D D' : Disj} {rows : List PRow}
    (hsetup : setupAll E o strengthen flip cost offset V w D = .ok (rows, D'))
    {sortP : List PRow → List PRow} (hsortP : ∀ l, (sortP l).Perm l)
    {INF DIFFEPS EPS scale K R : ℚ} (hI : 0 < INF) (hE : 0 < DIFFEPS) (hE1 : DIFFEPS ≤ 1)
    (h0 : 0 ≤ EPS) (hsc : 0 ≤ scale)
    (hwf : WellFormed scale o.lp.numCols rows)
    (hno : ∀ r ∈ rows, ∀ r2 ∈ rows, rhsLineUp r r2 = true →
      isRowDifferent r.vec r.rhs r2.vec r2.rhs DIFFEPS ≠ -1)
    (hsp : Spread DIFFEPS K R rows) {L : BuiltLP}
    (hL : prlpSetup sortP INF DIFFEPS scale o.lp.numCols rows = some L) (hne : L.nz ≠ [])
    {β : List ℚ} (hβ : L.Feas INF β)
    {x : Vec} (hx : V.Feas x) {i : ℕ} {t : Term} (hi : D.terms[i]? = some t)
    (hf : t.feasible = true) (ht : TermOk V t) {M U : ℚ} (hU : 0 ≤ U)
    (hw : WorldNear E o strengthen V (w i) t x M U)
    (hc : ∀ c ∈ t.changes, c.Sat x) (hq : ∀ c ∈ t.ineqs, c.Sat x) :
    (cutOf o L β flip scale EPS).lb ≤ sdot (cutOf o L β flip scale EPS).row x +
      errBound E EPS DIFFEPS scale K R M U o.lp.numCols (expand L.nz β) x := by
  unfold setupAll at hsetup
  obtain ⟨ip, hip, hsetup⟩ := Res.bind_ok hsetup
  obtain ⟨r, hr, hsetup⟩ := Res.bind_ok hsetup
  simp only [Res.ok.injEq, Prod.mk.injEq] at hsetup
  obtain ⟨hrows, -⟩ := hsetup
  subst hrows
  obtain ⟨q, hq', hm⟩ := doTerms_mem hr hi
  rw [Nat.zero_add] at hq'
  obtain ⟨p, d, rays, hcol, hcone⟩ := doTerm_near hsort hE0 hE0R hV ht hf hw hx hc hq hq'
  rw [hcol] at hm
  exact vpc_near_partial hsortP hI hE hE1 h0 hsc hwf hno hsp hL hβ hne hm hU hcone
    (nbOrder_scPairs hV.order hV.len hne (prlpSetup_nz_sublist hL))

/-- One run of the generator on the disjunction `D` of the problem `P`, without any assumption on the
size of numbers (compare `RunOk`). -/
structure RunNear (E : NumEnv) (D : Disj) (P : Relax) (st : RootSt) (o : NBData) (strengthen flip : Bool)
    (w : ℕ → TermWorld) (L : BuiltLP) (INF DIFFEPS scale K R M U : ℚ) (x : Vec) : Prop where
  sort : ∀ l, (E.sortDecr l).Perm l
  eps : 0 ≤ E.EPS ∧ 0 ≤ E.RAYEPS ∧ 0 < DIFFEPS ∧ DIFFEPS ≤ 1
  pos : 0 < INF ∧ 0 ≤ scale ∧ 0 ≤ U
  root : ∃ DIFFEPS limit bad opt, rootChanges DIFFEPS limit bad opt D P = .ok (false, st)
  nb : NBOk st.V o
  prlp : ∃ cost offset rows D' sortP,
    setupAll E o strengthen flip cost offset st.V w D = .ok (rows, D') ∧
    (∀ l : List PRow, (sortP l).Perm l) ∧ WellFormed scale o.lp.numCols rows ∧
    (∀ r ∈ rows, ∀ r2 ∈ rows, rhsLineUp r r2 = true →
      isRowDifferent r.vec r.rhs r2.vec r2.rhs DIFFEPS ≠ -1) ∧ Spread DIFFEPS K R rows ∧
    prlpSetup sortP INF DIFFEPS scale o.lp.numCols rows = some L
  nz : L.nz ≠ []
  terms : ∀ t ∈ D.terms, TermOk st.V t
  world : ∀ i t, D.terms[i]? = some t → WorldNear E o strengthen st.V (w i) t x M U

/-- Every point in a term marked feasible satisfies every cut obtained from a feasible solution of the
point-ray LP up to `errBound`. -/
theorem run_near_partial {E : NumEnv} {D : Disj} {P : Relax} {st : RootSt} {o : NBData}
    {strengthen flip : Bool} {w : ℕ → TermWorld} {L : BuiltLP} {INF DIFFEPS scale K R M U EPS : ℚ} {x : Vec}
    (h : RunNear E D P st o strengthen flip w L INF DIFFEPS scale K R M U x) (h0 : 0 ≤ EPS) {t : Term}
    (ht : t ∈ D.terms) (hf : t.feasible = true) (hx : InTerm P D t x)
    (hi : ∀ c ∈ D.commonIneqs, c.Sat x) {β : List ℚ} (hβ : L.Feas INF β) :
    (cutOf o L β flip scale EPS).lb ≤ sdot (cutOf o L β flip scale EPS).row x +
      errBound E EPS DIFFEPS scale K R M U o.lp.numCols (expand L.nz β) x := by
  obtain ⟨hP, hc, htc, hti⟩ := hx
  obtain ⟨DE, limit, bad, opt, hroot⟩ := h.root
  obtain ⟨cost, offset, rows, D', sortP, h1, h2, h3, h4, h5, h6⟩ := h.prlp
  obtain ⟨i, hi'⟩ := List.getElem?_of_mem ht
  exact vpc_error_bound_partial h.sort h.eps.1 h.eps.2.1 h.nb h1 h2 h.pos.1 h.eps.2.2.1 h.eps.2.2.2 h0
    h.pos.2.1 h3 h4 h5 h6 h.nz hβ (rootChanges_keeps hroot hP hc hi) hi' hf (h.terms t ht) h.pos.2.2
    (h.world i t hi') htc hti

/-- Cleaning a cut that is violated by at most `ε` gives a cut violated by at most `ε + EPS`. -/
theorem cutFrom_near {e : GenEnv} {x : List ℚ} {c : RowCut} (hc : CutFrom e x c)
    (he : e.clean.EPS = e.EPS) {y : Vec}
    (hy : InBox e.solver.colLower e.solver.colUpper y) {ε : ℚ} (h0 : 0 ≤ e.EPS)
    (hs : (setCutFromNBCoefficients e.lp e.nz x e.beta e.nbVar e.EPS).lb ≤
      sdot (setCutFromNBCoefficients e.lp e.nz x e.beta e.nbVar e.EPS).row y + ε) :
    c.lb ≤ sdot c.row y + ε + e.EPS := by
  have hcl : c = removeSmallCoefficients e.solver.colLower e.solver.colUpper e.solver.obj e.clean.EPS
      e.clean.EPS_COEFF (setCutFromNBCoefficients e.lp e.nz x e.beta e.nbVar e.EPS) := by
    rw [← cleanCut_fst e.norm, hc]
  have ht : tinyMass e.clean.EPS (setCutFromNBCoefficients e.lp e.nz x e.beta e.nbVar e.EPS).row y = 0 := by
    unfold tinyMass
    rw [List.filter_eq_nil_iff.2]
    · simp
    · intro d hd
      rw [he]
      simpa using setCut_noTiny _ _ _ _ _ _ d hd
  have hb := rsc_row_bound (obj := e.solver.obj) (EPS := e.clean.EPS) (EC := e.clean.EPS_COEFF) hy
    (setCutFromNBCoefficients e.lp e.nz x e.beta e.nbVar e.EPS).row
  rw [ht] at hb
  rw [hcl]
  unfold removeSmallCoefficients
  simp only [foldl_sub_eq (fun s : Option (ℕ × ℚ) × ℚ => s.2)]
  split
  · rename_i h
    rw [isZero_iff, abs_lt] at h
    have h1 := h.1
    linarith
  · linarith

/-- **C03/C103, the whole cut loop, with the tolerances of the code** (partial: as
`vpc_error_bound_partial`). Whatever objectives are tried with a truthful LP solver, every cut added was
obtained from some solution of the point-ray LP and is satisfied, by every point of the problem lying in
a term marked feasible, up to the error bound of that solution plus `EPS`. -/
theorem target_cuts_near_partial {W : TWorld} {INF : ℚ} {L : BuiltLP} (hw : L.WF) (hW : W.Sorts L)
    (hT : W.Truthful INF) {cur : Option (List ℚ)} {g : Gen} {st : TSt}
    (h : targetCuts W L cur g = .ok st)
    {E : NumEnv} {D : Disj} {P : Relax} {rt : RootSt} {o : NBData} {strengthen flip : Bool}
    {w : ℕ → TermWorld} {DIFFEPS scale K R M U : ℚ} {x : Vec}
    (henv : W.env.lp = o.lp ∧ W.env.nz = L.nz ∧ W.env.nbVar = o.nb ∧
      W.env.beta = (if flip then -1 else 1) * scale)
    (heps : W.env.clean.EPS = W.env.EPS) (h0 : 0 ≤ W.env.EPS)
    (hrun : RunNear E D P rt o strengthen flip w L INF DIFFEPS scale K R M U x)
    {t : Term} (ht : t ∈ D.terms) (hf : t.feasible = true) (hx : InTerm P D t x)
    (hi : ∀ c ∈ D.commonIneqs, c.Sat x)
    (hbox : InBox W.env.solver.colLower W.env.solver.colUpper x) :
    ∀ c ∈ st.g.cuts, c ∈ g.cuts ∨ ∃ a ∈ st.log, ∃ β, a.sol? = some β ∧
      c.cut.lb ≤ sdot c.cut.row x +
        errBound E W.env.EPS DIFFEPS scale K R M U o.lp.numCols (expand L.nz β) x + W.env.EPS := by
  intro c hc
  rcases cuts_from_attempts hW h c hc with h1 | ⟨a, ha, β, hβ, hcf⟩
  · exact .inl h1
  · right
    refine ⟨a, ha, β, hβ, ?_⟩
    have hfe := (solutions_optimal hw hW hT h a ha β hβ).1
    have hv := run_near_partial hrun h0 ht hf hx hi hfe
    refine cutFrom_near hcf heps hbox h0 ?_
    unfold cutOf at hv
    rw [henv.1, henv.2.1, henv.2.2.1, henv.2.2.2]
    exact hv

end VPC
