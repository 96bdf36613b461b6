import Verif.Model.Collect
import Verif.Props.Validity
import Verif.Props.Disj

/-! # C03: the collected point and rays describe the term's relaxation -/
namespace VPC
open Finset

/-! ## Specification: what an LP solver must provide -/

/-- Right-hand side `getRightHandSide()` of a row that is `≤`, `≥` or `=`. -/
def MRow.rhs (r : MRow) : ℚ := r.ub.getD (r.lb.getD 0)

/-- Row `i` of an LP (an empty row outside). -/
def Relax.row (Q : Relax) (i : ℕ) : MRow := Q.rows.getD i ⟨[], none, none⟩

/-- A row of one of the kinds `≤`, `≥`, `=` (not ranged, not free). -/
def MRow.Simple (r : MRow) : Prop :=
  (r.lb = none ∧ r.ub ≠ none) ∨ (r.lb ≠ none ∧ r.ub = none) ∨ (r.lb ≠ none ∧ r.lb = r.ub)

/-- Value of variable `k` (structural or slack) at the point `x`. -/
def varVal (Q : Relax) (x : Vec) (k : ℕ) : ℚ :=
  if k < Q.lo.length then x k
  else (Q.row (k - Q.lo.length)).rhs - sdot (Q.row (k - Q.lo.length)).coeffs x

/-- Column of variable `k` in the equality system `A x + s = b`. -/
def sysCol (Q : Relax) (k : ℕ) : Vec := fun i =>
  if k < Q.lo.length then scoef (Q.row i).coeffs k else if k = Q.lo.length + i then 1 else 0

/-- Every column index in the rows is a column of the LP. -/
def Relax.Idx (Q : Relax) : Prop := ∀ r ∈ Q.rows, ∀ e ∈ r.coeffs, e.1 < Q.lo.length

/-- The LP solver's answer for the LP `Q` is what it claims to be: a feasible basic solution, the
tableau of its basis, and the true status of the nonbasic variables (none of them free). -/
structure TermSolOk (Q : Relax) (s : TermSol) : Prop where
  feas : Q.Feas s.x
  basis : ∃ Binv : ℕ → Vec,
    BasisSpec (Q.lo.length + Q.rows.length) Q.rows.length (sysCol Q) Binv s.row ∧
    ∀ j ∈ s.nb, s.tab j = tabCol Q.rows.length (sysCol Q) Binv j
  nodup : s.nb.Nodup
  nb : ∀ j, j ∈ s.nb ↔ j < Q.lo.length + Q.rows.length ∧ s.row j = none
  one : ∀ j ∈ s.nb, s.isLB j = !(s.isUB j)
  col : ∀ j ∈ s.nb, j < Q.lo.length →
    if s.isUB j then Q.hi[j]? = some (some (s.x j)) else Q.lo[j]? = some (some (s.x j))
  slack : ∀ j ∈ s.nb, Q.lo.length ≤ j → varVal Q s.x j = 0 ∧
    if s.isUB j then (Q.row (j - Q.lo.length)).lb = some (Q.row (j - Q.lo.length)).rhs
    else (Q.row (j - Q.lo.length)).ub = some (Q.row (j - Q.lo.length)).rhs
  fixed : ∀ j ∈ s.nb, s.isFixed j = true → ∀ x, Q.Feas x → varVal Q x j = varVal Q s.x j

/-- The LP data `lp` read by the coordinate functions are those of the constraints `V`, all of whose
rows are `≤`, `≥` or `=`. -/
structure LPOf (lp : LP) (V : Relax) : Prop where
  cols : lp.numCols = V.lo.length
  hi : ∀ k u, V.hi[k]? = some (some u) → lp.colUpper k = u
  lo : ∀ k l, V.lo[k]? = some (some l) → lp.colLower k = l
  row : ∀ r < V.rows.length, lp.rows r = (V.row r).coeffs
  rhs : ∀ r < V.rows.length, lp.rhs r = (V.row r).rhs
  sense : ∀ r < V.rows.length, match lp.sense r with
    | .L => (V.row r).lb = none ∧ (V.row r).ub ≠ none
    | .G => (V.row r).lb ≠ none ∧ (V.row r).ub = none
    | .E => (V.row r).lb ≠ none ∧ (V.row r).lb = (V.row r).ub
    | .R => False

/-- The nonbasic space is that of a basis of `V`: one nonbasic variable per column, structural ones
first, each at the bound it is recorded at. -/
structure NBOk (V : Relax) (o : NBData) : Prop where
  lp : LPOf o.lp V
  idx : V.Idx
  len : o.nb.length = o.lp.numCols
  order : NBOrder o.lp o.nb
  lt : ∀ k ∈ o.nb, k < V.lo.length + V.rows.length
  col : ∀ k ∈ o.nb, k < V.lo.length →
    if o.isUB k then o.lp.colStat k = .atUpper ∧ V.hi[k]? = some (some (o.sol k))
    else o.lp.colStat k = .atLower ∧ V.lo[k]? = some (some (o.sol k))
  slack : ∀ k ∈ o.nb, V.lo.length ≤ k →
    if o.isUB k then o.lp.sense (k - V.lo.length) ≠ .L else o.lp.sense (k - V.lo.length) ≠ .G

/-- `Q` is `V` with tightened columns bounds and rows appended. -/
structure Refines (V Q : Relax) : Prop where
  cols : Q.lo.length = V.lo.length
  rows : V.rows <+: Q.rows
  feas : ∀ x, Q.Feas x → V.Feas x

/-- No coordinate is so small that the sparse form drops it. -/
def NoTiny (E : NumEnv) (o : NBData) (s : TermSol) : Prop :=
  (∀ k ∈ o.nb, compCoor o.lp o.sol s.x k = 0 ∨ E.EPS ≤ |compCoor o.lp o.sol s.x k|) ∧
  ∀ j ∈ s.nb, ∀ v ∈ rayVals o s j, v = 0 ∨ E.RAYEPS ≤ |v|

/-! ## Lemmas -/

theorem scoef_of_mem_nodup {base : SVec} (hnd : (base.map (·.1)).Nodup) {i : ℕ} {v : ℚ}
    (h : (i, v) ∈ base) : scoef base i = v := by
  induction base with
  | nil => simp at h
  | cons e t ih =>
    simp only [List.map_cons, List.nodup_cons] at hnd
    rcases List.mem_cons.1 h with rfl | h
    · rw [scoef_cons, if_pos rfl, scoef_eq_zero_of_forall_ne, add_zero]
      intro e' he' heq
      exact hnd.1 (List.mem_map.2 ⟨e', he', heq⟩)
    · rw [scoef_cons, ih hnd.2 h, if_neg, zero_add]
      intro heq
      exact hnd.1 (List.mem_map.2 ⟨_, h, heq.symm⟩)

theorem scoef_packed {base : SVec} {vals : List ℚ} (hnd : (base.map (·.1)).Nodup)
    (htrue : ∀ e ∈ base, vals[e.1]? = some e.2)
    (hall : ∀ (i : ℕ) (v : ℚ), vals[i]? = some v → v ≠ 0 → (i, v) ∈ base)
    {i : ℕ} {v : ℚ} (hi : vals[i]? = some v) : scoef base i = v := by
  by_cases hv : v = 0
  · rw [hv]
    by_cases hm : ∃ w, (i, w) ∈ base
    · obtain ⟨w, hw⟩ := hm
      have := htrue _ hw
      rw [hi] at this
      simp only [Option.some.injEq] at this
      rw [scoef_of_mem_nodup hnd hw, ← this, hv]
    · apply scoef_eq_zero_of_forall_ne
      rintro ⟨a, b⟩ he rfl
      exact hm ⟨b, he⟩
  · exact scoef_of_mem_nodup hnd (hall i v hi hv)

theorem scoef_scaled (base : SVec) (c : ℚ) (i : ℕ) :
    scoef (base.map fun e => (e.1, e.2 * c)) i = scoef base i * c := by
  induction base with
  | nil => simp
  | cons e t ih =>
    rw [List.map_cons, scoef_cons, scoef_cons, ih, add_mul]
    congr 1
    simp only
    split <;> ring

theorem sys_eq (Q : Relax) (hidx : Q.Idx) (x : Vec) (i : ℕ) (hi : i < Q.rows.length) :
    ∑ k ∈ range (Q.lo.length + Q.rows.length), sysCol Q k i * varVal Q x k = (Q.row i).rhs := by
  have hmem : Q.row i ∈ Q.rows := by
    unfold Relax.row
    rw [List.getD_eq_getElem?_getD, List.getElem?_eq_getElem hi]
    exact List.getElem_mem hi
  rw [sum_range_add]
  have h1 : ∑ k ∈ range Q.lo.length, sysCol Q k i * varVal Q x k = sdot (Q.row i).coeffs x := by
    rw [sdot_eq_sum Q.lo.length _ x (hidx _ hmem)]
    apply sum_congr rfl
    intro k hk
    rw [mem_range] at hk
    simp [sysCol, varVal, hk]
  have h2 : ∑ k ∈ range Q.rows.length, sysCol Q (Q.lo.length + k) i * varVal Q x (Q.lo.length + k)
      = (Q.row i).rhs - sdot (Q.row i).coeffs x := by
    rw [sum_eq_single i]
    · simp [sysCol, varVal]
    · intro k _ hk
      have : ¬ (Q.lo.length + k = Q.lo.length + i) := by omega
      simp [sysCol, hk]
    · intro h; exact absurd (mem_range.2 hi) h
  rw [h1, h2]; ring

/-- The packed ray of a nonbasic variable, with its scale. -/
def rayOf (E : NumEnv) (o : NBData) (s : TermSol) (j : ℕ) : SVec × ℚ :=
  packRay E.sortDecr E.expo E.EPS E.RAYEPS (s.rayObj j) o.rc (rayVals o s j)

/-- The variables whose ray is stored: not fixed, and the packed ray is not empty. -/
def rayKept (E : NumEnv) (o : NBData) (s : TermSol) (j : ℕ) : Bool :=
  !(s.isFixed j) && !((rayOf E o s j).1.isEmpty)

theorem collectRays_ok {E : NumEnv} {o : NBData} {s : TermSol} {js : List ℕ}
    {rs : List (SVec × ℚ)} (h : collectRays E o s js = .ok rs) :
    rs = (js.filter (rayKept E o s)).map fun j => ((rayOf E o s j).1, s.rayObj j) := by
  induction js generalizing rs with
  | nil => simp only [collectRays, Res.ok.injEq] at h; subst h; rfl
  | cons j js ih =>
    simp only [collectRays] at h
    cases hf : s.isFixed j with
    | true =>
      rw [hf, if_pos rfl] at h
      rw [ih h, List.filter_cons_of_neg (by simp [rayKept, hf])]
    | false =>
      rw [hf, if_neg (by simp)] at h
      obtain ⟨r, hr, h⟩ := Res.bind_ok h
      obtain ⟨rs', hrs', h⟩ := Res.bind_ok h
      simp only [Res.ok.injEq] at h
      subst h
      rw [ih hrs']
      unfold collectRay at hr
      dsimp only at hr
      split at hr
      · cases hr
      split at hr
      · rename_i he
        simp only [Res.ok.injEq] at hr; subst hr
        rw [List.filter_cons_of_neg (by
          simp only [rayKept, rayOf]; rw [he]; simp)]
        rfl
      · rename_i he
        split at hr
        · cases hr
        · simp only [Res.ok.injEq] at hr; subst hr
          rw [List.filter_cons_of_pos (by
            simp only [rayKept, rayOf, hf, Bool.not_false, Bool.true_and, Bool.not_eq_true',
              List.isEmpty_eq_false_iff]
            exact he), List.map_cons]
          rfl

theorem genDepth1_ok {E : NumEnv} {o : NBData} {s : TermSol} {oc : TermOutcome}
    (h : genDepth1 E o s = .ok oc) :
    oc = .collected
      (setCompNBCoorPoint E.sortDecr E.EPS (s.obj - o.obj) o.lp o.sol s.x o.nb o.rc) (s.obj - o.obj)
      ((s.nb.filter (rayKept E o s)).map fun j => ((rayOf E o s j).1, s.rayObj j)) := by
  unfold genDepth1 at h
  obtain ⟨p, hp, h⟩ := Res.bind_ok h
  obtain ⟨rs, hrs, h⟩ := Res.bind_ok h
  simp only [Res.ok.injEq] at h
  subst h
  rw [collectRays_ok hrs]
  unfold collectPoint at hp
  simp only at hp
  split at hp
  · cases hp
  · simp only [Res.ok.injEq] at hp; subst hp; rfl

/-- The rows of `V` are the first rows of a refinement. -/
theorem Refines.row {V Q : Relax} (h : Refines V Q) {i : ℕ} (hi : i < V.rows.length) :
    Q.row i = V.row i := by
  obtain ⟨t, ht⟩ := h.rows
  unfold Relax.row
  rw [← ht, List.getD_eq_getElem?_getD, List.getD_eq_getElem?_getD, List.getElem?_append_left hi]

theorem Relax.Feas.row {Q : Relax} {x : Vec} (h : Q.Feas x) {i : ℕ} (hi : i < Q.rows.length) :
    geLo (Q.row i).lb (sdot (Q.row i).coeffs x) ∧ leHi (Q.row i).ub (sdot (Q.row i).coeffs x) := by
  apply h.2.2
  unfold Relax.row
  rw [List.getD_eq_getElem?_getD, List.getElem?_eq_getElem hi]
  exact List.getElem_mem hi

/-- The original vertex has the coordinate value of its bound. -/
def baseVal (V : Relax) (o : NBData) (k : ℕ) : ℚ := if k < V.lo.length then o.sol k else 0

/-- For a feasible point, the computed coordinate is the complemented coordinate, and both are the
signed distance from the original vertex. -/
theorem coor_signed {V Q : Relax} {o : NBData} (hV : NBOk V o) (hQ : Refines V Q) {x : Vec}
    (hx : Q.Feas x) {k : ℕ} (hk : k ∈ o.nb) :
    nbCoord o.lp x k = (if o.isUB k then -1 else 1) * (varVal Q x k - baseVal V o k) ∧
    compCoor o.lp o.sol x k = (if o.isUB k then -1 else 1) * (varVal Q x k - baseVal V o k) := by
  have hxV := hQ.feas x hx
  have hkl := hV.lt k hk
  unfold nbCoord compCoor varVal baseVal
  rw [hV.lp.cols, hQ.cols]
  by_cases hc : k < V.lo.length
  · have hcol := hV.col k hk hc
    simp only [if_pos hc]
    cases hu : o.isUB k with
    | true =>
      rw [hu, if_pos rfl] at hcol
      have hb := hxV.2.1 k _ hcol.2 _ rfl
      rw [hcol.1, hV.lp.hi k _ hcol.2]
      simp only [if_true]
      rw [abs_of_nonpos (by linarith)]
      constructor <;> ring
    | false =>
      rw [hu, if_neg (by simp)] at hcol
      have hb := hxV.1 k _ hcol.2 _ rfl
      rw [hcol.1, hV.lp.lo k _ hcol.2]
      simp only [Bool.false_eq_true, if_false]
      rw [abs_of_nonneg (by linarith)]
      constructor <;> ring
  · have hr : k - V.lo.length < V.rows.length := by omega
    have hs := hV.slack k hk (by omega)
    have hse := hV.lp.sense _ hr
    have hrow := hxV.row hr
    simp only [if_neg hc]
    rw [hV.lp.row _ hr, hV.lp.rhs _ hr, hQ.row hr]
    set R := V.row (k - V.lo.length) with hR
    cases hsn : o.lp.sense (k - V.lo.length) with
    | L =>
      rw [hsn] at hse hs
      have hu : o.isUB k = false := by
        cases hu : o.isUB k with
        | false => rfl
        | true => rw [hu, if_pos rfl] at hs; exact absurd rfl hs
      obtain ⟨u, hu'⟩ := Option.ne_none_iff_exists'.1 hse.2
      have h1 := hrow.2 u hu'
      have h2 : R.rhs = u := by simp [MRow.rhs, hu']
      rw [h2, hu]
      simp only [Bool.false_eq_true, if_false, reduceCtorEq]
      rw [abs_of_nonneg (by linarith)]
      constructor <;> ring
    | G =>
      rw [hsn] at hse hs
      have hu : o.isUB k = true := by
        cases hu : o.isUB k with
        | true => rfl
        | false => rw [hu, if_neg (by simp)] at hs; exact absurd rfl hs
      obtain ⟨l, hl⟩ := Option.ne_none_iff_exists'.1 hse.1
      have h1 := hrow.1 l hl
      have h2 : R.rhs = l := by simp [MRow.rhs, hl, hse.2]
      rw [h2, hu]
      simp only [if_true]
      rw [abs_of_nonpos (by linarith)]
      constructor <;> ring
    | E =>
      rw [hsn] at hse
      obtain ⟨l, hl⟩ := Option.ne_none_iff_exists'.1 hse.1
      have h1 := hrow.1 l hl
      have hu' : R.ub = some l := by rw [← hse.2]; exact hl
      have h3 := hrow.2 l hu'
      have h2 : R.rhs = l := by simp [MRow.rhs, hu']
      have h4 : sdot R.coeffs x = l := le_antisymm h3 h1
      rw [h2, h4]
      simp
    | R => rw [hsn] at hse; exact hse.elim

/-- On which side of its value at the vertex a nonbasic variable lies. -/
theorem nb_side {Q : Relax} {s : TermSol} (hs : TermSolOk Q s) {x : Vec} (hx : Q.Feas x) {j : ℕ}
    (hj : j ∈ s.nb) :
    if s.isUB j then varVal Q x j ≤ varVal Q s.x j else varVal Q s.x j ≤ varVal Q x j := by
  have hlt := ((hs.nb j).1 hj).1
  by_cases hc : j < Q.lo.length
  · have h := hs.col j hj hc
    unfold varVal
    simp only [if_pos hc]
    cases hu : s.isUB j with
    | true => rw [hu, if_pos rfl] at h; simpa using hx.2.1 j _ h _ rfl
    | false => rw [hu, if_neg (by simp)] at h; simpa using hx.1 j _ h _ rfl
  · obtain ⟨h0, h⟩ := hs.slack j hj (by omega)
    have hr : j - Q.lo.length < Q.rows.length := by omega
    have hrow := hx.row hr
    rw [h0]
    unfold varVal
    simp only [if_neg hc]
    cases hu : s.isUB j with
    | true =>
      rw [hu, if_pos rfl] at h
      have := hrow.1 _ h
      simp only [if_true]; linarith
    | false =>
      rw [hu, if_neg (by simp)] at h
      have := hrow.2 _ h
      simp only [Bool.false_eq_true, if_false]; linarith

theorem getElem?_nb {nb : List ℕ} {f : ℕ → ℚ} {i : ℕ} (hi : i < nb.length) :
    (nb.map f)[i]? = some (f (nb.getD i 0)) := by
  rw [List.getElem?_map, List.getD_eq_getElem?_getD, List.getElem?_eq_getElem hi]; rfl

theorem filter_sum_zero (l : List ℕ) (p : ℕ → Bool) (f : ℕ → ℚ) (h : ∀ j ∈ l, p j = false → f j = 0) :
    ((l.filter p).map f).sum = (l.map f).sum := by
  induction l with
  | nil => rfl
  | cons a l ih =>
    have ih := ih fun j hj => h j (by simp [hj])
    cases hp : p a with
    | true => rw [List.filter_cons_of_pos hp, List.map_cons, List.map_cons, List.sum_cons,
        List.sum_cons, ih]
    | false => rw [List.filter_cons_of_neg (by simp [hp]), ih, List.map_cons, List.sum_cons,
        h a (by simp) hp, zero_add]

/-- C03 (partial: hypothesis `NoTiny` excludes the dropping of small coordinates, and the basis has no
free nonbasic variable and no ranged row, which the code gets wrong: see `rayCoor_free_wrong`,
`compCoor_ranged_wrong`). Let `Q` be the LP of a term, obtained from `V` by tightening, and let the LP
solver's answer be truthful. Then *every* point of `Q` — not only integer ones — lies, in the
nonbasic coordinates of `V`, in the vertex plus the cone of the rays that the code collects. -/
theorem term_cone_partial {E : NumEnv} (hsort : ∀ l, (E.sortDecr l).Perm l) {V Q : Relax} {o : NBData}
    {s : TermSol} (hV : NBOk V o) (hQ : Refines V Q) (hidx : Q.Idx) (hs : TermSolOk Q s)
    (hnt : NoTiny E o s) {p : SVec} {d : ℚ} {rays : List (SVec × ℚ)}
    (h : genDepth1 E o s = .ok (.collected p d rays)) {x : Vec} (hx : Q.Feas x) :
    InTermCone o.lp.numCols p (rays.map (·.1)) (fun i => nbCoord o.lp x (o.nb.getD i 0)) := by
  have h' := genDepth1_ok h
  simp only [TermOutcome.collected.injEq] at h'
  obtain ⟨hp, -, hr⟩ := h'
  let js := s.nb.filter (rayKept E o s)
  let pk : ℕ → SVec × ℚ := fun j =>
    packRay E.sortDecr E.expo E.EPS E.RAYEPS (s.rayObj j) o.rc (rayVals o s j)
  let dist : ℕ → ℚ := fun j => |varVal Q x j - varVal Q s.x j|
  have hrays : rays.map (·.1) = js.map fun j => (pk j).1 := by
    rw [hr, List.map_map]; rfl
  refine ⟨js.map fun j => dist j / (pk j).2, by rw [hrays]; simp, ?_, ?_⟩
  · intro c hc
    obtain ⟨j, _, rfl⟩ := List.mem_map.1 hc
    exact div_nonneg (abs_nonneg _) (le_of_lt (packRay_spec E.sortDecr hsort E.expo E.EPS E.RAYEPS
      (s.rayObj j) o.rc (rayVals o s j)).1)
  intro i hi
  have hil : i < o.nb.length := by rw [hV.len]; exact hi
  set k := o.nb.getD i 0 with hk
  have hkm : k ∈ o.nb := by
    rw [hk, List.getD_eq_getElem?_getD, List.getElem?_eq_getElem hil]; exact List.getElem_mem hil
  obtain ⟨hx1, -⟩ := coor_signed hV hQ hx hkm
  obtain ⟨-, hs2⟩ := coor_signed hV hQ hs.feas hkm
  -- the point
  have hpt : scoef p i = compCoor o.lp o.sol s.x k := by
    rw [hp]
    unfold setCompNBCoorPoint
    obtain ⟨h1, h2, -⟩ := packCoor_spec E.sortDecr hsort E.EPS (s.obj - o.obj) o.rc
      (o.nb.map (compCoor o.lp o.sol s.x))
    refine scoef_packed (packCoor_nodup E.sortDecr hsort E.EPS (s.obj - o.obj) o.rc _) h1 ?_
      (getElem?_nb hil)
    intro a v ha hv
    apply h2 a v ha
    obtain ⟨k', hk', rfl⟩ := List.mem_map.1 (List.mem_of_getElem? ha)
    exact (hnt.1 k' hk').resolve_left hv
  -- the rays
  have hray : ∀ j ∈ s.nb, scoef (pk j).1 i
      = rayCoor j k (s.isUB j) (o.isUB k) (s.row k) (genRay (s.isLB j) (s.tab j)) * (pk j).2 := by
    intro j hj
    obtain ⟨-, base, hb, hnd, h1, h2, -⟩ := packRay_spec E.sortDecr hsort E.expo E.EPS E.RAYEPS
      (s.rayObj j) o.rc (rayVals o s j)
    show scoef (packRay E.sortDecr E.expo E.EPS E.RAYEPS (s.rayObj j) o.rc (rayVals o s j)).1 i = _
    rw [hb, scoef_scaled]
    congr 1
    refine scoef_packed hnd h1 ?_ (getElem?_nb hil)
    intro a v ha hv
    exact h2 a v ha ((hnt.2 j hj v (List.mem_of_getElem? ha)).resolve_left hv)
  rw [hrays]
  have hzip : ((js.map fun j => dist j / (pk j).2).zip (js.map fun j => (pk j).1)).map
      (fun q => q.1 * scoef q.2 i)
      = js.map fun j => dist j *
        rayCoor j k (s.isUB j) (o.isUB k) (s.row k) (genRay (s.isLB j) (s.tab j)) := by
    rw [List.zip_map', List.map_map]
    apply List.map_congr_left
    intro j hj
    have hjn : j ∈ s.nb := (List.mem_filter.1 hj).1
    simp only [Function.comp]
    rw [hray j hjn]
    have hpos := (packRay_spec E.sortDecr hsort E.expo E.EPS E.RAYEPS
      (s.rayObj j) o.rc (rayVals o s j)).1
    have hne : (pk j).2 ≠ 0 := ne_of_gt hpos
    field_simp
  rw [hzip, hpt]
  -- fixed variables do not move
  rw [filter_sum_zero s.nb _ _ (by
    intro j hj hf
    show |varVal Q x j - varVal Q s.x j| * _ = 0
    cases hfx : s.isFixed j with
    | true => rw [hs.fixed j hj hfx x hx]; simp
    | false =>
      have he : (pk j).1 = [] := by
        simpa [rayKept, hfx, rayOf, pk] using hf
      have h0 := hray j hj
      have hpos := (packRay_spec E.sortDecr hsort E.expo E.EPS E.RAYEPS
        (s.rayObj j) o.rc (rayVals o s j)).1
      have hne : (pk j).2 ≠ 0 := ne_of_gt hpos
      rw [he, show scoef ([] : SVec) i = 0 from rfl] at h0
      rw [(mul_eq_zero.1 h0.symm).resolve_right hne, mul_zero])]
  obtain ⟨Binv, hB, htab⟩ := hs.basis
  have hset : (range (Q.lo.length + Q.rows.length)).filter (fun j => s.row j = none) = s.nb.toFinset := by
    ext j
    rw [mem_filter, mem_range, List.mem_toFinset, hs.nb j]
  have hkl : k < Q.lo.length + Q.rows.length := by
    have := hV.lt k hkm
    have h2 := hQ.rows.length_le
    rw [hQ.cols]; omega
  have hcd := corner_decomposition hB (varVal Q x) (varVal Q s.x) (by
      intro i hi; rw [sys_eq Q hidx x i hi, sys_eq Q hidx s.x i hi]) s.isUB
    (by intro j hj hn; exact nb_side hs hx ((hs.nb j).2 ⟨hj, hn⟩)) k hkl (o.isUB k)
  rw [hset, List.sum_toFinset _ hs.nodup] at hcd
  have hlist : (s.nb.map fun j => dist j *
        rayCoor j k (s.isUB j) (o.isUB k) (s.row k) (genRay (s.isLB j) (s.tab j)))
      = s.nb.map fun j => |varVal Q x j - varVal Q s.x j| *
        rayCoor j k (s.isUB j) (o.isUB k) (s.row k)
          (genRay (!(s.isUB j)) (tabCol Q.rows.length (sysCol Q) Binv j)) := by
    apply List.map_congr_left
    intro j hj
    rw [hs.one j hj, htab j hj]
  rw [hlist, ← hcd, hs2]
  show nbCoord o.lp x k = _
  rw [hx1]
  ring

end VPC
