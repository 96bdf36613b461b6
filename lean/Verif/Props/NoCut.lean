import Verif.Props.Farkas
import Verif.Props.Validity
import Verif.Props.PrlpTime

/-!
# C147: a point-ray LP without solution; C148: an optimal solution is the strongest cut for the objective
-/
namespace VPC
open Finset

/-! ## Specification -/

/-- The points and rays collected: the integer solution, if there is one, without rays, and each term that was solved. -/
def collectedTerms (intPoint : Option (SVec × ℚ)) (outs : List TermOutcome) : List (SVec × List SVec) :=
  (match intPoint with
    | some p => [(p.1, [])]
    | none => []) ++
  outs.filterMap fun o => match o with
    | .collected p _ rays => some (p, rays.map (·.1))
    | _ => none

/-- The closed convex hull: the points, mixtures, and nonnegative multiples of rays added. -/
inductive InClosedHull (terms : List (SVec × List SVec)) : Vec → Prop
  | point {t : SVec × List SVec} : t ∈ terms → InClosedHull terms (scoef t.1)
  | mix {y z : Vec} {l : ℚ} : InClosedHull terms y → InClosedHull terms z → 0 ≤ l → l ≤ 1 →
      InClosedHull terms (fun i => l * y i + (1 - l) * z i)
  | ray {y : Vec} {t : SVec × List SVec} {r : SVec} {c : ℚ} : InClosedHull terms y → t ∈ terms → r ∈ t.2 → 0 ≤ c →
      InClosedHull terms (fun i => y i + c * scoef r i)

/-- `α · y ≥ γ` for all points of the disjunctive hull. -/
def ValidCut (n : ℕ) (terms : List (SVec × List SVec)) (α : Vec) (γ : ℚ) : Prop :=
  ∀ y, InHull n terms y → γ ≤ ddot n α y

/-- The LP has no solution. -/
def BuiltLP.NoSolution (INF : ℚ) (L : BuiltLP) : Prop := ∀ β, ¬ L.Feas INF β

/-- Value of the objective `obj` (one coefficient for each column kept) at `β`. -/
def objDot (obj β : List ℚ) : ℚ := ((obj.zip β).map fun q => q.1 * q.2).sum

/-- `β` is an optimal solution of the LP for the objective. -/
def BuiltLP.Optimal (INF : ℚ) (L : BuiltLP) (obj β : List ℚ) : Prop :=
  L.Feas INF β ∧ ∀ β', L.Feas INF β' → objDot obj β ≤ objDot obj β'

/-! ## Rows and terms -/

theorem row_of_collected {ip : Option (SVec × ℚ)} {outs : List TermOutcome} {r : PRow}
    (h : r ∈ setupConstraints false ip outs) :
    ∃ t ∈ collectedTerms ip outs, (r.vec = t.1 ∧ r.rhs = 1) ∨ (r.vec ∈ t.2 ∧ r.rhs = 0) := by
  unfold setupConstraints at h
  unfold collectedTerms
  rcases List.mem_append.1 h with h | h
  · cases ip with
    | none => simp at h
    | some p =>
      simp only [List.mem_singleton] at h
      subst h
      exact ⟨(p.1, []), by simp, Or.inl ⟨rfl, rfl⟩⟩
  · obtain ⟨o, ho, h⟩ := List.mem_flatMap.1 h
    cases o with
    | infeasible => simp [termRows] at h
    | notOptimal => simp [termRows] at h
    | timeLimit => simp [termRows] at h
    | collected p d rays =>
      refine ⟨(p, rays.map (·.1)), List.mem_append_right _ (List.mem_filterMap.2 ⟨_, ho, rfl⟩), ?_⟩
      simp only [termRows, List.mem_cons, List.mem_map, List.mem_filter, Bool.false_eq_true, if_false] at h
      rcases h with rfl | ⟨q, ⟨hq, -⟩, rfl⟩
      · exact Or.inl ⟨rfl, rfl⟩
      · exact Or.inr ⟨List.mem_map.2 ⟨q, hq, rfl⟩, rfl⟩

theorem rows_ok_of_valid {n : ℕ} {ip : Option (SVec × ℚ)} {outs : List TermOutcome} {scale : ℚ} {α : Vec}
    (hi : IdxBelow n (collectedTerms ip outs)) (hv : ValidCut n (collectedTerms ip outs) α scale) :
    ∀ r ∈ setupConstraints false ip outs, RowOK scale α r := by
  intro r hr
  obtain ⟨t, ht, h⟩ := row_of_collected hr
  obtain ⟨h1, h2⟩ := (hull_valid_iff n _ α scale hi).1 hv t ht
  unfold RowOK
  rcases h with ⟨h, hb⟩ | ⟨h, hb⟩
  · rw [hb, h, one_mul]; exact h1
  · rw [hb, zero_mul]; exact h2 _ h

theorem valid_scaled {n : ℕ} {terms : List (SVec × List SVec)} {α : Vec} {γ c : ℚ} (h : ValidCut n terms α γ)
    (hc : 0 ≤ c) : ValidCut n terms (fun j => c * α j) (c * γ) := by
  intro y hy
  have : ddot n (fun j => c * α j) y = c * ddot n α y := by
    unfold ddot; rw [mul_sum]; exact sum_congr rfl fun j _ => by ring
  rw [this]
  exact mul_le_mul_of_nonneg_left (h y hy) hc

/-! ## C147 -/

/-- Sums of rows are points of the closed hull, scaled, or directions in which it is unbounded. -/
theorem derived_in_hull {terms : List (SVec × List SVec)} {scale : ℚ} (hs : 0 < scale) {S : List Ineq}
    (hS : ∀ s ∈ S, ∃ t ∈ terms, s = (scoef t.1, scale) ∨ ∃ r ∈ t.2, s = (scoef r, 0)) {r : Ineq}
    (h : Ineq.Derived S r) :
    0 ≤ r.2 ∧ (r.2 = 0 → ∀ y c, InClosedHull terms y → 0 ≤ c → InClosedHull terms (fun i => y i + c * r.1 i)) ∧
      (0 < r.2 → InClosedHull terms (fun i => scale / r.2 * r.1 i)) := by
  induction h with
  | zero => exact ⟨le_refl _, fun _ y c hy _ => by simpa using hy, fun h => absurd h (lt_irrefl _)⟩
  | mem hr =>
    obtain ⟨t, ht, rfl | ⟨v, hv, rfl⟩⟩ := hS _ hr
    · refine ⟨hs.le, fun h => absurd h hs.ne', fun _ => ?_⟩
      show InClosedHull terms (fun i => scale / scale * scoef t.1 i)
      rw [div_self hs.ne']
      simpa using InClosedHull.point ht
    · exact ⟨le_refl _, fun _ y c hy hc => .ray hy ht hv hc, fun h => absurd h (lt_irrefl _)⟩
  | @add r s _ _ h1 h2 =>
    obtain ⟨a0, az, ap⟩ := h1
    obtain ⟨b0, bz, bp⟩ := h2
    refine ⟨add_nonneg a0 b0, fun h y c hy hc => ?_, fun h => ?_⟩
    · have hr0 : r.2 = 0 := by dsimp only at h; linarith
      have hs0 : s.2 = 0 := by dsimp only at h; linarith
      have := bz hs0 _ c (az hr0 y c hy hc) hc
      simpa [mul_add, add_assoc] using this
    · show InClosedHull terms (fun i => scale / (r.2 + s.2) * (r.1 i + s.1 i))
      rcases a0.eq_or_lt with hr0 | hr0
      · rcases b0.eq_or_lt with hs0 | hs0
        · dsimp only at h; linarith
        · have := az hr0.symm _ (scale / s.2) (bp hs0) (by positivity)
          rw [← hr0, zero_add]
          convert this using 2
          ring
      · rcases b0.eq_or_lt with hs0 | hs0
        · have := bz hs0.symm _ (scale / r.2) (ap hr0) (by positivity)
          rw [← hs0, add_zero]
          convert this using 2
          ring
        · have := InClosedHull.mix (l := r.2 / (r.2 + s.2)) (ap hr0) (bp hs0) (by positivity)
            (by rw [div_le_one (by linarith)]; linarith)
          convert this using 2
          field_simp
          ring
  | @mul r c hc _ h1 =>
    obtain ⟨a0, az, ap⟩ := h1
    refine ⟨mul_nonneg hc a0, fun h y d hy hd => ?_, fun h => ?_⟩
    · dsimp only at h ⊢
      rcases hc.eq_or_lt with hc0 | hc0
      · rw [← hc0]; simpa using hy
      · have hr0 : r.2 = 0 := by
          rcases mul_eq_zero.1 h with h | h
          · exact absurd h hc0.ne'
          · exact h
        have := az hr0 y (d * c) hy (by positivity)
        simpa [mul_assoc] using this
    · dsimp only at h ⊢
      have hc0 : 0 < c := by
        rcases hc.eq_or_lt with hc0 | hc0
        · rw [← hc0, zero_mul] at h; exact absurd h (lt_irrefl _)
        · exact hc0
      have hr0 : 0 < r.2 := by
        rcases a0.eq_or_lt with hr0 | hr0
        · rw [← hr0, mul_zero] at h; exact absurd h (lt_irrefl _)
        · exact hr0
      convert ap hr0 using 2
      field_simp

theorem derived_far {S : List Ineq} {n : ℕ} (hS : ∀ s ∈ S, ∀ j, n ≤ j → s.1 j = 0) {r : Ineq} (h : Ineq.Derived S r) :
    ∀ j, n ≤ j → r.1 j = 0 := fun j hj => h.coord fun s hs => hS s hs j hj

theorem scoef_far {n : ℕ} {v : SVec} (h : ∀ e ∈ v, e.1 < n) {j : ℕ} (hj : n ≤ j) : scoef v j = 0 := by
  unfold scoef
  refine List.sum_eq_zero fun q hq => ?_
  obtain ⟨e, he, rfl⟩ := List.mem_map.1 hq
  rw [if_neg (by have := h e he; omega)]

/-- **C147.** If the point-ray LP has no solution, then no cut of the disjunction cuts off the LP optimum (the origin of the
nonbasic space): no inequality `α · y ≥ γ` with `γ > 0` is valid for the disjunctive hull, and the LP optimum lies in the closed
hull of the points and rays collected. -/
theorem no_solution_no_cut {sortP : List PRow → List PRow} (hsort : ∀ l, (sortP l).Perm l) {INF DIFFEPS scale : ℚ}
    {n : ℕ} {ip : Option (SVec × ℚ)} {outs : List TermOutcome} (hscale : 0 < scale)
    (hwf : WellFormed scale n (setupConstraints false ip outs)) (hi : IdxBelow n (collectedTerms ip outs))
    {L : BuiltLP} (hL : prlpSetup sortP INF DIFFEPS scale n (setupConstraints false ip outs) = some L)
    (hno : L.NoSolution INF) :
    (∀ α γ, 0 < γ → ¬ ValidCut n (collectedTerms ip outs) α γ) ∧ InClosedHull (collectedTerms ip outs) (fun _ => 0) := by
  have hα : ∀ α : Vec, ∃ r ∈ setupConstraints false ip outs, ¬ RowOK scale α r := by
    intro α
    by_contra hc
    exact hno _ (setup_complete sortP hsort INF DIFFEPS scale n _ hwf L hL α fun r hr => by
      by_contra hn
      exact hc ⟨r, hr, hn⟩).1
  constructor
  · intro α γ hγ hv
    obtain ⟨r, hr, hn⟩ := hα fun j => scale / γ * α j
    have := valid_scaled hv (c := scale / γ) (by positivity)
    rw [div_mul_cancel₀ _ hγ.ne'] at this
    exact hn (rows_ok_of_valid hi this r hr)
  · let S : List Ineq := (setupConstraints false ip outs).map fun r => (scoef r.vec, r.rhs * scale)
    obtain ⟨r, hr, hz, hb⟩ := no_solution_derives n S fun x => by
      obtain ⟨r, hr, hn⟩ := hα x
      refine ⟨_, List.mem_map.2 ⟨r, hr, rfl⟩, fun h => hn ?_⟩
      unfold RowOK
      rw [sdot_eq_sum n r.vec x (hwf.idx r hr)]
      exact h
    have hd := (derived_in_hull (terms := collectedTerms ip outs) hscale (by
      intro s hs
      obtain ⟨r, hr, rfl⟩ := List.mem_map.1 hs
      obtain ⟨t, ht, h⟩ := row_of_collected hr
      refine ⟨t, ht, ?_⟩
      rcases h with ⟨h, hb⟩ | ⟨h, hb⟩
      · left; rw [h, hb, one_mul]
      · right; exact ⟨_, h, by rw [hb, zero_mul]⟩) hr).2.2 hb
    have hfar := derived_far (S := S) (n := n) (by
      intro s hs j hj
      obtain ⟨r, hr, rfl⟩ := List.mem_map.1 hs
      exact scoef_far (hwf.idx r hr) hj) hr
    convert hd using 2
    rename_i j
    by_cases hj : j < n
    · rw [hz j hj, mul_zero]
    · rw [hfar j (by omega), mul_zero]

/-- **C147, as reported.** When the run gives the reason `PRLP_INFEASIBLE` and the solver was right that the LP has no solution,
there is no cut to be found. -/
theorem infeasible_reason_no_cut {sortP : List PRow → List PRow} (hsort : ∀ l, (sortP l).Perm l) {INF DIFFEPS scale : ℚ}
    {n : ℕ} {ip : Option (SVec × ℚ)} {outs : List TermOutcome} (hscale : 0 < scale)
    (hwf : WellFormed scale n (setupConstraints false ip outs)) (hi : IdxBelow n (collectedTerms ip outs))
    {L : BuiltLP} (hL : prlpSetup sortP INF DIFFEPS scale n (setupConstraints false ip outs) = some L)
    {maxTime : ℚ} {a : PrlpAnswer} (ha : a.primalInf = true → a.abandoned = false → L.NoSolution INF)
    (hr : (prlpSetupExit maxTime a).1 = .PRLP_INFEASIBLE) :
    (∀ α γ, 0 < γ → ¬ ValidCut n (collectedTerms ip outs) α γ) ∧ InClosedHull (collectedTerms ip outs) (fun _ => 0) := by
  obtain ⟨-, h1, h2⟩ := (prlpSetupExit_spec maxTime a).2.1.1 hr
  exact no_solution_no_cut hsort hscale hwf hi hL (ha h1 h2)

/-- **C147.** With the sign of the right-hand sides flipped and no integer solution entered, the LP always has a solution
(the zero inequality), so this reason is never given. -/
theorem flipped_solvable {sortP : List PRow → List PRow} (hsort : ∀ l, (sortP l).Perm l) {INF DIFFEPS scale : ℚ}
    {n : ℕ} {outs : List TermOutcome} (hscale : 0 < scale) (hwf : WellFormed scale n (setupConstraints true none outs))
    {L : BuiltLP} (hL : prlpSetup sortP INF DIFFEPS scale n (setupConstraints true none outs) = some L) :
    ¬ L.NoSolution INF := by
  intro hno
  refine hno _ (setup_complete sortP hsort INF DIFFEPS scale n _ hwf L hL (fun _ => 0) fun r hr => ?_).1
  have hr0 : r.rhs ≤ 0 := by
    unfold setupConstraints at hr
    simp only [List.nil_append, List.mem_flatMap] at hr
    obtain ⟨o, -, hr⟩ := hr
    cases o with
    | infeasible => simp [termRows] at hr
    | notOptimal => simp [termRows] at hr
    | timeLimit => simp [termRows] at hr
    | collected p d rays =>
      simp only [termRows, List.mem_cons, List.mem_map, if_true] at hr
      rcases hr with rfl | ⟨q, -, rfl⟩
      · norm_num
      · exact le_refl _
  unfold RowOK
  have : sdot r.vec (fun _ => 0) = 0 := by unfold sdot; simp
  rw [this]
  exact mul_nonpos_of_nonpos_of_nonneg hr0 hscale.le

/-! ## C148 -/

theorem objDot_map (obj : List ℚ) (nz : List ℕ) (α : Vec) :
    objDot obj (nz.map α) = ((obj.zip nz).map fun q => q.1 * α q.2).sum := by
  unfold objDot
  rw [List.zip_map_right, List.map_map]
  rfl

/-- **C148.** An optimal solution of the point-ray LP is the strongest cut for the objective: no inequality with the same
right-hand side that is valid for the disjunctive hull has a smaller value of the objective. In particular, if the objective is a
point and any valid inequality of the LP's right-hand side cuts it off, then the solution does. -/
theorem optimal_strongest {sortP : List PRow → List PRow} (hsort : ∀ l, (sortP l).Perm l) {INF DIFFEPS scale : ℚ}
    {n : ℕ} {ip : Option (SVec × ℚ)} {outs : List TermOutcome}
    (hwf : WellFormed scale n (setupConstraints false ip outs)) (hi : IdxBelow n (collectedTerms ip outs))
    {L : BuiltLP} (hL : prlpSetup sortP INF DIFFEPS scale n (setupConstraints false ip outs) = some L)
    {obj β : List ℚ} (hopt : L.Optimal INF obj β) {α : Vec} (hα : ValidCut n (collectedTerms ip outs) α scale) :
    objDot obj β ≤ ((obj.zip L.nz).map fun q => q.1 * α q.2).sum ∧
      (((obj.zip L.nz).map fun q => q.1 * α q.2).sum < scale → objDot obj β < scale) := by
  have h := hopt.2 _ (setup_complete sortP hsort INF DIFFEPS scale n _ hwf L hL α (rows_ok_of_valid hi hα)).1
  rw [objDot_map] at h
  exact ⟨h, fun h' => lt_of_le_of_lt h h'⟩

theorem sdot_kept {nz : List ℕ} (hnd : nz.Nodup) (x : Vec) : ∀ p : SVec, (∀ e ∈ p, e.1 ∈ nz) →
    sdot p x = (nz.map fun j => scoef p j * x j).sum := by
  intro p
  induction p with
  | nil => intro _; simp [sdot, scoef]
  | cons e p ih =>
    intro h
    have h1 : sdot (e :: p) x = e.2 * x e.1 + sdot p x := by simp [sdot]
    have h2 : (fun j => scoef (e :: p) j * x j) = fun j => (if e.1 = j then e.2 * x j else 0) + scoef p j * x j := by
      funext j
      simp only [scoef, List.map_cons, List.sum_cons, add_mul]
      split <;> simp
    have h3 : (nz.map fun j => if e.1 = j then e.2 * x j else 0).sum = e.2 * x e.1 := by
      have he : e.1 ∈ nz := h e (by simp)
      clear h h1 h2 ih
      induction nz with
      | nil => cases he
      | cons k nz ih =>
        rw [List.nodup_cons] at hnd
        rw [List.map_cons, List.sum_cons]
        rcases List.mem_cons.1 he with hk | hk
        · rw [if_pos hk, hk]
          have : (nz.map fun j => if k = j then e.2 * x j else 0).sum = 0 := by
            refine List.sum_eq_zero fun q hq => ?_
            obtain ⟨j, hj, rfl⟩ := List.mem_map.1 hq
            rw [if_neg]
            rintro rfl
            exact hnd.1 hj
          rw [this, add_zero]
        · rw [if_neg (by rintro rfl; exact hnd.1 hk), zero_add]
          exact ih hnd.2 hk
    rw [h1, h2, List.sum_map_add, h3, ih fun e' he' => h e' (by simp [he'])]

theorem prlpSetup_nz {sortP : List PRow → List PRow} {INF DIFFEPS scale : ℚ} {n : ℕ} {rows : List PRow} {L : BuiltLP}
    (hL : prlpSetup sortP INF DIFFEPS scale n rows = some L) : L.nz.Nodup := by
  unfold prlpSetup at hL
  rw [Option.map_eq_some_iff] at hL
  obtain ⟨st, -, rfl⟩ := hL
  exact List.Nodup.filter _ List.nodup_range

/-- **C148, at a point.** If the objective is a vector `p` of kept columns (a point to be cut off, or a ray to be made tight), then
the cut of the optimal solution has at `p` the smallest value among all valid cuts with that right-hand side; if any of them cuts
off `p`, so does it. -/
theorem optimal_strongest_at {sortP : List PRow → List PRow} (hsort : ∀ l, (sortP l).Perm l) {INF DIFFEPS scale : ℚ}
    {n : ℕ} {ip : Option (SVec × ℚ)} {outs : List TermOutcome}
    (hwf : WellFormed scale n (setupConstraints false ip outs)) (hi : IdxBelow n (collectedTerms ip outs))
    {L : BuiltLP} (hL : prlpSetup sortP INF DIFFEPS scale n (setupConstraints false ip outs) = some L)
    {p : SVec} (hp : ∀ e ∈ p, e.1 ∈ L.nz) {β : List ℚ} (hopt : L.Optimal INF (L.nz.map (scoef p)) β)
    {α : Vec} (hα : ValidCut n (collectedTerms ip outs) α scale) :
    sdot p (expand L.nz β) ≤ sdot p α ∧ (sdot p α < scale → sdot p (expand L.nz β) < scale) := by
  have hnd := prlpSetup_nz hL
  have h := (optimal_strongest hsort hwf hi hL hopt hα).1
  have e1 : (((L.nz.map (scoef p)).zip L.nz).map fun q => q.1 * α q.2).sum = sdot p α := by
    rw [sdot_kept hnd α p hp]
    congr 1
    generalize L.nz = nz
    induction nz with
    | nil => rfl
    | cons k nz ih => simp [ih]
  have e2 : objDot (L.nz.map (scoef p)) β = sdot p (expand L.nz β) := by
    rw [sdot_kept hnd _ p hp]
    unfold objDot
    congr 1
    apply List.ext_getElem
    · simp [hopt.1.1]
    · intro t h1 h2
      have ht : t < L.nz.length := by simpa using h2
      have hb : t < β.length := by rw [hopt.1.1]; exact ht
      simp only [List.getElem_map, List.getElem_zip]
      congr 1
      unfold expand
      rw [if_pos (List.getElem_mem ht), hnd.idxOf_getElem, List.getD_eq_getElem?_getD, List.getElem?_eq_getElem hb]
      rfl
  rw [e1, e2] at h
  exact ⟨h, fun h' => lt_of_le_of_lt h h'⟩

/-! ## Examples -/

/-- Two terms: the point `(1, 0)` with the ray `(-1, 0)`, and the point `(2, 1)`. -/
def noCutOuts : List TermOutcome :=
  [.collected [(0, 1)] 1 [([(0, -1)], 0)], .infeasible, .collected [(0, 2), (1, 1)] 2 []]

/-- Non-vacuity of `infeasible_reason_no_cut`: the cone of the first term contains the origin. -/
example : (∀ α γ, 0 < γ → ¬ ValidCut 2 (collectedTerms none noCutOuts) α γ) ∧
    InClosedHull (collectedTerms none noCutOuts) (fun _ => 0) := by
  have hL : prlpSetup id dblMax (1/1000) 1 2 (setupConstraints false none noCutOuts) =
      some ⟨[0, 1], [1, -dblMax], [0, dblMax], [([(0, 1)], 1), ([(0, 2), (1, 1)], 1)]⟩ := by decide +kernel
  refine infeasible_reason_no_cut (fun l => List.Perm.refl l) (by norm_num) ⟨by decide +kernel, ?_, by decide +kernel⟩
    (by unfold IdxBelow; decide +kernel) hL (maxTime := 10) (a := ⟨false, true, false, false, false, false, 1⟩) (fun _ _ β hβ => ?_) (by decide +kernel)
  · intro r hr j c hv h0
    have : r ∈ [⟨[(0, 1)], 1, 1⟩, ⟨[(0, -1)], 0, 0⟩, (⟨[(0, 2), (1, 1)], 1, 2⟩ : PRow)] := hr
    simp only [List.mem_cons, List.not_mem_nil, or_false] at this
    rcases this with rfl | rfl | rfl
    · norm_num at h0
    · simp only [List.cons.injEq, Prod.mk.injEq] at hv
      obtain ⟨⟨-, rfl⟩, -⟩ := hv
      norm_num [defEps]
    · norm_num at h0
  · have h := hβ.2.1 0 (by simp)
    simp only [List.getD_cons_zero] at h
    have hd : (1 : ℚ) < dblMax := by decide +kernel
    rcases h with ⟨h1 | h1, h2 | h2⟩ <;> linarith

/-- One term: the point `(1, 3)` with the rays `(0, 2)` and `(1, -1)`. -/
def strongOuts : List TermOutcome := [.collected [(0, 1), (1, 3)] 1 [([(1, 2)], 0), ([(0, 1), (1, -1)], 1)]]

/-- Non-vacuity of `optimal_strongest_at`: the cut `y₀/4 + y₁/4 ≥ 1` is the strongest at the point `(1, 1)`, and cuts it off. -/
example {α : Vec} (hα : ValidCut 2 (collectedTerms none strongOuts) α 1) : 1 / 2 ≤ α 0 + α 1 := by
  have hL : prlpSetup id dblMax (1/1000) 1 2 (setupConstraints false none strongOuts) =
      some ⟨[0, 1], [-dblMax, 0], [dblMax, dblMax], [([(0, 1), (1, 3)], 1), ([(0, 1), (1, -1)], 0)]⟩ := by decide +kernel
  have hopt : BuiltLP.Optimal dblMax ⟨[0, 1], [-dblMax, 0], [dblMax, dblMax], [([(0, 1), (1, 3)], 1), ([(0, 1), (1, -1)], 0)]⟩
      ([0, 1].map (scoef [(0, 1), (1, 1)])) [1/4, 1/4] := by
    have e : [0, 1].map (scoef [(0, 1), (1, 1)]) = [1, 1] := by decide +kernel
    rw [e]
    refine ⟨by unfold BuiltLP.Feas; decide +kernel, fun β h => ?_⟩
    obtain ⟨hl, -, hr⟩ := h
    match β, hl with
    | [a, b], _ =>
      have h1 := hr ([(0, 1), (1, 3)], 1) (by simp)
      have h2 := hr ([(0, 1), (1, -1)], 0) (by simp)
      simp [sdot] at h1 h2
      simp [objDot]
      linarith
  have := (optimal_strongest_at (p := [(0, 1), (1, 1)]) (fun l => List.Perm.refl l) ⟨by decide +kernel, ?_, by decide +kernel⟩
    (by unfold IdxBelow; decide +kernel) hL (by decide) hopt hα).1
  · have e : sdot [(0, 1), (1, 1)] (expand [0, 1] [1/4, 1/4]) = 1 / 2 := by decide +kernel
    rw [e] at this
    simpa [sdot] using this
  · intro r hr j c hv h0
    have : r ∈ [⟨[(0, 1), (1, 3)], 1, 1⟩, ⟨[(1, 2)], 0, 0⟩, (⟨[(0, 1), (1, -1)], 0, 1⟩ : PRow)] := hr
    simp only [List.mem_cons, List.not_mem_nil, or_false] at this
    rcases this with rfl | rfl | rfl
    · norm_num at h0
    · simp only [List.cons.injEq, Prod.mk.injEq] at hv
      obtain ⟨⟨-, rfl⟩, -⟩ := hv
      norm_num [defEps]
    · simp at hv

/-- Non-vacuity of `flipped_solvable`. -/
example : ∃ L, prlpSetup id dblMax (1/1000) 1 2 (setupConstraints true none strongOuts) = some L ∧ ¬ L.NoSolution dblMax := by
  obtain ⟨L, hL⟩ := Option.isSome_iff_exists.1
    (by decide +kernel : (prlpSetup id dblMax (1/1000) 1 2 (setupConstraints true none strongOuts)).isSome = true)
  refine ⟨L, hL, flipped_solvable (fun l => List.Perm.refl l) (by norm_num) ⟨by decide +kernel, ?_, by decide +kernel⟩ hL⟩
  intro r hr j c hv h0
  have : r ∈ [⟨[(0, 1), (1, 3)], -1, 1⟩, ⟨[(1, 2)], 0, 0⟩, (⟨[(0, 1), (1, -1)], 0, 1⟩ : PRow)] := hr
  simp only [List.mem_cons, List.not_mem_nil, or_false] at this
  rcases this with rfl | rfl | rfl
  · norm_num at h0
  · simp only [List.cons.injEq, Prod.mk.injEq] at hv
    obtain ⟨⟨-, rfl⟩, -⟩ := hv
    norm_num [defEps]
  · simp at hv

end VPC
