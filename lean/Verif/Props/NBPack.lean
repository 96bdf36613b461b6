import Verif.Props.NBCut
import Verif.Props.RowDiff
import Mathlib.Data.List.Perm.Basic
import Mathlib.Algebra.BigOperators.Group.List.Basic

/-! # C46 (sparse nonbasic coordinates of points) and C38 (rays keep their direction) -/
namespace VPC
open Finset

theorem mergeTiny_perm (ti : List ℕ) (te ps : SVec) (h : te.length ≤ ti.length) :
    (mergeTiny ti te ps).Perm (te ++ ps) := by
  induction ti, te, ps using mergeTiny.induct with
  | case1 ti ps => simp [mergeTiny]
  | case2 ti te hte => cases te <;> simp [mergeTiny]
  | case3 te ps h1 h2 => cases te with
    | nil => exact absurd rfl h1
    | cons e te => simp at h
  | case4 t ti e te p ps hlt ih =>
    rw [mergeTiny, if_pos hlt]
    simp only [List.length_cons] at h
    exact (ih (by omega)).cons e
  | case5 t ti e te p ps hlt ih =>
    rw [mergeTiny, if_neg hlt]
    refine ((ih h).cons p).trans ?_
    exact List.perm_middle.symm

theorem takeTiny_prefix (EPS ov : ℚ) (rc : Vec) (l : SVec) (obj : ℚ) (b : Bool) :
    ∃ rest, l = (takeTiny EPS ov rc l obj b).1 ++ rest ∧
      (takeTiny EPS ov rc l obj b).2
        = obj + ((takeTiny EPS ov rc l obj b).1.map fun e => e.2 * rc e.1).sum ∧
      (b = true → rest ≠ [] → |(takeTiny EPS ov rc l obj b).2 - ov| < EPS) := by
  induction l generalizing obj b with
  | nil => exact ⟨[], by simp [takeTiny]⟩
  | cons e l ih =>
    cases b with
    | false => exact ⟨e :: l, by simp [takeTiny]⟩
    | true =>
      obtain ⟨rest, h1, h2, h3⟩ := ih (obj + e.2 * rc e.1) (!(isVal (obj + e.2 * rc e.1) ov EPS))
      refine ⟨rest, ?_, ?_, ?_⟩
      · simp only [takeTiny, List.cons_append, ← h1]
      · simp only [takeTiny, List.map_cons, List.sum_cons]
        rw [h2]; ring
      · intro _ hr
        simp only [takeTiny]
        by_cases hv : isVal (obj + e.2 * rc e.1) ov EPS = true
        · cases hl : l with
          | nil =>
            rw [hl] at h1
            exact absurd (List.append_eq_nil_iff.1 h1.symm).2 hr
          | cons e' l' =>
            rw [hv]
            simp only [Bool.not_true, takeTiny]
            simpa using hv
        · exact h3 (by rw [Bool.eq_false_iff.2 hv]; rfl) hr

/-- The non-negligible coordinates, in index order (specification). -/
def bigEntries (EPS : ℚ) (vals : List ℚ) : SVec :=
  (vals.zipIdx.filter fun e => !(isZero e.1 EPS)).map fun e => (e.2, e.1)

/-- The negligible coordinates that still matter to the objective. -/
def tinyEntries (EPS : ℚ) (rc : Vec) (vals : List ℚ) : SVec :=
  (vals.zipIdx.filter fun e => isZero e.1 EPS && !(isZero (e.1 * rc e.2) EPS)).map fun e => (e.2, e.1)

theorem packCoor_perm (sortDecr : SVec → SVec) (hsort : ∀ l, (sortDecr l).Perm l)
    (EPS ov : ℚ) (rc : Vec) (vals : List ℚ) :
    ∃ kept rest, (packCoor sortDecr EPS ov rc vals).Perm (kept ++ bigEntries EPS vals) ∧
      (kept ++ rest).Perm (tinyEntries EPS rc vals) ∧
      (rest ≠ [] →
        |((packCoor sortDecr EPS ov rc vals).map fun e => e.2 * rc e.1).sum - ov| < EPS) := by
  unfold packCoor
  simp only
  rw [show (vals.zipIdx.filter fun e => !(isZero e.1 EPS)).map (fun e => (e.2, e.1))
    = bigEntries EPS vals from rfl,
    show (vals.zipIdx.filter fun e => isZero e.1 EPS && !(isZero (e.1 * rc e.2) EPS)).map
      (fun e => (e.2, e.1)) = tinyEntries EPS rc vals from rfl]
  set obj := ((bigEntries EPS vals).map fun e => e.2 * rc e.1).sum with hobj
  by_cases hv : isVal obj ov EPS = true
  · rw [hv]
    refine ⟨[], tinyEntries EPS rc vals, by simp, by simp, ?_⟩
    intro _
    simpa using hv
  · rw [Bool.eq_false_iff.2 hv]
    simp only [Bool.not_false, if_true]
    obtain ⟨rest, h1, h2, h3⟩ :=
      takeTiny_prefix EPS ov rc (sortDecr (tinyEntries EPS rc vals)) obj true
    set kept := (takeTiny EPS ov rc (sortDecr (tinyEntries EPS rc vals)) obj true).1 with hk
    have hlen : kept.length ≤ ((tinyEntries EPS rc vals).map (·.1)).length := by
      rw [List.length_map, ← (hsort (tinyEntries EPS rc vals)).length_eq]
      conv_rhs => rw [h1]
      simp
    have hp := mergeTiny_perm ((tinyEntries EPS rc vals).map (·.1)) kept (bigEntries EPS vals) hlen
    refine ⟨kept, rest, hp, ?_, ?_⟩
    · rw [← h1]; exact hsort _
    · intro hr
      have h4 := h3 rfl hr
      rw [(hp.map _).sum_eq, List.map_append, List.sum_append]
      rw [h2] at h4
      rw [add_comm]
      exact h4

theorem mem_bigEntries {EPS : ℚ} {vals : List ℚ} {e : ℕ × ℚ} :
    e ∈ bigEntries EPS vals ↔ vals[e.1]? = some e.2 ∧ EPS ≤ |e.2| := by
  unfold bigEntries
  simp only [List.mem_map, List.mem_filter, Bool.not_eq_true', isZero_false_iff, Prod.exists]
  constructor
  · rintro ⟨v, i, ⟨h1, h2⟩, rfl⟩
    exact ⟨List.mem_zipIdx_iff_getElem?.1 h1, h2⟩
  · rintro ⟨h1, h2⟩
    exact ⟨e.2, e.1, ⟨List.mem_zipIdx_iff_getElem?.2 h1, h2⟩, rfl⟩

theorem mem_tinyEntries {EPS : ℚ} {rc : Vec} {vals : List ℚ} {e : ℕ × ℚ} :
    e ∈ tinyEntries EPS rc vals ↔
      vals[e.1]? = some e.2 ∧ |e.2| < EPS ∧ EPS ≤ |e.2 * rc e.1| := by
  unfold tinyEntries
  simp only [List.mem_map, List.mem_filter, Bool.and_eq_true, isZero_iff, Bool.not_eq_true',
    isZero_false_iff, Prod.exists]
  constructor
  · rintro ⟨v, i, ⟨h1, h2⟩, rfl⟩
    exact ⟨List.mem_zipIdx_iff_getElem?.1 h1, h2⟩
  · rintro ⟨h1, h2⟩
    exact ⟨e.2, e.1, ⟨List.mem_zipIdx_iff_getElem?.2 h1, h2⟩, rfl⟩

/-- C46. The sparse point lists every non-negligible coordinate exactly, every entry it lists is
the true coordinate, and a negligible coordinate with a significant objective contribution is
left out only when the objective value computed from the listed entries already matches. -/
theorem packCoor_spec (sortDecr : SVec → SVec) (hsort : ∀ l, (sortDecr l).Perm l)
    (EPS ov : ℚ) (rc : Vec) (vals : List ℚ) :
    let out := packCoor sortDecr EPS ov rc vals
    (∀ e ∈ out, vals[e.1]? = some e.2) ∧
    (∀ i v, vals[i]? = some v → EPS ≤ |v| → (i, v) ∈ out) ∧
    (∀ i v, vals[i]? = some v → |v| < EPS → EPS ≤ |v * rc i| → (i, v) ∉ out →
      |(out.map fun e => e.2 * rc e.1).sum - ov| < EPS) := by
  intro out
  obtain ⟨kept, rest, h1, h2, h3⟩ := packCoor_perm sortDecr hsort EPS ov rc vals
  refine ⟨?_, ?_, ?_⟩
  · intro e he
    rcases List.mem_append.1 (h1.mem_iff.1 he) with hk | hb
    · exact (mem_tinyEntries.1 (h2.mem_iff.1 (List.mem_append_left _ hk))).1
    · exact (mem_bigEntries.1 hb).1
  · intro i v hv hE
    exact h1.mem_iff.2 (List.mem_append_right _ (mem_bigEntries.2 ⟨hv, hE⟩))
  · intro i v hv hlt hc hout
    apply h3
    intro hr
    rw [hr, List.append_nil] at h2
    exact hout (h1.mem_iff.2 (List.mem_append_left _
      (h2.mem_iff.2 (mem_tinyEntries.2 ⟨hv, hlt, hc⟩))))

/-- C46. No coordinate is listed twice, so the packed vector means what it lists. -/
theorem packCoor_nodup (sortDecr : SVec → SVec) (hsort : ∀ l, (sortDecr l).Perm l)
    (EPS ov : ℚ) (rc : Vec) (vals : List ℚ) :
    ((packCoor sortDecr EPS ov rc vals).map (·.1)).Nodup := by
  obtain ⟨kept, rest, h1, h2, -⟩ := packCoor_perm sortDecr hsort EPS ov rc vals
  rw [(h1.map _).nodup_iff, List.map_append, List.nodup_append]
  have hsub : ∀ (p : ℚ × ℕ → Bool), (((vals.zipIdx.filter p).map fun e => (e.2, e.1)).map
      (fun e : ℕ × ℚ => e.1)).Nodup := by
    intro p
    rw [List.map_map]
    have : ((vals.zipIdx.filter p).map (fun e => e.2)).Sublist (vals.zipIdx.map (fun e => e.2)) :=
      List.filter_sublist.map _
    refine this.nodup ?_
    rw [List.zipIdx_map_snd]
    exact List.nodup_range'
  refine ⟨?_, hsub _, ?_⟩
  · have h4 : ((kept ++ rest).map (fun e : ℕ × ℚ => e.1)).Nodup := by
      rw [(h2.map _).nodup_iff]; exact hsub _
    rw [List.map_append] at h4
    exact (List.nodup_append.1 h4).1
  · intro a ha b hb hab
    obtain ⟨e1, he1, rfl⟩ := List.mem_map.1 ha
    obtain ⟨e2, he2, rfl⟩ := List.mem_map.1 hb
    have m1 := mem_tinyEntries.1 (h2.mem_iff.1 (List.mem_append_left _ he1))
    have m2 := mem_bigEntries.1 he2
    rw [hab, m2.1] at m1
    have : e2.2 = e1.2 := by simpa using m1.1
    rw [← this] at m1
    linarith [m1.2.1, m2.2]

/-- C46: when the objective matches without tiny coordinates, the output is index-sorted (as the
row comparison needs). -/
theorem packCoor_sorted_partial (sortDecr : SVec → SVec) (EPS ov : ℚ) (rc : Vec) (vals : List ℚ)
    (hobj : |((bigEntries EPS vals).map fun e => e.2 * rc e.1).sum - ov| < EPS) :
    Sorted (packCoor sortDecr EPS ov rc vals) := by
  have : packCoor sortDecr EPS ov rc vals = bigEntries EPS vals := by
    unfold packCoor
    simp only
    rw [show (vals.zipIdx.filter fun e => !(isZero e.1 EPS)).map (fun e => (e.2, e.1))
      = bigEntries EPS vals from rfl]
    rw [isVal_iff.2 hobj]; simp
  rw [this]
  unfold Sorted bigEntries
  rw [List.pairwise_map]
  apply List.Pairwise.filter
  have h : (vals.zipIdx.map (fun e => e.2)).Pairwise (· < ·) := by
    rw [List.zipIdx_map_snd]; exact List.pairwise_lt_range'
  rw [List.pairwise_map] at h
  exact h

/-- Insertion sort by decreasing element: a concrete `sortDecrElement`. -/
def insDecr (e : ℕ × ℚ) : SVec → SVec
  | [] => [e]
  | f :: l => if e.2 < f.2 then f :: insDecr e l else e :: f :: l

def sortDecrIns (l : SVec) : SVec := l.foldr insDecr []

theorem insDecr_perm (e : ℕ × ℚ) (l : SVec) : (insDecr e l).Perm (e :: l) := by
  induction l with
  | nil => simp [insDecr]
  | cons f l ih =>
    unfold insDecr; split
    · exact (ih.cons f).trans (List.Perm.swap e f l)
    · exact List.Perm.refl _

theorem sortDecrIns_perm (l : SVec) : (sortDecrIns l).Perm l := by
  induction l with
  | nil => simp [sortDecrIns]
  | cons e l ih => exact (insDecr_perm e _).trans (ih.cons e)

/-- C46 is violated when tiny coordinates are needed: the merge compares by `tinyIndex` (index
order) but writes `tinyVec` (value order), so the packed vector can come out unsorted. Coordinates
`(1e-9, 2e-9, 1)` with reduced costs `1e6`. -/
theorem packCoor_unsorted :
    ¬ Sorted (packCoor sortDecrIns (1/10^7) (1 + 3/1000) (fun i => if i = 2 then 1 else 10^6)
      [1/10^9, 2/10^9, 1]) ∧
    packCoor sortDecrIns (1/10^7) (1 + 3/1000) (fun i => if i = 2 then 1 else 10^6)
      [1/10^9, 2/10^9, 1] = [(1, 2/10^9), (0, 1/10^9), (2, 1)] := by
  constructor
  · decide +kernel
  · decide +kernel

/-! ## Rays -/

/-- Spec: change of a variable along the extreme ray of the term's basis on which the nonbasic
variable `tmpVar` moves one unit away from its bound (down if it is at its upper bound, else up);
`tab r` is the tableau column entry for the basic variable of row `r`. -/
def rayDelta (tmpVar var : ℕ) (tmpUB : Bool) (row? : Option ℕ) (tab : Vec) : ℚ :=
  let step : ℚ := if tmpUB then -1 else 1
  if var = tmpVar then step
  else match row? with
    | some r => - tab r * step
    | none => 0

/-- C38. The ray component stored for a coordinate is the derivative, along the ray, of the
complemented coordinate of the original basis: `+Δ` if the original variable was at its lower
bound, `-Δ` if at its upper bound. This needs the generating variable to be at exactly one of its
bounds (`tmpLB` and `tmpUB` are the code's two independent tests); see
`rayCoor_free_wrong` for a nonbasic free variable. -/
theorem rayCoor_exact (tmpVar origVar : ℕ) (tmpLB tmpUB origUB : Bool) (row? : Option ℕ)
    (tab : Vec) (hone : tmpLB = !tmpUB) :
    rayCoor tmpVar origVar tmpUB origUB row? (genRay tmpLB tab)
      = (if origUB then -1 else 1) * rayDelta tmpVar origVar tmpUB row? tab := by
  unfold rayCoor rayDelta genRay
  simp only
  by_cases h : origVar = tmpVar
  · rw [if_pos h, if_pos h]; ring
  · rw [if_neg h, if_neg h]
    cases row? with
    | none => simp
    | some r => cases tmpUB <;> cases origUB <;> simp [hone]

/-- C38 is violated for a nonbasic *free* variable (neither at lower nor at upper bound): the
column is not negated, so the basic components of the stored ray point the wrong way, and the
stored vector is not even a multiple of the ray in either direction. -/
theorem rayCoor_free_wrong :
    let tab : Vec := fun _ => 1
    -- coordinates 0 (the free variable itself) and 1 (basic in row 0)
    let stored := [rayCoor 0 0 false false none (genRay false tab),
                   rayCoor 0 1 false false (some 0) (genRay false tab)]
    let up := [rayDelta 0 0 false none tab, rayDelta 0 1 false (some 0) tab]
    ∀ c : ℚ, stored ≠ up.map (c * ·) := by
  intro tab stored up c h
  have h' : [(1 : ℚ), 1] = [c * 1, c * (-1)] := by
    simpa [stored, up, tab, rayCoor, genRay, rayDelta] using h
  simp only [List.cons.injEq, mul_one, mul_neg] at h'
  linarith [h'.1, h'.2.1]

example : rayCoor 0 1 true false (some 0) (genRay false (fun _ => 3)) = 3 := by decide +kernel

theorem takeTinyRay_prefix (EPS ov : ℚ) (rc : Vec) (l : SVec) (obj : ℚ) (b : Bool) :
    ∃ rest, l = (takeTinyRay EPS ov rc l obj b).1 ++ rest ∧
      (takeTinyRay EPS ov rc l obj b).2
        = obj + ((takeTinyRay EPS ov rc l obj b).1.map fun e => e.2 * rc e.1).sum ∧
      (b = true → rest ≠ [] → |(takeTinyRay EPS ov rc l obj b).2 - ov| < EPS ∧
        - EPS < (takeTinyRay EPS ov rc l obj b).2) := by
  induction l generalizing obj b with
  | nil => exact ⟨[], by simp [takeTinyRay]⟩
  | cons e l ih =>
    cases b with
    | false => exact ⟨e :: l, by simp [takeTinyRay]⟩
    | true =>
      obtain ⟨rest, h1, h2, h3⟩ := ih (obj + e.2 * rc e.1)
        (lessThanVal (obj + e.2 * rc e.1) 0 EPS || !(isVal (obj + e.2 * rc e.1) ov EPS))
      refine ⟨rest, ?_, ?_, ?_⟩
      · simp only [takeTinyRay, List.cons_append, ← h1]
      · simp only [takeTinyRay, List.map_cons, List.sum_cons]
        rw [h2]; ring
      · intro _ hr
        simp only [takeTinyRay]
        by_cases hv : (lessThanVal (obj + e.2 * rc e.1) 0 EPS ||
            !(isVal (obj + e.2 * rc e.1) ov EPS)) = true
        · exact h3 hv hr
        · cases hl : l with
          | nil =>
            rw [hl] at h1
            exact absurd (List.append_eq_nil_iff.1 h1.symm).2 hr
          | cons e' l' =>
            rw [Bool.eq_false_iff.2 hv]
            simp only [takeTinyRay]
            simp only [Bool.or_eq_true, lessThanVal_iff, Bool.not_eq_true', not_or, not_le,
              Bool.not_eq_false, isVal_iff, zero_sub] at hv
            exact ⟨hv.2, hv.1⟩

/-- C38. The stored ray is a *positive multiple* of the true ray in every listed coordinate; every
coordinate of size at least `RAYEPS` is listed; no coordinate is listed twice; a smaller
coordinate that matters to the objective is omitted only if the listed (unscaled) entries already
give the objective slope reported by the solver. -/
theorem packRay_spec (sortDecr : SVec → SVec) (hsort : ∀ l, (sortDecr l).Perm l) (expo : ℚ → ℤ)
    (EPS RAYEPS ov : ℚ) (rc : Vec) (vals : List ℚ) :
    let r := packRay sortDecr expo EPS RAYEPS ov rc vals
    0 < r.2 ∧
    (∃ base : SVec, r.1 = base.map (fun e => (e.1, e.2 * r.2)) ∧ (base.map (·.1)).Nodup ∧
      (∀ e ∈ base, vals[e.1]? = some e.2) ∧
      (∀ i v, vals[i]? = some v → RAYEPS ≤ |v| → (i, v) ∈ base) ∧
      (∀ i v, vals[i]? = some v → |v| < RAYEPS → RAYEPS ≤ |v * rc i| → (i, v) ∉ base →
        |(base.map fun e => e.2 * rc e.1).sum - ov| < EPS)) := by
  intro r
  have hpow : ∀ k : ℤ, (0 : ℚ) < (10 : ℚ) ^ k := fun k => zpow_pos (by norm_num) k
  have hdis : ∀ {e1 e2 : ℕ × ℚ}, e1 ∈ tinyEntries RAYEPS rc vals → e2 ∈ bigEntries RAYEPS vals →
      e1.1 ≠ e2.1 := by
    intro e1 e2 h1 h2 heq
    have m1 := mem_tinyEntries.1 h1
    have m2 := mem_bigEntries.1 h2
    rw [heq, m2.1] at m1
    have : e2.2 = e1.2 := by simpa using m1.1
    rw [← this] at m1
    linarith [m1.2.1, m2.2]
  have hsub : ∀ (p : ℚ × ℕ → Bool), (((vals.zipIdx.filter p).map fun e => (e.2, e.1)).map
      (fun e : ℕ × ℚ => e.1)).Nodup := by
    intro p
    rw [List.map_map]
    have : ((vals.zipIdx.filter p).map (fun e => e.2)).Sublist (vals.zipIdx.map (fun e => e.2)) :=
      List.filter_sublist.map _
    refine this.nodup ?_
    rw [List.zipIdx_map_snd]
    exact List.nodup_range'
  have hr : r = packRay sortDecr expo EPS RAYEPS ov rc vals := rfl
  unfold packRay at hr
  simp only at hr
  rw [show (vals.zipIdx.filter fun e => !(isZero e.1 RAYEPS)).map (fun e => (e.2, e.1))
    = bigEntries RAYEPS vals from rfl,
    show (vals.zipIdx.filter fun e => isZero e.1 RAYEPS && !(isZero (e.1 * rc e.2) RAYEPS)).map
      (fun e => (e.2, e.1)) = tinyEntries RAYEPS rc vals from rfl] at hr
  set obj := ((bigEntries RAYEPS vals).map fun e => e.2 * rc e.1).sum with hobj
  by_cases hv : (lessThanVal obj 0 EPS || !(isVal obj ov EPS)) = true
  · rw [if_pos hv] at hr
    obtain ⟨rest, h1, h2, h3⟩ :=
      takeTinyRay_prefix EPS ov rc (sortDecr (tinyEntries RAYEPS rc vals)) obj true
    set kept := (takeTinyRay EPS ov rc (sortDecr (tinyEntries RAYEPS rc vals)) obj true).1 with hk
    have hlen : kept.length ≤ ((tinyEntries RAYEPS rc vals).map (·.1)).length := by
      rw [List.length_map, ← (hsort (tinyEntries RAYEPS rc vals)).length_eq]
      conv_rhs => rw [h1]
      simp
    have hp := mergeTiny_perm ((tinyEntries RAYEPS rc vals).map (·.1)) kept
      (bigEntries RAYEPS vals) hlen
    have hkr : (kept ++ rest).Perm (tinyEntries RAYEPS rc vals) := by rw [← h1]; exact hsort _
    have hkt : ∀ e ∈ kept, e ∈ tinyEntries RAYEPS rc vals := fun e he =>
      hkr.mem_iff.1 (List.mem_append_left _ he)
    refine ⟨by rw [hr]; exact hpow _, _, by rw [hr], ?_, ?_, ?_, ?_⟩
    · rw [(hp.map _).nodup_iff, List.map_append, List.nodup_append]
      refine ⟨?_, hsub _, ?_⟩
      · have h4 : ((kept ++ rest).map (fun e : ℕ × ℚ => e.1)).Nodup := by
          rw [(hkr.map _).nodup_iff]; exact hsub _
        rw [List.map_append] at h4
        exact (List.nodup_append.1 h4).1
      · intro a ha b hb hab
        obtain ⟨e1, he1, rfl⟩ := List.mem_map.1 ha
        obtain ⟨e2, he2, rfl⟩ := List.mem_map.1 hb
        exact hdis (hkt _ he1) he2 hab
    · intro e he
      rcases List.mem_append.1 (hp.mem_iff.1 he) with hk | hb
      · exact (mem_tinyEntries.1 (hkt e hk)).1
      · exact (mem_bigEntries.1 hb).1
    · intro i v hv' hE
      exact hp.mem_iff.2 (List.mem_append_right _ (mem_bigEntries.2 ⟨hv', hE⟩))
    · intro i v hv' hlt hc hout
      have hrest : rest ≠ [] := by
        intro hr0
        rw [hr0, List.append_nil] at hkr
        exact hout (hp.mem_iff.2 (List.mem_append_left _
          (hkr.mem_iff.2 (mem_tinyEntries.2 ⟨hv', hlt, hc⟩))))
      have h4 := (h3 rfl hrest).1
      rw [(hp.map _).sum_eq, List.map_append, List.sum_append]
      rw [h2] at h4
      rw [add_comm]
      exact h4
  · rw [if_neg hv] at hr
    simp only [Bool.or_eq_true, lessThanVal_iff, Bool.not_eq_true', not_or, not_le,
      Bool.not_eq_false, isVal_iff, zero_sub] at hv
    refine ⟨by rw [hr]; exact hpow _, bigEntries RAYEPS vals, by rw [hr], hsub _, ?_, ?_, ?_⟩
    · intro e he; exact (mem_bigEntries.1 he).1
    · intro i v hv' hE; exact mem_bigEntries.2 ⟨hv', hE⟩
    · intro i v _ _ _ _; exact hv.2

/-- Non-vacuity: a ray that is scaled up by `10` and keeps its direction. -/
example : packRay sortDecrIns (fun _ => -3) (1/10^7) (1/10^8) (1/1000) (fun _ => 1) [1/1000, 0]
    = ([(0, 1/100)], 10) := by decide +kernel

end VPC
