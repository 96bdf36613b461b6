import Verif.Model.Solver
import Mathlib.Tactic.Ring
import Mathlib.Tactic.Linarith
import Mathlib.Tactic.NormNum

/-!
# C23, C24, C25, C26, C55: objectives and cut conversion
-/
namespace VPC

/-! ## Objective sense (C23, C26) -/

/-- Specification: `x` is optimal for the objective over a set of points. Sense `1` minimizes,
`-1` maximizes. -/
def IsOptimal (o : Objective) (S : List ℚ → Prop) (x : List ℚ) : Prop :=
  S x ∧ ∀ y, S y → o.sense * o.value x ≤ o.sense * o.value y

theorem negateObjective_value (o : Objective) (s : ℚ) (x : List ℚ) :
    (negateObjective o s).value x = -o.value x := by
  have h : ∀ (c x : List ℚ), ((c.map fun a => -1 * a).zipWith (· * ·) x).sum
      = -(c.zipWith (· * ·) x).sum := by
    intro c
    induction c with
    | nil => simp
    | cons a c ih =>
      intro x
      cases x with
      | nil => simp
      | cons b x =>
        simp only [List.map_cons, List.zipWith_cons_cons, List.sum_cons, ih]; ring
  have h2 : (if o.offset ≠ 0 then -1 * o.offset else o.offset) = -o.offset := by
    split
    · ring
    · rename_i hh; push Not at hh; rw [hh]; simp
  simp only [Objective.value, negateObjective, h, h2]; ring

theorem negateObjective_negate (o : Objective) (s t : ℚ) :
    negateObjective (negateObjective o s) t = { o with sense := t } := by
  have h : ∀ c : List ℚ, (c.map fun a => -1 * a).map (fun a => -1 * a) = c := by
    intro c; induction c with
    | nil => rfl
    | cons a c ih =>
      simp only [List.map_cons, ih]
      congr 1; ring
  simp only [negateObjective, h]
  congr 1
  by_cases h0 : o.offset = 0 <;> simp [h0]

/-- **C23.** A problem read with objective sense `-1` becomes a minimization problem whose value
is the negative of the original at every point, with the same optimal points over every feasible
set; a problem read with sense `1` is left alone. -/
theorem toMinimization_equiv (o : Objective) (hs : o.sense = 1 ∨ o.sense = -1) :
    (toMinimization o).sense = 1 ∧
    (o.sense = -1 → ∀ x, (toMinimization o).value x = -o.value x) ∧
    (o.sense = 1 → toMinimization o = o) ∧
    ∀ S x, IsOptimal (toMinimization o) S x ↔ IsOptimal o S x := by
  rcases hs with h | h
  · have e : toMinimization o = o := by
      rw [toMinimization, if_neg]; rw [h]; norm_num
    rw [e]
    exact ⟨h, fun h' => by rw [h] at h'; norm_num at h', fun _ => rfl, fun S x => Iff.rfl⟩
  · have e : toMinimization o = negateObjective o 1 := by
      rw [toMinimization, if_pos]; rw [h]; norm_num
    rw [e]
    refine ⟨rfl, fun _ x => negateObjective_value o 1 x, fun h' => ?_, fun S x => ?_⟩
    · rw [h] at h'; norm_num at h'
    · unfold IsOptimal
      simp only [negateObjective_value, h]
      have : (negateObjective o 1).sense = 1 := rfl
      rw [this]
      simp only [one_mul, neg_mul]

/-- **C26.** For an objective with sense `±1`: flipping to the other sense negates the value of
every point and keeps the optimal points over every set; flipping to the current sense changes
nothing; flipping back and forth restores the objective exactly. -/
theorem flipObj_involution (o : Objective) (s : ℤ) (hs : s = 1 ∨ s = -1) (ho : o.sense = -(s : ℚ)) :
    (∀ x, (flipObj s o).value x = -o.value x) ∧
    (∀ S x, IsOptimal (flipObj s o) S x ↔ IsOptimal o S x) ∧
    (flipObj s o).sense = s ∧
    flipObj (-s) (flipObj s o) = o ∧ flipObj s (flipObj s o) = flipObj s o := by
  have far : ∀ t : ℤ, t = 1 ∨ t = -1 → isVal (-(t : ℚ)) t = false := by
    intro t ht
    rcases ht with rfl | rfl <;> (rw [← Bool.not_eq_true, isVal_iff]; norm_num [defEps])
  have e : flipObj s o = negateObjective o s := by
    rw [flipObj, ho, far s hs]; rfl
  have hsense : (negateObjective o s).sense = (s : ℚ) := rfl
  rw [e]
  refine ⟨negateObjective_value o s, fun S x => ?_, rfl, ?_, ?_⟩
  · unfold IsOptimal
    simp only [negateObjective_value, hsense, ho, mul_neg, neg_mul]
  · rw [flipObj, hsense]
    have h2 : isVal (s : ℚ) ((-s : ℤ) : ℚ) = false := by
      have := far (-s) (by rcases hs with rfl | rfl <;> simp)
      rw [Int.cast_neg, neg_neg] at this
      rwa [Int.cast_neg]
    rw [h2]
    simp only [Bool.not_false, if_true, negateObjective_negate]
    rw [Int.cast_neg, ← ho]
  · rw [flipObj, hsense]
    have : isVal (s : ℚ) (s : ℚ) = true := by rw [isVal_iff]; norm_num [defEps]
    rw [this]; rfl

/-- A flip towards the sense the problem already has does nothing. -/
theorem flipObj_same (o : Objective) (s : ℤ) (h : o.sense = s) : flipObj s o = o := by
  have : isVal (s : ℚ) (s : ℚ) = true := by rw [isVal_iff]; norm_num [defEps]
  rw [flipObj, h, this]; rfl

example : ∃ o : Objective, o.sense = -((1 : ℤ) : ℚ) ∧ o.coeff = [3, -1/2] ∧ o.offset = 7 :=
  ⟨⟨-1, [3, -1/2], 7⟩, by norm_num, rfl, rfl⟩

/-! ## Loading problem data (C55) -/

/-- **C55 (partial).** Loading problem data keeps the bounds of continuous and general integer
variables, makes binaries `[0,1]` integers, marks exactly the `B` and `I` variables integer, and
produces a minimization problem whose value is `±` the objective without offset. Missing: the
objective offset (`load_ignores_offset`). -/
theorem load_partial (d : ProblemData) (hs : d.objsense = 1 ∨ d.objsense = -1) :
    let r := loadProblemData 0 d
    r.2.sense = 1 ∧
    (∀ x, r.2.value x = d.objsense * ((d.vars.map (·.obj)).zipWith (· * ·) x).sum) ∧
    ∀ (i : ℕ) (v : ProbVar), d.vars[i]? = some v →
      ∃ l, r.1[i]? = some l ∧ (l.isInt = true ↔ v.vartype = 'B' ∨ v.vartype = 'I') ∧
        (v.vartype = 'B' → l.lb = 0 ∧ l.ub = 1) ∧
        (v.vartype ≠ 'B' → l.lb = v.lb ∧ l.ub = v.ub) := by
  intro r
  have far : isVal ((-1 : ℤ) : ℚ) ((1 : ℤ) : ℚ) = false := by
    rw [← Bool.not_eq_true, isVal_iff]; norm_num [defEps]
  refine ⟨?_, ?_, ?_⟩
  · rcases hs with h | h
    · change (flipObj 1 _).sense = 1
      rw [flipObj_same _ 1 (by simp [h])]; simp [h]
    · change (flipObj 1 _).sense = 1
      rw [flipObj]; simp only [h, far]; simp [negateObjective]
  · intro x
    rcases hs with h | h
    · change (flipObj 1 _).value x = _
      rw [flipObj_same _ 1 (by simp [h])]; simp [h, Objective.value]
    · change (flipObj 1 _).value x = _
      rw [flipObj]; simp only [h, far, Bool.not_false, if_true]
      rw [negateObjective_value]; simp [Objective.value]
  · intro i v hv
    refine ⟨loadVar v, by simp [r, loadProblemData, hv], ?_⟩
    unfold loadVar
    by_cases hB : v.vartype = 'B'
    · simp [hB]
    · by_cases hI : v.vartype = 'I'
      · simp [hI]
      · simp [hB, hI]

/-- **C55 fails**: two data sets that differ only in the objective offset load identically. -/
theorem load_ignores_offset (old : ℚ) (d : ProblemData) (off : ℚ) :
    loadProblemData old { d with objoffset := off } = loadProblemData old d := rfl

/-- A witness: minimize `x₀` with offset 3; the described value at `x₀ = 1` is `1 - 3`, the loaded
one is `1`. -/
theorem load_wrong_value :
    ∃ (d : ProblemData) (x : List ℚ), (d.objsense = 1 ∨ d.objsense = -1) ∧
      (loadProblemData 0 d).2.value x ≠
        d.objsense * (((d.vars.map (·.obj)).zipWith (· * ·) x).sum - d.objoffset) :=
  ⟨⟨[⟨0, 5, 1, 'I'⟩], 1, 3⟩, [1], Or.inl rfl, by decide +kernel⟩

example : ∃ d : ProblemData, (d.objsense = 1 ∨ d.objsense = -1) ∧ d.vars.length = 2 :=
  ⟨⟨[⟨0, 5, 1, 'I'⟩, ⟨-1, 9, 2, 'B'⟩], -1, 3⟩, Or.inr rfl, rfl⟩

/-! ## Objective of the point-ray LP (C24) -/

theorem getD_set (c : List ℚ) (i k : ℕ) (v : ℚ) (hi : i < c.length) :
    (c.set i v).getD k 0 = if k = i then v else c.getD k 0 := by
  simp only [List.getD_eq_getElem?_getD, List.getElem?_set]
  by_cases h : i = k
  · subst h; simp [hi]
  · simp [h, Ne.symm h]

theorem addObjLoop_spec (mult tn : ℚ) (hm : isZero mult = false) (v : SVec) (c : List ℚ)
    (hv : ∀ e ∈ v, e.1 < c.length) :
    ∃ c', addObjLoop mult tn v c = some c' ∧ c'.length = c.length ∧
      ∀ k, c'.getD k 0 = c.getD k 0 + scoef v k * mult / tn := by
  induction v generalizing c with
  | nil => exact ⟨c, rfl, rfl, by simp⟩
  | cons e v ih =>
    have he := hv e (by simp)
    have e1 : c[e.1]? = some (c.getD e.1 0) := by
      rw [List.getD_eq_getElem?_getD, List.getElem?_eq_getElem he]; rfl
    obtain ⟨c', h1, h2, h3⟩ := ih (c.set e.1 (newObjCoeff mult tn (c.getD e.1 0) e.2))
      (by intro e' he'; simpa using hv e' (by simp [he']))
    refine ⟨c', ?_, by simpa using h2, ?_⟩
    · rw [addObjLoop, e1]
      simp only [setObjCoeff, if_pos he, Option.bind_some, h1]
    · intro k
      rw [h3, getD_set c _ _ _ he, scoef_cons]
      by_cases hk : k = e.1
      · subst hk
        rw [if_pos rfl, if_pos rfl]
        simp only [newObjCoeff, hm]; simp; ring
      · rw [if_neg hk, if_neg (Ne.symm hk)]; ring

/-- **C24, no column list.** Adding a multiple (at least `1e-7` in size) of a packed vector to the
objective adds exactly `mult/‖·‖` times its entry to every coefficient and leaves the others
unchanged, starting from the old objective or from zero. Repeated indices add up. -/
theorem addToObjective_spec (c : List ℚ) (v : SVec) (norm mult : ℚ) (zeroOut scale : Bool)
    (hm : defEps ≤ |mult|) (hv : ∀ e ∈ v, e.1 < c.length) :
    ∃ c' tn, addToObjective c (some v) norm zeroOut mult none scale = some c' ∧
      (tn = 1 ∨ (scale = true ∧ tn = norm / (c.length : ℚ) ∧ defEps ≤ tn)) ∧
      (scale = false → tn = 1) ∧ c'.length = c.length ∧
      ∀ k, c'.getD k 0 = (if zeroOut then 0 else c.getD k 0) + scoef v k * mult / tn := by
  have hz : isZero mult = false := isZero_false_iff.mpr hm
  set c0 := if zeroOut then c.map (fun _ => (0 : ℚ)) else c with hc0
  have hlen : c0.length = c.length := by rw [hc0]; split <;> simp
  have hget : ∀ k, c0.getD k 0 = if zeroOut then 0 else c.getD k 0 := by
    intro k; rw [hc0]; split
    · simp only [List.getD_eq_getElem?_getD, List.getElem?_map]
      cases c[k]? <;> simp
    · rfl
  set tn := if !(isZero mult) && scale && greaterThanVal (norm / (c0.length : ℚ)) 0 then
    norm / (c0.length : ℚ) else 1 with htn
  obtain ⟨c', h1, h2, h3⟩ := addObjLoop_spec mult tn hz v c0 (by rw [hlen]; exact hv)
  refine ⟨c', tn, ?_, ?_, ?_, by rw [h2, hlen], fun k => by rw [h3, hget]⟩
  · exact h1
  · rw [htn]
    split
    · rename_i h
      simp only [Bool.and_eq_true, greaterThanVal_iff, zero_add] at h
      exact Or.inr ⟨h.1.2, by rw [hlen], h.2⟩
    · exact Or.inl rfl
  · intro hs; rw [htn, hs]; simp

/-- Entry of `v` in the column that the compressed LP keeps at position `k`. -/
def keptEntry (nz : List ℕ) (v : SVec) (k : ℕ) : ℚ :=
  match nz[k]? with
  | some j => scoef v j
  | none => 0

theorem skipCols_spec (nz : List ℕ) (hnz : nz.Pairwise (· < ·)) (col ind : ℕ) :
    let i := skipCols nz col ind
    ind ≤ i ∧ (∀ k j, ind ≤ k → k < i → nz[k]? = some j → j < col) ∧
      (∀ j, nz[i]? = some j → col ≤ j) := by
  have key : ∀ (l : List ℕ), (∀ k j, k < (l.takeWhile fun j => decide (j < col)).length →
      l[k]? = some j → j < col) ∧
      (∀ j, l[(l.takeWhile fun j => decide (j < col)).length]? = some j → col ≤ j) := by
    intro l
    induction l with
    | nil => simp
    | cons a l ih =>
      by_cases ha : a < col
      · simp only [List.takeWhile_cons, ha, decide_true, if_true, List.length_cons]
        refine ⟨?_, by simpa using ih.2⟩
        intro k j hk hj
        cases k with
        | zero => simp at hj; omega
        | succ k => exact ih.1 k j (by omega) (by simpa using hj)
      · simp only [List.takeWhile_cons, ha, decide_false]
        simp; omega
  intro i
  obtain ⟨h1, h2⟩ := key (nz.drop ind)
  refine ⟨Nat.le_add_right _ _, ?_, ?_⟩
  · intro k j hk hki hj
    refine h1 (k - ind) j ?_ ?_
    · simp only [i, skipCols] at hki; omega
    · rw [List.getElem?_drop]; rw [show ind + (k - ind) = k by omega]; exact hj
  · intro j hj
    refine h2 j ?_
    rw [List.getElem?_drop]; exact hj

theorem addObjColsLoop_spec (mult tn : ℚ) (hm : isZero mult = false) (nz : List ℕ)
    (hnz : nz.Pairwise (· < ·)) (v : SVec) (hv : Sorted v) (ind : ℕ) (c : List ℚ)
    (hc : nz.length ≤ c.length)
    (hind : ∀ e ∈ v, ∀ k j, k < ind → nz[k]? = some j → j < e.1) :
    ∃ c', addObjColsLoop mult tn nz v ind c = some c' ∧ c'.length = c.length ∧
      ∀ k, c'.getD k 0 = c.getD k 0 + keptEntry nz v k * mult / tn := by
  induction v generalizing c ind with
  | nil =>
    refine ⟨c, rfl, rfl, fun k => ?_⟩
    unfold keptEntry; cases nz[k]? <;> simp
  | cons e v ih =>
    obtain ⟨s1, s2, s3⟩ := skipCols_spec nz hnz e.1 ind
    set i := skipCols nz e.1 ind with hi
    have hlt := (List.pairwise_cons.mp hv).1
    have hvt : Sorted v := (List.pairwise_cons.mp hv).2
    have below : ∀ k j, k < i → nz[k]? = some j → j < e.1 := by
      intro k j hk hj
      by_cases hki : k < ind
      · exact hind e (by simp) k j hki hj
      · exact s2 k j (by omega) hk hj
    have hnext : ∀ e' ∈ v, ∀ k j, k < i → nz[k]? = some j → j < e'.1 := by
      intro e' he' k j hk hj
      have := below k j hk hj; have := hlt e' he'; omega
    rw [addObjColsLoop]
    simp only [← hi]
    cases hnzi : nz[i]? with
    | none =>
      refine ⟨c, rfl, rfl, fun k => ?_⟩
      have : keptEntry nz (e :: v) k = 0 := by
        unfold keptEntry
        cases hk : nz[k]? with
        | none => rfl
        | some j =>
          have hki : k < i := by
            by_contra hcon
            have := (List.getElem?_eq_none_iff.mp hnzi)
            have h' := List.getElem?_eq_some_iff.mp hk
            obtain ⟨h'', _⟩ := h'
            omega
          have hj := below k j hki hk
          refine scoef_eq_zero_of_forall_ne fun e' he' => ?_
          rcases List.mem_cons.mp he' with rfl | he'
          · omega
          · have := hlt e' he'; omega
      rw [this]; ring
    | some j =>
      have hej := s3 j hnzi
      have hil : i < nz.length := (List.getElem?_eq_some_iff.mp hnzi).1
      by_cases hlt' : e.1 < j
      · simp only [if_pos hlt']
        obtain ⟨c', h1, h2, h3⟩ := ih hvt i c hc hnext
        refine ⟨c', h1, h2, fun k => ?_⟩
        rw [h3]
        have : keptEntry nz (e :: v) k = keptEntry nz v k := by
          unfold keptEntry
          cases hk : nz[k]? with
          | none => rfl
          | some j' =>
            simp only [scoef_cons]
            rw [if_neg, zero_add]
            intro hh
            rcases Nat.lt_trichotomy k i with h | h | h
            · have := below k j' h hk; omega
            · subst h; rw [hnzi] at hk; simp at hk; omega
            · have hkl := (List.getElem?_eq_some_iff.mp hk)
              obtain ⟨hkl, hke⟩ := hkl
              obtain ⟨_, hie⟩ := List.getElem?_eq_some_iff.mp hnzi
              have := (List.pairwise_iff_getElem.mp hnz) i k hil hkl h
              omega
        rw [this]
      · have hjeq : e.1 = j := by omega
        simp only [if_neg hlt']
        have hic : i < c.length := by omega
        have e1 : c[i]? = some (c.getD i 0) := by
          rw [List.getD_eq_getElem?_getD, List.getElem?_eq_getElem hic]; rfl
        rw [e1]
        simp only [setObjCoeff, if_pos hic, Option.bind_some]
        obtain ⟨c', h1, h2, h3⟩ := ih hvt i
          (c.set i (newObjCoeff mult tn (c.getD i 0) e.2)) (by simpa using hc) hnext
        refine ⟨c', h1, by simpa using h2, fun k => ?_⟩
        rw [h3, getD_set c _ _ _ hic]
        by_cases hk : k = i
        · rw [hk]
          have a1 : keptEntry nz (e :: v) i = e.2 := by
            unfold keptEntry
            rw [hnzi]
            simp only [scoef_cons, hjeq, if_true]
            rw [scoef_eq_zero_of_forall_ne fun e' he' => by have := hlt e' he'; omega, add_zero]
          have a2 : keptEntry nz v i = 0 := by
            unfold keptEntry
            rw [hnzi]
            exact scoef_eq_zero_of_forall_ne fun e' he' => by have := hlt e' he'; omega
          rw [if_pos rfl, a1, a2]
          simp only [newObjCoeff, hm]; simp
        · rw [if_neg hk]
          have : keptEntry nz (e :: v) k = keptEntry nz v k := by
            unfold keptEntry
            cases hkk : nz[k]? with
            | none => rfl
            | some j' =>
              simp only [scoef_cons]
              rw [if_neg, zero_add]
              intro hh
              obtain ⟨hkl, hke⟩ := List.getElem?_eq_some_iff.mp hkk
              obtain ⟨_, hie⟩ := List.getElem?_eq_some_iff.mp hnzi
              rcases Nat.lt_trichotomy k i with h | h | h
              · have := (List.pairwise_iff_getElem.mp hnz) k i hkl hil h; omega
              · exact hk h
              · have := (List.pairwise_iff_getElem.mp hnz) i k hil hkl h; omega
          rw [this]

/-- **C24, with a column list (partial).** With an increasing list of kept columns and an
index-sorted vector, position `k` of the objective gains exactly the scaled entry of the `k`-th
kept column. Missing: vectors whose indices are not increasing (`addToObjective_unsorted`) and
multipliers below the tolerance (`addToObjective_zero_mult`). -/
theorem addToObjective_cols_partial (c : List ℚ) (v : SVec) (norm mult : ℚ)
    (zeroOut scale : Bool) (nz : List ℕ) (hnz : nz.Pairwise (· < ·)) (hlen : nz.length ≤ c.length)
    (hm : defEps ≤ |mult|) (hv : Sorted v) :
    ∃ c' tn, addToObjective c (some v) norm zeroOut mult (some nz) scale = some c' ∧
      (tn = 1 ∨ (scale = true ∧ tn = norm / (c.length : ℚ) ∧ defEps ≤ tn)) ∧
      (scale = false → tn = 1) ∧ c'.length = c.length ∧
      ∀ k, c'.getD k 0 = (if zeroOut then 0 else c.getD k 0) + keptEntry nz v k * mult / tn := by
  have hz : isZero mult = false := isZero_false_iff.mpr hm
  set c0 := if zeroOut then c.map (fun _ => (0 : ℚ)) else c with hc0
  have hl : c0.length = c.length := by rw [hc0]; split <;> simp
  have hget : ∀ k, c0.getD k 0 = if zeroOut then 0 else c.getD k 0 := by
    intro k; rw [hc0]; split
    · simp only [List.getD_eq_getElem?_getD, List.getElem?_map]
      cases c[k]? <;> simp
    · rfl
  set tn := if !(isZero mult) && scale && greaterThanVal (norm / (c0.length : ℚ)) 0 then
    norm / (c0.length : ℚ) else 1 with htn
  obtain ⟨c', h1, h2, h3⟩ := addObjColsLoop_spec mult tn hz nz hnz v hv 0 c0 (by rw [hl]; exact hlen)
    (by intro e he k j hk; omega)
  refine ⟨c', tn, h1, ?_, ?_, by rw [h2, hl], fun k => by rw [h3, hget]⟩
  · rw [htn]
    split
    · rename_i h
      simp only [Bool.and_eq_true, greaterThanVal_iff, zero_add] at h
      exact Or.inr ⟨h.1.2, by rw [hl], h.2⟩
    · exact Or.inl rfl
  · intro hs; rw [htn, hs]; simp

/-- **C24 fails for unsorted vectors**: with the columns `0, 1` kept, the vector `(1 ↦ 5, 0 ↦ 7)`
sets only the second coefficient. (The nonbasic coordinates passed in by the point-ray LP are not
always sorted, see `packCoor_unsorted`.) -/
theorem addToObjective_unsorted :
    addToObjective [0, 0] (some [(1, 5), (0, 7)]) 1 true 1 (some [0, 1]) false = some [0, 5] := by
  decide +kernel

/-- **C24 fails for a zero multiplier**: "adding" `0 · (0 ↦ 4)` to the objective `(3, 2)` does not
leave it alone but erases the first coefficient. -/
theorem addToObjective_zero_mult :
    addToObjective [3, 2] (some [(0, 4)]) 4 false 0 none false = some [0, 2] := by
  decide +kernel

/-- Without a vector only the zeroing takes place. -/
theorem addToObjective_null (c : List ℚ) (norm mult : ℚ) (nz scale) :
    addToObjective c none norm false mult nz scale = some c ∧
    addToObjective c none norm true mult nz scale = some (c.map fun _ => 0) := ⟨rfl, rfl⟩

/-- **C24, constant objective.** With a nonempty index list exactly those coefficients become
`val`; otherwise all do. -/
theorem setConstantObjective_spec (c : List ℚ) (val : ℚ) (is : List ℕ)
    (h : ∀ i ∈ is, i < c.length) (hne : is ≠ []) :
    ∃ c', setConstantObjective c val (some is) = some c' ∧ c'.length = c.length ∧
      ∀ k, c'.getD k 0 = if k ∈ is then val else c.getD k 0 := by
  have key : ∀ (is : List ℕ) (c : List ℚ), (∀ i ∈ is, i < c.length) →
      ∃ c', is.foldlM (fun c i => setObjCoeff c i val) c = some c' ∧ c'.length = c.length ∧
        ∀ k, c'.getD k 0 = if k ∈ is then val else c.getD k 0 := by
    intro is
    induction is with
    | nil => intro c _; exact ⟨c, rfl, rfl, by simp⟩
    | cons i is ih =>
      intro c h
      have hi := h i (by simp)
      obtain ⟨c', h1, h2, h3⟩ := ih (c.set i val) (by intro j hj; simpa using h j (by simp [hj]))
      refine ⟨c', ?_, by simpa using h2, fun k => ?_⟩
      · rw [List.foldlM_cons]
        simp only [setObjCoeff, if_pos hi, Option.bind_eq_bind, Option.bind_some]
        exact h1
      · rw [h3, getD_set c _ _ _ hi]
        by_cases hk : k ∈ is
        · simp [hk]
        · by_cases hki : k = i <;> simp [hk, hki]
  cases is with
  | nil => exact absurd rfl hne
  | cons i is => exact key (i :: is) c h

theorem setConstantObjective_all (c : List ℚ) (val : ℚ) :
    setConstantObjective c val none = some (c.map fun _ => val) ∧
    setConstantObjective c val (some []) = some (c.map fun _ => val) := ⟨rfl, rfl⟩

/-- Adding a vector and then zeroing its support restores a zero objective (the pattern used
between objectives, e.g. src/cut/PRLP.cpp:1592-1601). -/
theorem add_then_zero (n : ℕ) (v : SVec) (norm mult : ℚ) (scale : Bool) (hm : defEps ≤ |mult|)
    (hv : ∀ e ∈ v, e.1 < n) (hne : v ≠ []) :
    ((addToObjective (List.replicate n 0) (some v) norm false mult none scale).bind
      fun c => setConstantObjective c 0 (some (v.map (·.1)))) = some (List.replicate n 0) := by
  obtain ⟨c', tn, h1, -, -, h4, h5⟩ := addToObjective_spec (List.replicate n 0) v norm mult false
    scale hm (by simpa using hv)
  have hl : c'.length = n := by simpa using h4
  obtain ⟨c'', g1, g2, g3⟩ := setConstantObjective_spec c' 0 (v.map (·.1))
    (by intro i hi; obtain ⟨e, he, rfl⟩ := List.mem_map.mp hi; rw [hl]; exact hv e he)
    (by simpa using hne)
  rw [h1, Option.bind_some, g1]
  congr 1
  apply List.ext_getElem
  · simp [g2, hl]
  · intro k hk1 hk2
    have e1 : c''.getD k 0 = c''[k] := by
      rw [List.getD_eq_getElem?_getD, List.getElem?_eq_getElem hk1]; rfl
    rw [List.getElem_replicate, ← e1, g3]
    split
    · rfl
    · rename_i hk
      rw [h5]
      have : scoef v k = 0 := scoef_eq_zero_of_forall_ne fun e he hh =>
        hk (List.mem_map.mpr ⟨e, he, hh⟩)
      rw [this]
      have hkn : k < n := by simpa using hk2
      simp [List.getD_eq_getElem?_getD, hkn]

/-- **C24 fails for a structural-space objective on compressed columns**: with kept columns
`1, 3` (of four) the loop reads `nonZeroColIndex[3]`, which does not exist. -/
theorem setObjectiveStructural_undefined :
    setObjectiveStructural [0, 0] [10, 11, 12, 13] [1, 3] = none := by decide +kernel

/-- More kept-column lists for which the loop reads outside `nonZeroColIndex`: columns `0, 2` of
three, and column `1` of three. -/
theorem setObjectiveStructural_wrong :
    setObjectiveStructural [0, 0, 0] [10, 11, 12] [0, 2] = none ∧
    setObjectiveStructural [0, 0] [10, 11, 12] [1] = none := by decide +kernel

/-- It is right when all columns are kept (no compression list) or the list is `0..n-1`. -/
theorem setObjectiveStructural_uncompressed (c p : List ℚ) (h : p.length = c.length) :
    setObjectiveStructural c p [] = some p := by
  simp [setObjectiveStructural, ← h]

example : ([0, 2, 5] : List ℕ).Pairwise (· < ·) ∧ Sorted [(2, (7 : ℚ)), (5, 1)] ∧
    defEps ≤ |(1 : ℚ)| ∧ ([0, 2, 5] : List ℕ).length ≤ ([1, 1, 1] : List ℚ).length := by
  refine ⟨by decide, by decide, by norm_num [defEps], by decide⟩

/-! ## Cut conversion (C25) -/

/-- What a sparse cut means. -/
def SparseCut.toSVec (s : SparseCut) : SVec := s.index.zip s.coeff

/-- The sparse conversion loses nothing: every cut can be read back entry by entry. -/
theorem sparse_roundtrip (cs : List RowCut) :
    (convertCutsToSparseCuts (some cs)).map (fun s => (⟨s.toSVec, s.rhs⟩ : RowCut)) = cs ∧
    ∀ s ∈ convertCutsToSparseCuts (some cs),
      s.numElem = s.index.length ∧ s.numElem = s.coeff.length := by
  constructor
  · simp only [convertCutsToSparseCuts, List.map_map]
    conv_rhs => rw [← List.map_id cs]
    refine List.map_congr_left fun c _ => ?_
    have : ∀ v : SVec, (v.map (·.1)).zip (v.map (·.2)) = v := by
      intro v; induction v with
      | nil => rfl
      | cons e v ih => simp; exact ih
    simp [SparseCut.toSVec, this]
  · intro s hs
    simp only [convertCutsToSparseCuts, List.mem_map] at hs
    obtain ⟨c, _, rfl⟩ := hs
    simp

theorem toInt_intCast (z : ℤ) (h1 : -2 ^ 31 ≤ z) (h2 : z < 2 ^ 31) : toInt (z : ℚ) = some z := by
  have : (if (0 : ℚ) ≤ (z : ℚ) then ⌊(z : ℚ)⌋ else ⌈(z : ℚ)⌉) = z := by
    split <;> simp
  simp only [toInt, this]
  rw [if_pos ⟨h1, h2⟩]

theorem denseCoeffs_int (n : ℕ) (row : SVec) (hnd : (row.map (·.1)).Nodup)
    (hr : ∀ e ∈ row, e.1 < n) (hz : ∀ e ∈ row, ∃ z : ℤ, e.2 = z ∧ -2 ^ 31 ≤ z ∧ z < 2 ^ 31) :
    ∃ c, denseCoeffs n row = some c ∧ c.length = n ∧ ∀ k, c.getD k 0 = scoef row k := by
  have key : ∀ (row : SVec) (c : List ℚ), (row.map (·.1)).Nodup → c.length = n →
      (∀ e ∈ row, e.1 < n) → (∀ e ∈ row, ∃ z : ℤ, e.2 = z ∧ -2 ^ 31 ≤ z ∧ z < 2 ^ 31) →
      (∀ e ∈ row, c.getD e.1 0 = 0) →
      ∃ c', row.foldlM (fun c e => (toInt e.2).bind fun v => setObjCoeff c e.1 (v : ℚ)) c
        = some c' ∧ c'.length = n ∧ ∀ k, c'.getD k 0 = c.getD k 0 + scoef row k := by
    intro row
    induction row with
    | nil => intro c _ hc _ _ _; exact ⟨c, rfl, hc, by simp⟩
    | cons e row ih =>
      intro c hnd hc hr hz h0
      obtain ⟨z, hze, hz1, hz2⟩ := hz e (by simp)
      simp only [List.map_cons, List.nodup_cons] at hnd
      have he : e.1 < c.length := by rw [hc]; exact hr e (by simp)
      have hne : ∀ e' ∈ row, e'.1 ≠ e.1 := fun e' he' hh =>
        hnd.1 (List.mem_map.mpr ⟨e', he', hh⟩)
      obtain ⟨c', h1, h2, h3⟩ := ih (c.set e.1 (z : ℚ)) hnd.2 (by simpa using hc)
        (fun e' he' => hr e' (by simp [he'])) (fun e' he' => hz e' (by simp [he']))
        (fun e' he' => by
          rw [getD_set c _ _ _ he, if_neg (hne e' he')]; exact h0 e' (by simp [he']))
      refine ⟨c', ?_, h2, fun k => ?_⟩
      · rw [List.foldlM_cons, hze, toInt_intCast z hz1 hz2]
        simp only [Option.bind_some, setObjCoeff, if_pos he, Option.bind_eq_bind]
        exact h1
      · rw [h3, getD_set c _ _ _ he, scoef_cons]
        by_cases hk : k = e.1
        · subst hk
          rw [if_pos rfl, if_pos rfl, h0 e (by simp), hze,
            scoef_eq_zero_of_forall_ne fun e' he' => hne e' he']
          ring
        · rw [if_neg hk, if_neg (Ne.symm hk)]; ring
  obtain ⟨c, h1, h2, h3⟩ := key row (List.replicate n 0) hnd (by simp) hr hz (by
    intro e he
    simp [List.getD_eq_getElem?_getD, hr e he])
  refine ⟨c, h1, h2, fun k => ?_⟩
  rw [h3]
  have : (List.replicate n (0 : ℚ)).getD k 0 = 0 := by
    rw [List.getD_eq_getElem?_getD]
    by_cases hk : k < n
    · simp [hk]
    · rw [List.getElem?_eq_none (by simpa using hk)]; rfl
  rw [this, zero_add]

theorem mapM_some_of_forall {α β : Type} (f : α → Option β) (P : α → β → Prop) (l : List α)
    (h : ∀ a ∈ l, ∃ b, f a = some b ∧ P a b) :
    ∃ l', l.mapM f = some l' ∧ List.Forall₂ P l l' := by
  induction l with
  | nil => exact ⟨[], rfl, List.Forall₂.nil⟩
  | cons a l ih =>
    obtain ⟨b, h1, h2⟩ := h a (by simp)
    obtain ⟨l', h3, h4⟩ := ih fun a' ha' => h a' (by simp [ha'])
    exact ⟨b :: l', by simp [h1, h3], List.Forall₂.cons h2 h4⟩

/-- **C25 (partial).** Dense conversion is faithful (coefficients and right-hand side) for cuts
whose coefficients are all integers fitting in an `int`. Missing: everything else
(`dense_truncates`). -/
theorem dense_faithful_partial (n : ℕ) (cs : List RowCut)
    (h : ∀ c ∈ cs, (c.row.map (·.1)).Nodup ∧ (∀ e ∈ c.row, e.1 < n) ∧
      ∀ e ∈ c.row, ∃ z : ℤ, e.2 = z ∧ -2 ^ 31 ≤ z ∧ z < 2 ^ 31) :
    ∃ ds, convertCutsToDenseCuts (some cs) n = some ds ∧
      List.Forall₂ (fun (c : RowCut) (d : DenseCut) =>
        d.rhs = c.lb ∧ d.coeff.length = n ∧ ∀ k, d.coeff.getD k 0 = scoef c.row k) cs ds := by
  refine mapM_some_of_forall _ _ cs fun c hc => ?_
  obtain ⟨h1, h2, h3⟩ := h c hc
  obtain ⟨d, g1, g2, g3⟩ := denseCoeffs_int n c.row h1 h2 h3
  exact ⟨⟨d, c.lb⟩, by simp [g1], rfl, g2, g3⟩

/-- **C25 fails**: the cut `0.5 x₀ - 1.9 x₁ ≥ 1` becomes `0·x₀ - 1·x₁ ≥ 1`, and a coefficient of
`10¹⁰` is undefined behaviour. -/
theorem dense_truncates :
    convertCutsToDenseCuts (some [⟨[(0, 1/2), (1, -19/10)], 1⟩]) 2 = some [⟨[0, -1], 1⟩] ∧
    convertCutsToDenseCuts (some [⟨[(0, 10 ^ 10)], 1⟩]) 1 = none := by decide +kernel

/-- The dense form of a truncated cut is not the same inequality: some point satisfies the cut and
violates its dense form (`0.5 x₀ + x₁ ≥ 1` at `(2, 0)`). -/
theorem dense_truncation_changes_cut :
    ∃ (c : RowCut) (d : DenseCut) (x : List ℚ),
      convertCutsToDenseCuts (some [c]) 2 = some [d] ∧ c.Sat (fun i => x.getD i 0) ∧
      (d.coeff.zipWith (· * ·) x).sum < d.rhs := by
  refine ⟨⟨[(0, 1/2), (1, 1)], 1⟩, ⟨[0, 1], 1⟩, [2, 0], by decide +kernel, ?_, ?_⟩
  · unfold RowCut.Sat sdot; norm_num
  · norm_num

example : ∃ c : RowCut, (c.row.map (·.1)).Nodup ∧ (∀ e ∈ c.row, e.1 < 3) ∧
    ∀ e ∈ c.row, ∃ z : ℤ, e.2 = z ∧ -2 ^ 31 ≤ z ∧ z < 2 ^ 31 := by
  refine ⟨⟨[(0, 3), (2, -4)], 7⟩, by decide, by decide, ?_⟩
  intro e he
  simp only [List.mem_cons, List.not_mem_nil, or_false] at he
  rcases he with rfl | rfl
  · exact ⟨3, by norm_num, by norm_num, by norm_num⟩
  · exact ⟨-4, by norm_num, by norm_num, by norm_num⟩

end VPC
