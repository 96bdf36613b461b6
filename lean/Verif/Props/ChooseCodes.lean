import Verif.Props.Choose

/-!
# Return codes and directions of the custom variable choice (C89)

The documentation of the return code (src/branch/OsiChooseStrongCustom.cpp:571-582): -1 node
infeasible, 0 candidate, 1 all satisfied, 2-4 a bound can be changed, 4 no other candidates; the forced
branch is the one to take when a bound can be changed.
-/
namespace VPC

/-- Strong branching has shown exactly one side of the object to be infeasible. -/
def SBOut.OneSided (r : SBOut) : Prop := (r.upInf = true ∧ r.downInf = false) ∨
  (r.upInf = false ∧ r.downInf = true)

/-- Strong branching has found no infeasible side. -/
def SBOut.Open2 (r : SBOut) : Prop := r.upInf = false ∧ r.downInf = false

/-! ## Directions -/

/-- **C89 (direction of a candidate).** Without a preferred way, the branch taken first is the one with the
smaller estimated degradation (up on ties); a preferred way is obeyed while the object is infeasible. -/
theorem first_direction (c : Cand) :
    (c.pref < 0 ∨ c.infeas = false → (c.way = 0 ↔ c.down < c.up) ∧ (c.way = 1 ↔ c.up ≤ c.down)) ∧
    (0 ≤ c.pref → c.infeas = true → c.way = c.pref) := by
  unfold Cand.way
  constructor
  · intro h
    rw [if_neg (by rcases h with h | h <;> simp [h])]
    constructor
    · by_cases h1 : c.up > c.down
      · simp [h1]
      · simp [h1]
    · by_cases h1 : c.up > c.down
      · simp [h1]
      · simp only [if_neg h1, true_iff]; exact not_lt.mp h1
  · intro h1 h2
    rw [if_pos ⟨h1, h2⟩]

/-! ## What strong branching reports -/

/-- The results are the candidates up to the first one with an infeasible side (or the last one in
time); all others are open on both sides. -/
theorem doStrong_spec (rs : List SBOut) :
    ∃ pre post, rs = pre ++ post ∧ (∀ r ∈ pre, r.Open2 ∧ r.timeUp = false) ∧
      ((post = [] ∧ doStrong rs = (0, rs.length, none)) ∨
       ∃ r post', post = r :: post' ∧ (doStrong rs).2.1 = pre.length + 1 ∧
        ((r.upInf = true ∧ r.downInf = true ∧ (doStrong rs).1 = -1 ∧
            (doStrong rs).2.2 = some ((r.cand.obj : ℤ), -1)) ∨
         (r.OneSided ∧ (doStrong rs).1 = 2 ∧ (doStrong rs).2.2 = some ((r.cand.obj : ℤ),
            if (r.firstUp = true ↔ r.upInf = true) then 0 else 1)) ∨
         (r.Open2 ∧ r.timeUp = true ∧ (doStrong rs).1 = 3 ∧ (doStrong rs).2.2 = none))) := by
  induction rs with
  | nil => exact ⟨[], [], rfl, by simp, Or.inl ⟨rfl, rfl⟩⟩
  | cons r rs ih =>
    by_cases h1 : (r.upInf && r.downInf) = true
    · refine ⟨[], r :: rs, rfl, by simp, Or.inr ⟨r, rs, rfl, ?_, Or.inl ?_⟩⟩
      · simp only [doStrong, if_pos h1]; rfl
      · simp only [Bool.and_eq_true] at h1
        refine ⟨h1.1, h1.2, ?_, ?_⟩ <;> simp [doStrong, h1]
    · by_cases h2 : (r.upInf || r.downInf) = true
      · refine ⟨[], r :: rs, rfl, by simp, Or.inr ⟨r, rs, rfl, ?_, Or.inr (Or.inl ⟨?_, ?_, ?_⟩)⟩⟩
        · simp only [doStrong, if_neg h1, if_pos h2]; rfl
        · unfold SBOut.OneSided
          cases hu : r.upInf <;> cases hd : r.downInf <;> simp_all
        · simp only [doStrong, if_neg h1, if_pos h2]
        · simp only [doStrong, if_neg h1, if_pos h2]
          cases hu : r.upInf <;> cases hd : r.downInf <;> cases hf : r.firstUp <;> simp_all
      · have hopen : r.Open2 := by
          simp only [Bool.or_eq_true, not_or, Bool.not_eq_true] at h2
          exact h2
        by_cases h3 : r.timeUp = true
        · refine ⟨[], r :: rs, rfl, by simp,
            Or.inr ⟨r, rs, rfl, ?_, Or.inr (Or.inr ⟨hopen, h3, ?_, ?_⟩)⟩⟩ <;>
            simp [doStrong, h1, h2, h3]
        · obtain ⟨pre, post, e1, e2, e3⟩ := ih
          have hd : doStrong (r :: rs) = ((doStrong rs).1, (doStrong rs).2.1 + 1, (doStrong rs).2.2) := by
            simp only [doStrong, if_neg h1, if_neg h2, if_neg h3]
          refine ⟨r :: pre, post, by rw [e1]; rfl, ?_, ?_⟩
          · intro q hq
            simp only [List.mem_cons] at hq
            rcases hq with rfl | hq
            · exact ⟨hopen, by simpa using h3⟩
            · exact e2 q hq
          · rw [hd]
            rcases e3 with ⟨p1, p2⟩ | ⟨q, post', p1, p2, p3⟩
            · left; rw [p2]; exact ⟨p1, rfl⟩
            · right; exact ⟨q, post', p1, by simp [p2], p3⟩

/-- **C89 (forced branch).** When strong branching fixes a variable, the forced branch reported is the
feasible side of that variable: down if up is infeasible, up if down is. Otherwise none is reported. -/
theorem forced_branch_feasible (rs : List SBOut) :
    let d := doStrong rs
    (d.1 = 0 → forcedBranch (rs.take d.2.1) = (-1, -1)) ∧
    (d.1 = 2 → ∃ r ∈ rs, r.OneSided ∧ (forcedBranch (rs.take d.2.1)).1 = r.cand.obj ∧
      ((forcedBranch (rs.take d.2.1)).2 = 0 ↔ r.downInf = false) ∧
      ((forcedBranch (rs.take d.2.1)).2 = 1 ↔ r.upInf = false)) := by
  intro d
  have hskip : ∀ (pre post : List SBOut), (∀ r ∈ pre, r.Open2 ∧ r.timeUp = false) →
      forcedBranch (pre ++ post) = forcedBranch post := by
    intro pre post hp
    induction pre with
    | nil => rfl
    | cons a pre ih =>
      obtain ⟨⟨h1, h2⟩, _⟩ := hp a (by simp)
      simp only [List.cons_append, forcedBranch, h1, h2, Bool.false_eq_true, if_false]
      exact ih fun r hr => hp r (by simp [hr])
  obtain ⟨pre, post, e1, e2, e3⟩ := doStrong_spec rs
  rcases e3 with ⟨p1, p2⟩ | ⟨r, post', p1, p2, p3⟩
  · have hd : d = (0, rs.length, none) := p2
    rw [hd]
    refine ⟨fun _ => ?_, fun h => by simp at h⟩
    simp only [List.take_length]
    rw [e1, hskip pre post e2, p1]; rfl
  · have htake : rs.take d.2.1 = pre ++ [r] := by
      change rs.take (doStrong rs).2.1 = _
      rw [p2, e1, p1, List.take_append]
      simp
    rw [htake, hskip pre [r] e2]
    rcases p3 with ⟨_, _, h, _⟩ | ⟨h1, h, _⟩ | ⟨_, _, h, _⟩
    · refine ⟨fun h' => ?_, fun h' => ?_⟩ <;> (change (doStrong rs).1 = _ at h'; rw [h] at h'; omega)
    · refine ⟨fun h' => by change (doStrong rs).1 = _ at h'; rw [h] at h'; omega, fun _ => ?_⟩
      refine ⟨r, by rw [e1, p1]; simp, h1, ?_⟩
      rcases h1 with ⟨a, b⟩ | ⟨a, b⟩ <;> simp [forcedBranch, a, b]
    · refine ⟨fun h' => ?_, fun h' => ?_⟩ <;> (change (doStrong rs).1 = _ at h'; rw [h] at h'; omega)

example : (doStrong [⟨⟨1, 1, 2, 2, -1, true⟩, false, false, false, false⟩,
      ⟨⟨4, 4, 1, 1, -1, true⟩, false, true, true, false⟩]).1 = 2 ∧
    forcedBranch [⟨⟨1, 1, 2, 2, -1, true⟩, false, false, false, false⟩,
      ⟨⟨4, 4, 1, 1, -1, true⟩, false, true, true, false⟩] = (4, 1) := by decide +kernel

/-! ## Return codes -/

theorem processAll_rc (m : ℤ) (cs : List Cand) (s : ChSt) (rc : ℤ) :
    (rc = 0 → (processAll m cs s rc).2 = 0) ∧
    (rc ≠ 0 → (processAll m cs s rc).2 = rc ∨ (processAll m cs s rc).2 = 2) := by
  induction cs generalizing s rc with
  | nil => exact ⟨fun h => h, fun _ => Or.inl rfl⟩
  | cons c cs ih =>
    have h1 : (processObject m c s rc).2 = rc ∨ (rc ≠ 0 ∧ (processObject m c s rc).2 = 2) := by
      unfold processObject; dsimp only
      by_cases h : rc = 0
      · left
        split
        · simp [h]
        split
        · simp [h]
        split
        · simp [h]
        split
        · simp [h]
        · rfl
      · simp only [ne_eq, h, not_false_eq_true, if_true, true_and]
        split
        · right; rfl
        split
        · right; rfl
        split
        · right; rfl
        split
        · right; rfl
        · left; rfl
    simp only [processAll]
    rcases h1 with h1 | ⟨h0, h1⟩
    · rw [h1]; exact ih _ _
    · rw [h1]
      refine ⟨fun h => absurd h h0, fun _ => Or.inr ?_⟩
      rcases (ih (processObject m c s rc).1 2).2 (by norm_num) with h | h <;> exact h

/-- `chooseVariable` after strong branching that did not end early. -/
theorem choose_strong {m : ℤ} {lst : List LItem} {left onList : ℕ} {cutoff obj : ℚ} {s0 : ChSt}
    (hl : lst ≠ []) (ht : todoOf (lst.take left) ≠ [])
    (hd : 0 ≤ (doStrong (todoOf (lst.take left))).1 ∧ (doStrong (todoOf (lst.take left))).1 ≤ 2) :
    ∃ s : ChSt, (∀ i w, (doStrong (todoOf (lst.take left))).2.2 = some (i, w) → s.idx = i) ∧
      ∃ rc : ℤ, rc = (if (doStrong (todoOf (lst.take left))).1 ≠ 0 then
          (if s.idx ≥ 0 then 3 else 4) else 0) ∧
      (chooseVariable m lst left onList cutoff obj s0).2 =
        if fixedSides ((todoOf (lst.take left)).take (doStrong (todoOf (lst.take left))).2.1) = lst.length ∧
          fixedSides ((todoOf (lst.take left)).take (doStrong (todoOf (lst.take left))).2.1) ≠ 0 then 4
        else (processAll m (((todoOf (lst.take left)).take
          (doStrong (todoOf (lst.take left))).2.1).map (SBOut.toCand cutoff obj)) s rc).2 := by
  unfold chooseVariable
  rw [if_neg hl]
  dsimp only
  rw [if_pos ht, if_pos hd]
  refine ⟨_, ?_, _, rfl, rfl⟩
  intro i w hw
  rw [hw]

/-- `chooseVariable` otherwise. -/
theorem choose_other {m : ℤ} {lst : List LItem} {left onList : ℕ} {cutoff obj : ℚ} {s0 : ChSt}
    (hl : lst ≠ []) (ht : todoOf (lst.take left) ≠ [])
    (hd : ¬ (0 ≤ (doStrong (todoOf (lst.take left))).1 ∧ (doStrong (todoOf (lst.take left))).1 ≤ 2)) :
    (chooseVariable m lst left onList cutoff obj s0).2 =
      if (doStrong (todoOf (lst.take left))).1 = 3 then 0
      else (doStrong (todoOf (lst.take left))).1 := by
  unfold chooseVariable
  rw [if_neg hl]
  dsimp only
  rw [if_pos ht, if_neg hd]
  split
  · simp [chooseFinish]
  · simp [chooseFinish]

/-- **C89 (return codes).** The return code of the variable choice has its documented meaning: `1` exactly
when nothing is unsatisfied; `-1` only if some candidate is infeasible on both sides; `2`, `3` and `4`
only if some candidate is infeasible on exactly one side, so that a bound can be changed; `4` exactly if
moreover it is the only unsatisfied object; `0` otherwise. -/
theorem choose_code {m : ℤ} {lst : List LItem} {left onList : ℕ} {cutoff obj : ℚ} {s0 : ChSt} :
    let rc := (chooseVariable m lst left onList cutoff obj s0).2
    let todo := todoOf (lst.take left)
    (rc = 1 ↔ lst = []) ∧
    (rc = -1 → ∃ r ∈ todo, r.upInf = true ∧ r.downInf = true) ∧
    (rc = 2 ∨ rc = 3 → ∃ r ∈ todo, r.OneSided) ∧
    (rc = 4 ↔ lst.length = 1 ∧ ∃ r ∈ todo, r.OneSided) ∧
    (rc = 0 → (∀ r ∈ todo, r.Open2) ∨ ∃ r ∈ todo, r.timeUp = true) ∧
    (rc = -1 ∨ rc = 0 ∨ rc = 1 ∨ rc = 2 ∨ rc = 3 ∨ rc = 4) := by
  intro rc todo
  by_cases hl : lst = []
  · have hrc : rc = 1 := by
      change (chooseVariable m lst left onList cutoff obj s0).2 = 1
      unfold chooseVariable; rw [if_pos hl]
    rw [hrc]
    refine ⟨by simp [hl], by norm_num, by norm_num, ?_, by norm_num, by norm_num⟩
    constructor
    · norm_num
    · rintro ⟨h, _⟩; rw [hl] at h; simp at h
  have hlen : 0 < lst.length := List.length_pos_iff.mpr hl
  have hfin : ∀ (s : ChSt) (c f u : ℤ), (chooseFinish m s c f u).2 = if f = u ∧ f ≠ 0 then 4 else c :=
    fun s c f u => rfl
  by_cases ht : todo = []
  · have hrc : rc = 0 := by
      change (chooseVariable m lst left onList cutoff obj s0).2 = 0
      unfold chooseVariable
      rw [if_neg hl]
      dsimp only
      rw [if_neg (not_not.mpr ht), hfin]
      simp
    rw [hrc, ht]
    exact ⟨by simp [hl], by norm_num, by norm_num, by simp, fun _ => Or.inl (by simp), by norm_num⟩
  have hopen0 : ∀ l : List SBOut, (∀ r ∈ l, r.Open2 ∧ r.timeUp = false) → fixedSides l = 0 := by
    intro l h
    unfold fixedSides
    apply List.sum_eq_zero
    intro x hx
    simp only [List.mem_map] at hx
    obtain ⟨q, hq, rfl⟩ := hx
    obtain ⟨⟨h1, h2⟩, _⟩ := h q hq
    simp [h1, h2]
  obtain ⟨pre, post, e1, e2, e3⟩ := doStrong_spec todo
  rcases e3 with ⟨p1, p2⟩ | ⟨r, post', p1, p2, p3⟩
  · -- no infeasible side
    have hall : ∀ r ∈ todo, r.Open2 ∧ r.timeUp = false := by rw [e1, p1, List.append_nil]; exact e2
    have hd0 : (doStrong todo).1 = 0 := by rw [p2]
    have hrc : rc = 0 := by
      obtain ⟨s, _, c, hc, h⟩ := choose_strong (m := m) (onList := onList) (cutoff := cutoff) (obj := obj)
        (s0 := s0) (left := left) hl ht (by rw [hd0]; norm_num)
      change (chooseVariable m lst left onList cutoff obj s0).2 = 0
      rw [h]
      rw [if_neg (not_not.mpr hd0)] at hc
      rw [if_neg, hc, (processAll_rc m _ _ 0).1 rfl]
      rintro ⟨_, h⟩
      apply h
      apply hopen0
      intro q hq
      exact hall q (List.mem_of_mem_take hq)
    rw [hrc]
    refine ⟨by simp [hl], by norm_num, by norm_num, ?_, fun _ => Or.inl fun r hr => (hall r hr).1,
      by norm_num⟩
    constructor
    · norm_num
    · rintro ⟨_, r, hr, h⟩
      obtain ⟨⟨h1, h2⟩, _⟩ := hall r hr
      rcases h with ⟨a, b⟩ | ⟨a, b⟩
      · rw [h1] at a; cases a
      · rw [h2] at b; cases b
  · have hrm : r ∈ todo := by rw [e1, p1]; simp
    have hlt : todo.length ≤ lst.length := by
      refine le_trans (List.length_filterMap_le _ _) ?_
      exact List.length_take_le' _ _
    rcases p3 with ⟨h1, h2, h, h4⟩ | ⟨h1, h, h4⟩ | ⟨h1, h2, h, h4⟩
    · have hrc : rc = -1 := by
        change (chooseVariable m lst left onList cutoff obj s0).2 = -1
        rw [choose_other hl ht (by rw [h]; norm_num), h]
        norm_num
      rw [hrc]
      refine ⟨by simp [hl], fun _ => ⟨r, hrm, h1, h2⟩, by norm_num, ?_, by norm_num, by norm_num⟩
      constructor
      · norm_num
      · rintro ⟨hl1, q, hq, hone⟩
        exfalso
        have : todo = [r] := by
          have hlen1 : todo.length = 1 := by
            have := List.length_pos_of_mem hrm; omega
          obtain ⟨a, ha⟩ := List.length_eq_one_iff.mp hlen1
          rw [ha] at hrm; simp only [List.mem_singleton] at hrm; rw [ha, hrm]
        rw [this] at hq
        simp only [List.mem_singleton] at hq
        subst hq
        rcases hone with ⟨a, b⟩ | ⟨a, b⟩
        · rw [h2] at b; cases b
        · rw [h1] at a; cases a
    · -- one infeasible side
      have htake : todo.take (doStrong todo).2.1 = pre ++ [r] := by
        rw [p2, e1, p1, List.take_append]; simp
      have hf1 : fixedSides (pre ++ [r]) = 1 := by
        have : fixedSides (pre ++ [r]) = fixedSides pre + fixedSides [r] := by
          simp [fixedSides]
        rw [this, hopen0 pre e2]
        rcases h1 with ⟨a, b⟩ | ⟨a, b⟩ <;> simp [fixedSides, a, b]
      have hrc : ∃ v : ℤ, (v = 3 ∨ v = 2) ∧ rc = if (1 : ℤ) = lst.length then 4 else v := by
        obtain ⟨s, hs, c, hc, hh⟩ := choose_strong (m := m) (onList := onList) (cutoff := cutoff)
          (obj := obj) (s0 := s0) (left := left) hl ht (by rw [h]; norm_num)
        have hidx := hs _ _ h4
        rw [if_pos (by rw [h]; norm_num), if_pos (by rw [hidx]; positivity)] at hc
        rw [htake, hf1, hc] at hh
        refine ⟨(processAll m ((pre ++ [r]).map (SBOut.toCand cutoff obj)) s 3).2, ?_, ?_⟩
        rotate_left
        · change (chooseVariable m lst left onList cutoff obj s0).2 = _
          rw [hh]
          simp only [ne_eq, one_ne_zero, not_false_eq_true, and_true]
        · exact (processAll_rc m ((pre ++ [r]).map (SBOut.toCand cutoff obj)) _ 3).2 (by norm_num)
      obtain ⟨v, hv, hrc⟩ := hrc
      by_cases h1l : (1 : ℤ) = lst.length
      · rw [if_pos h1l] at hrc
        rw [hrc]
        refine ⟨by simp [hl], by norm_num, by norm_num, ?_, by norm_num, by norm_num⟩
        constructor
        · intro _; exact ⟨by omega, r, hrm, h1⟩
        · intro _; rfl
      · rw [if_neg h1l] at hrc
        rw [hrc]
        refine ⟨?_, ?_, fun _ => ⟨r, hrm, h1⟩, ?_, ?_, ?_⟩
        · rcases hv with rfl | rfl <;> simp [hl]
        · rcases hv with rfl | rfl <;> norm_num
        · constructor
          · rcases hv with rfl | rfl <;> norm_num
          · rintro ⟨h, _⟩; omega
        · rcases hv with rfl | rfl <;> norm_num
        · rcases hv with rfl | rfl <;> norm_num
    · have hrc : rc = 0 := by
        change (chooseVariable m lst left onList cutoff obj s0).2 = 0
        rw [choose_other hl ht (by rw [h]; norm_num), h]
        norm_num
      rw [hrc]
      refine ⟨by simp [hl], by norm_num, by norm_num, ?_, fun _ => Or.inr ⟨r, hrm, h2⟩, by norm_num⟩
      constructor
      · norm_num
      · rintro ⟨hl1, q, hq, hone⟩
        exfalso
        have : todo = [r] := by
          have hlen1 : todo.length = 1 := by
            have := List.length_pos_of_mem hrm; omega
          obtain ⟨a, ha⟩ := List.length_eq_one_iff.mp hlen1
          rw [ha] at hrm; simp only [List.mem_singleton] at hrm; rw [ha, hrm]
        rw [this] at hq
        simp only [List.mem_singleton] at hq
        subst hq
        rcases hone with ⟨a, b⟩ | ⟨a, b⟩
        · rw [h1.1] at a; cases a
        · rw [h1.2] at b; cases b

/-- All the codes occur. -/
example : (chooseVariable 2 chLst 3 3 100 0 {}).2 = 0 ∧ (chooseVariable 2 [] 3 3 100 0 {}).2 = 1 ∧
    (chooseVariable 2 [.todo ⟨⟨4, 4, 1, 1, -1, true⟩, true, true, false, false⟩] 1 1 100 0 {}).2 = -1 ∧
    (chooseVariable 2 [.todo ⟨⟨4, 4, 1, 1, -1, true⟩, true, false, false, false⟩] 1 1 100 0 {}).2 = 4 ∧
    (chooseVariable 2 [.trusted ⟨1, 1, 9, 9, -1, true⟩,
      .todo ⟨⟨4, 4, 1, 1, -1, true⟩, true, false, false, false⟩] 2 2 100 0 {}).2 = 2 ∧
    (chooseVariable 2 [.trusted ⟨1, 1, 9, 9, -1, true⟩, .trusted ⟨2, 2, 9, 9, -1, true⟩,
      .todo ⟨⟨4, 4, 1, 1, -1, true⟩, true, false, false, false⟩] 3 3 100 0 {}).2 = 3 := by
  decide +kernel

/-- The direction written when a candidate is infeasible on one side is the *infeasible* one whenever the
down branch is tried first, and the feasible one whenever the up branch is: here the down branch, tried
first, is infeasible and the direction returned is down. -/
theorem infeasible_direction_chosen : ∃ (lst : List LItem) (r : SBOut),
    todoOf lst = [r] ∧ r.firstUp = false ∧ r.downInf = true ∧ r.upInf = false ∧
    (chooseVariable 2 lst 2 2 10 0 {}).1.idx = r.cand.obj ∧
    (chooseVariable 2 lst 2 2 10 0 {}).1.way = 0 :=
  ⟨[.trusted ⟨1, 1, 9, 9, -1, true⟩, .todo ⟨⟨4, 4, 1, 1, -1, true⟩, false, true, false, false⟩], _, rfl,
    rfl, rfl, rfl, by decide +kernel, by decide +kernel⟩

end VPC
