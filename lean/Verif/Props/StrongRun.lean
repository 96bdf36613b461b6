import Verif.Model.StrongRun
import Mathlib.Tactic.NormNum
import Mathlib.Tactic.Ring
import Mathlib.Tactic.Linarith
import Mathlib.Algebra.BigOperators.Group.List.Basic

/-!
# C135: strong branching leaves the problem as it was, and fixing loses no solution
-/
namespace VPC

/-! ## Specification -/

/-- All bounds set by the branches of a list of candidates are bounds of columns of the problem. -/
def WritesIn (n : ℕ) (cs : List STry) : Prop :=
  ∀ c ∈ cs, ∀ w ∈ c.first.writes ++ c.second.writes, w.col < n

/-- Iterations of a list of candidates. -/
def itersOf (cs : List STry) : ℤ := (cs.map fun c => c.first.iters + c.second.iters).sum

/-- Values of the solutions found, in the order found. -/
def solutionsOf (cs : List STry) : List ℚ :=
  (cs.flatMap fun c => [c.first, c.second]).filterMap fun t => if t.status = 3 then some t.good else none

/-- The outcome of a candidate as Model/Choose.lean sees it. -/
def STry.out (c : STry) (cand : Cand) : SBOut :=
  { cand := { cand with obj := c.obj }
    upInf := c.first.status = 1
    downInf := c.second.status = 1
    firstUp := true
    timeUp := c.timeUp }

/-- The box `b` contains `x`. -/
def BoxHas (b : (ℕ → ℚ) × (ℕ → ℚ)) (x : ℕ → ℚ) : Prop := ∀ j, b.1 j ≤ x j ∧ x j ≤ b.2 j

/-! ## Restoring the bounds -/

/-- Restoring changes nothing but bounds. -/
def sameRest (s t : SRun) : Prop := t = { s with lo := t.lo, hi := t.hi }

theorem SRun.write_rest (s : SRun) (w : BndWrite) : sameRest s (s.write w) := by
  unfold SRun.write sameRest; split <;> rfl

theorem sameRest.trans {a b c : SRun} (h : sameRest a b) (h' : sameRest b c) : sameRest a c := by
  unfold sameRest at *; rw [h'] ; rw [h]

theorem sameRest.refl (a : SRun) : sameRest a a := rfl

theorem writes_rest (ws : List BndWrite) (s : SRun) : sameRest s (ws.foldl SRun.write s) := by
  induction ws generalizing s with
  | nil => exact .refl s
  | cons w ws ih => exact (SRun.write_rest s w).trans (ih _)

theorem restoreCol_rest (e : SEnv) (s : SRun) (j : ℕ) : sameRest s (restoreCol e s j) := by
  have h : ∀ (c : Prop) [Decidable c] (u : SRun) (w : BndWrite), sameRest u (if c then u.write w else u) := by
    intro c _ u w; split
    · exact SRun.write_rest u w
    · exact .refl u
  unfold restoreCol; dsimp only
  exact (h _ s _).trans (h _ _ _)

theorem restoreAll_rest (e : SEnv) (s : SRun) : sameRest s (restoreAll e s) := by
  unfold restoreAll
  generalize List.range e.ncols = l
  induction l generalizing s with
  | nil => exact .refl s
  | cons w ws ih => exact (restoreCol_rest e s w).trans (ih _)

theorem restoreCol_live (e : SEnv) (h : e.live = true) (s : SRun) (j k : ℕ) :
    (restoreCol e s j).lo k = (if k = j then e.saveLo k else s.lo k) ∧
    (restoreCol e s j).hi k = (if k = j then e.saveHi k else s.hi k) := by
  unfold restoreCol SRun.write; dsimp only
  simp only [h, if_true]
  by_cases h1 : e.saveLo j = s.lo j <;> by_cases h2 : e.saveHi j = s.hi j <;>
    by_cases hk : k = j <;> simp_all [Function.update]

theorem restoreList_live (e : SEnv) (h : e.live = true) (l : List ℕ) (s : SRun) (k : ℕ) :
    (l.foldl (restoreCol e) s).lo k = (if k ∈ l then e.saveLo k else s.lo k) ∧
    (l.foldl (restoreCol e) s).hi k = (if k ∈ l then e.saveHi k else s.hi k) := by
  induction l generalizing s with
  | nil => simp
  | cons a l ih =>
    have := restoreCol_live e h s a k
    have i := ih (restoreCol e s a)
    simp only [List.foldl_cons, List.mem_cons]
    rw [i.1, i.2, this.1, this.2]
    by_cases h1 : k ∈ l <;> by_cases h2 : k = a <;> simp [h1, h2]

/-- Restoring with the solver's own arrays: every column of the problem has its saved bounds, whatever was set
before; other columns are not touched. -/
theorem restoreAll_live (e : SEnv) (h : e.live = true) (s : SRun) (k : ℕ) :
    (restoreAll e s).lo k = (if k < e.ncols then e.saveLo k else s.lo k) ∧
    (restoreAll e s).hi k = (if k < e.ncols then e.saveHi k else s.hi k) := by
  unfold restoreAll
  have := restoreList_live e h (List.range e.ncols) s k
  simpa [List.mem_range] using this

/-- Restoring with copies made before the branch: nothing is restored. -/
theorem restoreAll_copies (e : SEnv) (h : e.live = false) (s : SRun) : restoreAll e s = s := by
  unfold restoreAll
  generalize List.range e.ncols = l
  induction l generalizing s with
  | nil => rfl
  | cons a l ih =>
    rw [List.foldl_cons]
    have : restoreCol e s a = s := by unfold restoreCol; simp [h]
    rw [this]; exact ih s

theorem writes_outside (ws : List BndWrite) (n : ℕ) (h : ∀ w ∈ ws, w.col < n) (s : SRun) (k : ℕ) (hk : n ≤ k) :
    (ws.foldl SRun.write s).lo k = s.lo k ∧ (ws.foldl SRun.write s).hi k = s.hi k := by
  induction ws generalizing s with
  | nil => simp
  | cons w ws ih =>
    rw [List.foldl_cons]
    have i := ih (fun v hv => h v (List.mem_cons_of_mem _ hv)) (s.write w)
    rw [i.1, i.2]
    have : w.col < n := h w List.mem_cons_self
    have hne : k ≠ w.col := by omega
    unfold SRun.write; split <;> simp [Function.update, hne]

/-- One side, arrays of the solver: only iterations and cutoff change. -/
theorem trySide_live (e : SEnv) (h : e.live = true) (s : SRun) (b : Bool) (t : SideTry)
    (hw : ∀ w ∈ t.writes, w.col < e.ncols) (hlo : s.lo = e.saveLo) (hhi : s.hi = e.saveHi) :
    trySide e s b t =
      ({ s with
          iters := s.iters + t.iters
          cutoff := if t.status = 3 ∧ e.trust = true then t.good else s.cutoff },
       if t.status = 3 ∧ e.trust = true then 0 else t.status) := by
  have key : ∀ u : SRun, (∀ k, e.ncols ≤ k → u.lo k = e.saveLo k ∧ u.hi k = e.saveHi k) →
      restoreAll e u = { u with lo := s.lo, hi := s.hi } := by
    intro u hu
    have hr := restoreAll_rest e u
    unfold sameRest at hr
    have h1 : (restoreAll e u).lo = s.lo := by
      funext k; rw [(restoreAll_live e h u k).1, hlo]
      split
      · rfl
      · exact (hu k (by omega)).1
    have h2 : (restoreAll e u).hi = s.hi := by
      funext k; rw [(restoreAll_live e h u k).2, hhi]
      split
      · rfl
      · exact (hu k (by omega)).2
    rw [hr, h1, h2]
  cases b with
  | false =>
    unfold trySide takeStatus branchSide
    by_cases c : t.status = 3 ∧ e.trust = true
    · simp only [c, and_self, if_true, Bool.false_eq_true, if_false]
      rw [key]
      · simp
      · intro k _; exact ⟨by simp [hlo], by simp [hhi]⟩
    · simp only [c, if_false, Bool.false_eq_true]
      rw [key]
      · simp
      · intro k _; exact ⟨by simp [hlo], by simp [hhi]⟩
  | true =>
    have hr := writes_rest t.writes s
    have ho := fun k hk => writes_outside t.writes e.ncols hw s k hk
    unfold trySide takeStatus branchSide
    simp only [if_true]
    generalize t.writes.foldl SRun.write s = u at hr ho
    unfold sameRest at hr
    by_cases c : t.status = 3 ∧ e.trust = true
    · simp only [c, and_self, if_true]
      rw [key]
      · rw [hr]
      · intro k hk; have := ho k hk; exact ⟨by simp [this.1, hlo], by simp [this.2, hhi]⟩
    · simp only [c, if_false]
      rw [key]
      · rw [hr]
      · intro k hk; have := ho k hk; exact ⟨by simp [this.1, hlo], by simp [this.2, hhi]⟩

/-- One candidate, arrays of the solver. -/
theorem tryCand_live (e : SEnv) (h : e.live = true) (s : SRun) (c : STry)
    (hw : ∀ w ∈ c.first.writes ++ c.second.writes, w.col < e.ncols)
    (hlo : s.lo = e.saveLo) (hhi : s.hi = e.saveHi) :
    tryCand e s c =
      ({ s with
          iters := s.iters + (c.first.iters + c.second.iters)
          done := s.done + 1
          results := s.results + 1
          cutoff := if c.second.status = 3 ∧ e.trust = true then c.second.good
            else if c.first.status = 3 ∧ e.trust = true then c.first.good else s.cutoff },
       if c.first.status = 3 ∧ e.trust = true then 0 else c.first.status,
       if c.second.status = 3 ∧ e.trust = true then 0 else c.second.status) := by
  unfold tryCand
  dsimp only
  rw [trySide_live e h s c.bound c.first (fun w m => hw w (List.mem_append_left _ m)) hlo hhi]
  dsimp only
  rw [trySide_live e h _ c.bound c.second (fun w m => hw w (List.mem_append_right _ m)) (by exact hlo) (by exact hhi)]
  simp only [add_assoc]

theorem eff_one (st : ℤ) (t : Bool) : (if st = 3 ∧ t = true then (0 : ℤ) else st) = 1 ↔ st = 1 := by
  split
  · rename_i h; omega
  · rfl

/-- Number of candidates with exactly one infeasible side. -/
def oneSided (cs : List STry) : ℤ :=
  (cs.countP fun c => (c.first.status = 1 ∧ c.second.status ≠ 1) ∨ (c.first.status ≠ 1 ∧ c.second.status = 1) : ℕ)

/-- The cutoff after a list of solutions. -/
def cutoffAfter (trust : Bool) (c : ℚ) (sols : List ℚ) : ℚ :=
  if trust then sols.getLast?.getD c else c

theorem cutoffAfter_cons (trust : Bool) (c0 : ℚ) (c : STry) (cs : List STry) :
    cutoffAfter trust c0 (solutionsOf (c :: cs)) =
      cutoffAfter trust (if c.second.status = 3 ∧ trust = true then c.second.good
        else if c.first.status = 3 ∧ trust = true then c.first.good else c0) (solutionsOf cs) := by
  have : solutionsOf (c :: cs) =
      (if c.first.status = 3 then [c.first.good] else []) ++
        ((if c.second.status = 3 then [c.second.good] else []) ++ solutionsOf cs) := by
    unfold solutionsOf
    by_cases h1 : c.first.status = 3 <;> by_cases h2 : c.second.status = 3 <;> simp [h1, h2]
  rw [this]
  unfold cutoffAfter
  cases trust with
  | false => simp
  | true =>
    simp only [if_true, and_true, List.getLast?_append]
    by_cases h1 : c.first.status = 3 <;> by_cases h2 : c.second.status = 3 <;>
      cases hs : (solutionsOf cs).getLast? <;> simp [h1, h2]

theorem itersOf_cons (c : STry) (cs : List STry) : itersOf (c :: cs) = c.first.iters + c.second.iters + itersOf cs := by
  simp [itersOf]

/-- The state after the candidates `l`: only the counters and the cutoff have changed. -/
def SRun.after (trust : Bool) (s : SRun) (l : List STry) : SRun :=
  { s with
      iters := s.iters + itersOf l
      done := s.done + l.length
      results := s.results + l.length
      fixed := s.fixed + oneSided l
      cutoff := cutoffAfter trust s.cutoff (solutionsOf l) }

theorem oneSided_cons (c : STry) (l : List STry) : oneSided (c :: l) =
    (if (c.first.status = 1 ∧ c.second.status ≠ 1) ∨ (c.first.status ≠ 1 ∧ c.second.status = 1) then 1 else 0)
      + oneSided l := by
  unfold oneSided; rw [List.countP_cons]
  by_cases hh : (c.first.status = 1 ∧ c.second.status ≠ 1) ∨ (c.first.status ≠ 1 ∧ c.second.status = 1)
  · simp [hh]; ring
  · simp [hh]

theorem SRun.after_nil (trust : Bool) (s : SRun) : s.after trust [] = s := by
  simp [SRun.after, itersOf, oneSided, solutionsOf, cutoffAfter]

theorem SRun.after_cons (trust : Bool) (s : SRun) (c : STry) (l : List STry) :
    (s.after trust [c]).after trust l = s.after trust (c :: l) := by
  have e0 : oneSided ([] : List STry) = 0 := rfl
  have e1 : itersOf [] = 0 := rfl
  have e2 : ∀ x, cutoffAfter trust x (solutionsOf []) = x := by
    intro x; simp [solutionsOf, cutoffAfter]
  unfold SRun.after
  simp only [itersOf_cons, oneSided_cons, cutoffAfter_cons, e0, e1, e2, List.length_cons, List.length_nil]
  congr 1 <;> push_cast <;> ring

theorem tryCand_after (e : SEnv) (h : e.live = true) (s : SRun) (c : STry)
    (hw : ∀ w ∈ c.first.writes ++ c.second.writes, w.col < e.ncols)
    (hlo : s.lo = e.saveLo) (hhi : s.hi = e.saveHi) :
    (tryCand e s c).1 = { s.after e.trust [c] with fixed := s.fixed } ∧
    ((tryCand e s c).2.1 = 1 ↔ c.first.status = 1) ∧ ((tryCand e s c).2.2 = 1 ↔ c.second.status = 1) := by
  rw [tryCand_live e h s c hw hlo hhi]
  refine ⟨?_, eff_one _ _, eff_one _ _⟩
  have e1 : itersOf [] = 0 := rfl
  have e2 : ∀ x, cutoffAfter e.trust x (solutionsOf []) = x := by
    intro x; simp [solutionsOf, cutoffAfter]
  unfold SRun.after
  simp [itersOf_cons, cutoffAfter_cons, e1, e2]

/-- The loop, arrays of the solver, for any return criterion: after some number `k` of candidates, only the
counters, the cutoff and the choice have changed, as the first `k` candidates say. -/
theorem strongLoop_live (e : SEnv) (h : e.live = true) (crit : Bool) (cs : List STry) (hw : WritesIn e.ncols cs) :
    ∀ (s : SRun) (rc : ℤ), s.lo = e.saveLo → s.hi = e.saveHi → ∃ k ≤ cs.length, (cs ≠ [] → 0 < k) ∧ ∃ b,
      (strongLoop e crit cs s rc).1 = { s.after e.trust (cs.take k) with best := b } := by
  induction cs with
  | nil =>
    intro s rc _ _
    exact ⟨0, le_refl _, by simp, s.best, by simp [strongLoop, SRun.after_nil]⟩
  | cons c cs ih =>
    intro s rc hlo hhi
    obtain ⟨h0, h1, h2⟩ := tryCand_after e h s c (hw c List.mem_cons_self) hlo hhi
    have ih := ih (fun d hd => hw d (List.mem_cons_of_mem _ hd))
    have st0 : ¬ (c.first.status = 1 ↔ ¬ c.second.status = 1) → (tryCand e s c).1 = s.after e.trust [c] := by
      intro hn
      have : oneSided [c] = 0 := by
        rw [oneSided_cons, if_neg (by tauto)]; rfl
      rw [h0]; unfold SRun.after; rw [this]; simp
    have st1 : (c.first.status = 1 ↔ ¬ c.second.status = 1) →
        (tryCand e s c).1 = { s.after e.trust [c] with fixed := (s.after e.trust [c]).fixed - 1 } := by
      intro hn
      have : oneSided [c] = 1 := by
        rw [oneSided_cons, if_pos (by tauto)]; rfl
      rw [h0]; unfold SRun.after; rw [this]; simp
    have rec1 : ∀ (rc : ℤ), ∃ k ≤ (c :: cs).length, (c :: cs ≠ [] → 0 < k) ∧ ∃ b,
        (strongLoop e crit cs (s.after e.trust [c]) rc).1 = { s.after e.trust ((c :: cs).take k) with best := b } := by
      intro rc
      obtain ⟨k, hk, _, b, hb⟩ := ih (s.after e.trust [c]) rc hlo hhi
      refine ⟨k + 1, by simpa using hk, by simp, b, ?_⟩
      rw [hb, List.take_succ_cons, SRun.after_cons]
    have one : ∀ b, ∃ k ≤ (c :: cs).length, (c :: cs ≠ [] → 0 < k) ∧ ∃ b',
        ({ s.after e.trust [c] with best := b } : SRun) = { s.after e.trust ((c :: cs).take k) with best := b' } :=
      fun b => ⟨1, by simp, by simp, b, by simp⟩
    unfold strongLoop
    simp only [h1, h2]
    by_cases b1 : c.first.status = 1 <;> by_cases b2 : c.second.status = 1 <;>
      simp only [b1, b2, and_self, and_true, and_false, or_self, or_true, or_false, if_true, if_false]
    · simp only [st0 (by tauto)]; exact one _
    · simp only [st1 (by tauto), sub_add_cancel]
      cases crit with
      | true => simp only [if_true]; exact one _
      | false =>
        simp only [Bool.false_eq_true, if_false]
        cases ht : c.timeUp with
        | true => exact one (s.after e.trust [c]).best
        | false => exact rec1 1
    · simp only [st1 (by tauto), sub_add_cancel]
      cases crit with
      | true => simp only [if_true]; exact one _
      | false =>
        simp only [Bool.false_eq_true, if_false]
        cases ht : c.timeUp with
        | true => exact one (s.after e.trust [c]).best
        | false => exact rec1 1
    · simp only [st0 (by tauto)]
      cases ht : c.timeUp with
      | true => exact one (s.after e.trust [c]).best
      | false => exact rec1 rc

/-- The loop with `returnCriterion = 1`: code, number of candidates tried and choice are those of `doStrong`. -/
theorem strongLoop_doStrong (e : SEnv) (h : e.live = true) (cand : Cand) (cs : List STry)
    (hw : WritesIn e.ncols cs) : ∀ s : SRun, s.lo = e.saveLo → s.hi = e.saveHi →
      strongLoop e true cs s 0 =
        ({ s.after e.trust (cs.take (doStrong (cs.map (STry.out · cand))).2.1) with
            best := (doStrong (cs.map (STry.out · cand))).2.2.or s.best },
         (doStrong (cs.map (STry.out · cand))).1) := by
  induction cs with
  | nil => intro s _ _; simp [strongLoop, doStrong, SRun.after_nil]
  | cons c cs ih =>
    intro s hlo hhi
    obtain ⟨h0, h1, h2⟩ := tryCand_after e h s c (hw c List.mem_cons_self) hlo hhi
    have ih := ih (fun d hd => hw d (List.mem_cons_of_mem _ hd)) (s.after e.trust [c]) hlo hhi
    have st0 : ¬ (c.first.status = 1 ↔ ¬ c.second.status = 1) → (tryCand e s c).1 = s.after e.trust [c] := by
      intro hn
      have : oneSided [c] = 0 := by
        rw [oneSided_cons, if_neg (by tauto)]; rfl
      rw [h0]; unfold SRun.after; rw [this]; simp
    have st1 : (c.first.status = 1 ↔ ¬ c.second.status = 1) →
        (tryCand e s c).1 = { s.after e.trust [c] with fixed := (s.after e.trust [c]).fixed - 1 } := by
      intro hn
      have : oneSided [c] = 1 := by
        rw [oneSided_cons, if_pos (by tauto)]; rfl
      rw [h0]; unfold SRun.after; rw [this]; simp
    unfold strongLoop
    simp only [h1, h2, List.map_cons]
    unfold doStrong
    by_cases b1 : c.first.status = 1 <;> by_cases b2 : c.second.status = 1 <;>
      simp only [STry.out, b1, b2, and_self, and_true, and_false, or_self, or_true, or_false, if_true, if_false,
        decide_true, decide_false, Bool.and_self, Bool.or_self, Bool.and_false, Bool.false_and, Bool.or_true,
        Bool.true_or, Bool.false_eq_true, Bool.or_false, Bool.and_true]
    · simp only [st0 (by tauto)]; simp
    · simp only [st1 (by tauto), sub_add_cancel]; simp
    · simp only [st1 (by tauto), sub_add_cancel]; simp
    · simp only [st0 (by tauto)]
      cases ht : c.timeUp with
      | true => simp [SRun.after]
      | false =>
        simp only [Bool.false_eq_true, if_false]
        rw [ih, List.take_succ_cons, SRun.after_cons]
        rfl

/-! ## The property -/

/-- Strong branching leaves the problem as it was: for every list of candidates, every outcome of their sides,
every return criterion and wherever the loop stops, the solver has the bounds it had before, the hot start
snapshot is deleted, clones and saved arrays are freed. (The arrays of `info` are the solver's.) -/
theorem strong_leaves_problem (trust crit : Bool) (n : ℕ) (cs : List STry) (s : SRun) (hw : WritesIn n cs) :
    let r := (doStrongBranching trust true n crit cs s).1
    r.lo = s.lo ∧ r.hi = s.hi ∧ r.marks = s.marks ∧ r.clones = s.clones ∧ r.arrays = s.arrays := by
  dsimp only
  unfold doStrongBranching; dsimp only
  obtain ⟨k, _, _, b, hb⟩ := strongLoop_live ⟨trust, n, true, s.lo, s.hi⟩ rfl crit cs hw
    { s with marks := s.marks + 1, arrays := s.arrays + 2, results := 0 } 0 rfl rfl
  rw [hb]
  simp [SRun.after]

/-- The counters: some first candidates are tried, at least one if there is one; each counts once, their
iterations are added, a candidate with exactly one infeasible side counts as fixed; the cutoff changes only to
the value of the last trusted solution. -/
theorem strong_counts (trust crit : Bool) (n : ℕ) (cs : List STry) (s : SRun) (hw : WritesIn n cs) :
    ∃ k ≤ cs.length, (cs ≠ [] → 0 < k) ∧
      let r := (doStrongBranching trust true n crit cs s).1
      r.results = k ∧ r.done = s.done + k ∧ r.iters = s.iters + itersOf (cs.take k) ∧
      r.fixed = s.fixed + oneSided (cs.take k) ∧
      r.cutoff = (if trust then (solutionsOf (cs.take k)).getLast?.getD s.cutoff else s.cutoff) := by
  unfold doStrongBranching; dsimp only
  obtain ⟨k, hk, hp, b, hb⟩ := strongLoop_live ⟨trust, n, true, s.lo, s.hi⟩ rfl crit cs hw
    { s with marks := s.marks + 1, arrays := s.arrays + 2, results := 0 } 0 rfl rfl
  refine ⟨k, hk, hp, ?_⟩
  rw [hb]
  have : (cs.take k).length = k := by simp [hk]
  simp [SRun.after, this, cutoffAfter]

/-- With `returnCriterion = 1`: code, number of results and choice are those of the model used for
`chooseVariable` (C26 ff.), so what is proved there holds here. -/
theorem strong_refines (trust : Bool) (n : ℕ) (cs : List STry) (s : SRun) (cand : Cand) (hw : WritesIn n cs) :
    let r := doStrongBranching trust true n true cs s
    let d := doStrong (cs.map (STry.out · cand))
    r.2 = d.1 ∧ r.1.results = d.2.1 ∧ r.1.best = d.2.2.or s.best := by
  dsimp only
  unfold doStrongBranching; dsimp only
  rw [strongLoop_doStrong ⟨trust, n, true, s.lo, s.hi⟩ rfl cand cs hw
    { s with marks := s.marks + 1, arrays := s.arrays + 2, results := 0 } rfl rfl]
  have hl : ∀ l : List SBOut, (doStrong l).2.1 ≤ l.length := by
    intro l
    induction l with
    | nil => simp [doStrong]
    | cons a l ih => unfold doStrong; split <;> [simp; skip]; split <;> [simp; skip]; split <;> simp [ih]
  have := hl (cs.map (STry.out · cand))
  rw [List.length_map] at this
  simp [SRun.after, this]

/-- With `returnCriterion = 0` and enough time: -1 iff some candidate is infeasible both ways, otherwise 1 iff some
candidate is infeasible one way, otherwise 0. -/
theorem strong_all (trust : Bool) (n : ℕ) (cs : List STry) (s : SRun) (hw : WritesIn n cs)
    (ht : ∀ c ∈ cs, c.timeUp = false) :
    (doStrongBranching trust true n false cs s).2 =
      if ∃ c ∈ cs, c.first.status = 1 ∧ c.second.status = 1 then -1
      else if ∃ c ∈ cs, c.first.status = 1 ∨ c.second.status = 1 then 1 else 0 := by
  have key : ∀ (e : SEnv), e.live = true → ∀ (cs : List STry), WritesIn e.ncols cs →
      (∀ c ∈ cs, c.timeUp = false) → ∀ (s : SRun) (rc : ℤ), s.lo = e.saveLo → s.hi = e.saveHi →
      (strongLoop e false cs s rc).2 =
        if ∃ c ∈ cs, c.first.status = 1 ∧ c.second.status = 1 then -1
        else if ∃ c ∈ cs, c.first.status = 1 ∨ c.second.status = 1 then 1 else rc := by
    intro e h cs
    induction cs with
    | nil => intro _ _ s rc _ _; simp [strongLoop]
    | cons c cs ih =>
      intro hw ht s rc hlo hhi
      obtain ⟨h0, h1, h2⟩ := tryCand_after e h s c (hw c List.mem_cons_self) hlo hhi
      have ih := ih (fun d hd => hw d (List.mem_cons_of_mem _ hd)) (fun d hd => ht d (List.mem_cons_of_mem _ hd))
      have hlo' : (tryCand e s c).1.lo = e.saveLo := by rw [h0]; exact hlo
      have hhi' : (tryCand e s c).1.hi = e.saveHi := by rw [h0]; exact hhi
      unfold strongLoop
      simp only [h1, h2, ht c List.mem_cons_self, Bool.false_eq_true, if_false, List.mem_cons,
        exists_eq_or_imp]
      by_cases b1 : c.first.status = 1 <;> by_cases b2 : c.second.status = 1 <;>
        simp only [b1, b2, and_self, and_true, and_false, or_self, or_true, or_false, true_or, false_or, if_true,
          if_false]
      · rw [ih _ 1 (by exact hlo') (by exact hhi')]; simp
      · rw [ih _ 1 (by exact hlo') (by exact hhi')]; simp
      · rw [ih _ rc hlo' hhi']
  unfold doStrongBranching; dsimp only
  exact key _ rfl cs hw ht _ 0 rfl rfl

/-- The time limit: if no candidate before has an infeasible side or runs out of time, and time is up after a
candidate which does not end the loop by itself, the code is 3 and the later candidates are not tried. -/
theorem strong_time (trust crit : Bool) (n : ℕ) (pre post : List STry) (c : STry) (s : SRun)
    (hw : WritesIn n (pre ++ c :: post))
    (hpre : ∀ d ∈ pre, d.first.status ≠ 1 ∧ d.second.status ≠ 1 ∧ d.timeUp = false) (hc : c.timeUp = true)
    (h1 : ¬ (c.first.status = 1 ∧ c.second.status = 1))
    (h2 : crit = true → c.first.status ≠ 1 ∧ c.second.status ≠ 1) :
    (doStrongBranching trust true n crit (pre ++ c :: post) s).2 = 3 ∧
    (doStrongBranching trust true n crit (pre ++ c :: post) s).1.results = pre.length + 1 := by
  have key : ∀ (e : SEnv), e.live = true → ∀ (pre : List STry), WritesIn e.ncols (pre ++ c :: post) →
      (∀ d ∈ pre, d.first.status ≠ 1 ∧ d.second.status ≠ 1 ∧ d.timeUp = false) →
      ∀ (s : SRun) (rc : ℤ), s.lo = e.saveLo → s.hi = e.saveHi →
      (strongLoop e crit (pre ++ c :: post) s rc).2 = 3 ∧
      (strongLoop e crit (pre ++ c :: post) s rc).1.results = s.results + (pre.length + 1) := by
    intro e h pre
    induction pre with
    | nil =>
      intro hw _ s rc hlo hhi
      obtain ⟨g0, g1, g2⟩ := tryCand_after e h s c (hw c (by simp)) hlo hhi
      have hr : (tryCand e s c).1.results = s.results + 1 := by rw [g0]; rfl
      simp only [List.nil_append]
      unfold strongLoop
      simp only [g1, g2, h1, if_false, hc, if_true]
      cases crit with
      | true =>
        have := h2 rfl
        simp [this.1, this.2, hr]
      | false =>
        simp only [Bool.false_eq_true, if_false]
        split <;> simp [hr]
    | cons d pre ih =>
      intro hw hp s rc hlo hhi
      obtain ⟨g0, g1, g2⟩ := tryCand_after e h s d (hw d (by simp)) hlo hhi
      have hd := hp d List.mem_cons_self
      have hlo' : (tryCand e s d).1.lo = e.saveLo := by rw [g0]; exact hlo
      have hhi' : (tryCand e s d).1.hi = e.saveHi := by rw [g0]; exact hhi
      have hr : (tryCand e s d).1.results = s.results + 1 := by rw [g0]; rfl
      have i := ih (fun x hx => hw x (List.mem_cons_of_mem _ hx)) (fun x hx => hp x (List.mem_cons_of_mem _ hx))
        (tryCand e s d).1 rc hlo' hhi'
      simp only [List.cons_append]
      unfold strongLoop
      simp only [g1, g2, hd.1, hd.2.1, hd.2.2, and_self, or_self, if_false, Bool.false_eq_true]
      refine ⟨i.1, ?_⟩
      rw [i.2, hr, List.length_cons]; omega
  unfold doStrongBranching; dsimp only
  have := key ⟨trust, n, true, s.lo, s.hi⟩ rfl pre hw hpre
    { s with marks := s.marks + 1, arrays := s.arrays + 2, results := 0 } 0 rfl rfl
  refine ⟨this.1, ?_⟩
  rw [this.2]; simp

/-- If the arrays of `info` are copies, nothing is restored: one candidate whose first side sets bounds on the
solver leaves them there, also while the second side is tried. -/
theorem strong_copies (trust crit : Bool) (n : ℕ) (c : STry) (s : SRun) (hb : c.bound = true) :
    let r := (doStrongBranching trust false n crit [c] s).1
    let w := (c.first.writes ++ c.second.writes).foldl SRun.write s
    r.lo = w.lo ∧ r.hi = w.hi := by
  have cong : ∀ (ws : List BndWrite) (a b : SRun), a.lo = b.lo → a.hi = b.hi →
      (ws.foldl SRun.write a).lo = (ws.foldl SRun.write b).lo ∧
      (ws.foldl SRun.write a).hi = (ws.foldl SRun.write b).hi := by
    intro ws
    induction ws with
    | nil => intro a b h1 h2; exact ⟨h1, h2⟩
    | cons w ws ih =>
      intro a b h1 h2
      rw [List.foldl_cons, List.foldl_cons]
      apply ih <;> unfold SRun.write <;> split <;> simp [h1, h2]
  have side : ∀ (e : SEnv) (a : SRun) (t : SideTry), e.live = false →
      (trySide e a true t).1.lo = (t.writes.foldl SRun.write a).lo ∧
      (trySide e a true t).1.hi = (t.writes.foldl SRun.write a).hi := by
    intro e a t he
    unfold trySide takeStatus branchSide
    simp only [if_true, restoreAll_copies e he]
    split <;> exact ⟨rfl, rfl⟩
  dsimp only
  unfold doStrongBranching; dsimp only
  have fin : ∀ (e : SEnv) (a : SRun), e.live = false → a.lo = s.lo → a.hi = s.hi →
      (strongLoop e crit [c] a 0).1.lo = ((c.first.writes ++ c.second.writes).foldl SRun.write s).lo ∧
      (strongLoop e crit [c] a 0).1.hi = ((c.first.writes ++ c.second.writes).foldl SRun.write s).hi := by
    intro e a he h1 h2
    have ht : (tryCand e a c).1.lo = ((c.first.writes ++ c.second.writes).foldl SRun.write s).lo ∧
        (tryCand e a c).1.hi = ((c.first.writes ++ c.second.writes).foldl SRun.write s).hi := by
      unfold tryCand; dsimp only
      rw [hb, List.foldl_append]
      have s2 := side e (trySide e a true c.first).1 c.second he
      have s1 := side e a c.first he
      have c1 := cong c.first.writes a s h1 h2
      have c2 := cong c.second.writes (trySide e a true c.first).1 (c.first.writes.foldl SRun.write s)
        (s1.1.trans c1.1) (s1.2.trans c1.2)
      exact ⟨s2.1.trans c2.1, s2.2.trans c2.2⟩
    unfold strongLoop; dsimp only
    unfold strongLoop
    split_ifs <;> exact ht
  exact fin _ _ rfl rfl rfl

/-- Nothing in the call tells copies from the solver's arrays; with copies the bounds stay changed. -/
theorem strong_copies_fail : ∃ (c : STry) (s : SRun), WritesIn 1 [c] ∧
    (doStrongBranching true false 1 true [c] s).1.hi ≠ s.hi := by
  refine ⟨⟨0, true, ⟨[⟨0, true, 0⟩], 0, 0, 5⟩, ⟨[⟨0, false, 1⟩], 0, 0, 5⟩, false⟩,
    { lo := fun _ => 0, hi := fun _ => 1, cutoff := 100 }, by unfold WritesIn; decide +kernel, ?_⟩
  have := (strong_copies true true 1 ⟨0, true, ⟨[⟨0, true, 0⟩], 0, 0, 5⟩, ⟨[⟨0, false, 1⟩], 0, 0, 5⟩, false⟩
    { lo := fun _ => 0, hi := fun _ => 1, cutoff := 100 } rfl).2
  rw [this]
  intro hc
  have := congrFun hc 0
  revert this
  decide +kernel

/-! ## Fixing -/

theorem fixSide_keeps (sol : ℕ → ℚ) (col : ℕ) (up : Bool) (b : (ℕ → ℚ) × (ℕ → ℚ)) (x : ℕ → ℚ) (hx : BoxHas b x)
    (z : ℤ) (hz : x col = z) (hs : if up then (⌊sol col⌋ : ℚ) < x col else x col < (⌈sol col⌉ : ℚ)) :
    BoxHas (fixSide sol col up b) x := by
  intro j
  have hj := hx j
  have hc := hx col
  unfold fixSide; dsimp only
  cases up with
  | false =>
    simp only [Bool.false_eq_true, if_false] at hs ⊢
    refine ⟨hj.1, ?_⟩
    by_cases e : j = col
    · subst e
      rw [Function.update_self]
      rw [hz] at hs hc ⊢
      have h1 : z < ⌈sol j⌉ := by exact_mod_cast hs
      rw [Int.lt_ceil] at h1
      have : z ≤ ⌊min (max (sol j) (b.1 j)) (b.2 j)⌋ := by
        rw [Int.le_floor]
        exact le_min (le_max_of_le_left h1.le) hc.2
      exact_mod_cast this
    · rw [Function.update_of_ne e]; exact hj.2
  | true =>
    simp only [if_true] at hs ⊢
    refine ⟨?_, hj.2⟩
    by_cases e : j = col
    · subst e
      rw [Function.update_self]
      rw [hz] at hs hc ⊢
      have h1 : ⌊sol j⌋ < z := by exact_mod_cast hs
      rw [Int.floor_lt] at h1
      have : ⌈min (max (sol j) (b.1 j)) (b.2 j)⌉ ≤ z := by
        rw [Int.ceil_le]
        exact (min_le_left _ _).trans (max_le h1.le hc.1)
      exact_mod_cast this
    · rw [Function.update_of_ne e]; exact hj.1

theorem fixResult_keeps (sol : ℕ → ℚ) (r : SideInf) (b : (ℕ → ℚ) × (ℕ → ℚ)) (x : ℕ → ℚ) (hx : BoxHas b x)
    (hz : ∃ z : ℤ, x r.col = z) (hu : r.upInf = true → x r.col < (⌈sol r.col⌉ : ℚ))
    (hd : r.downInf = true → (⌊sol r.col⌋ : ℚ) < x r.col) : BoxHas (fixResult sol b r) x := by
  obtain ⟨z, hz⟩ := hz
  unfold fixResult; dsimp only
  have h1 : BoxHas (if r.upInf = true then fixSide sol r.col false b else b) x := by
    split
    · rename_i h; exact fixSide_keeps sol r.col false b x hx z hz (by simpa using hu h)
    · exact hx
  split
  · rename_i h; exact fixSide_keeps sol r.col true _ x h1 z hz (by simpa using hd h)
  · exact h1

/-- Fixing loses no solution: let `Good` be the points that matter (feasible and better than the cutoff), integer on
the columns branched on. If every side reported infeasible contains none of them, then all of them that satisfy
the bounds before satisfy the bounds after, for any number of results, also for repeated columns. -/
theorem fixing_keeps (fix : Bool) (sol : ℕ → ℚ) (rs : List SideInf) (b : (ℕ → ℚ) × (ℕ → ℚ)) (Good : (ℕ → ℚ) → Prop)
    (hint : ∀ x, Good x → ∀ r ∈ rs, ∃ z : ℤ, x r.col = z)
    (hup : ∀ r ∈ rs, r.upInf = true → ¬ ∃ x, Good x ∧ BoxHas b x ∧ (⌈sol r.col⌉ : ℚ) ≤ x r.col)
    (hdown : ∀ r ∈ rs, r.downInf = true → ¬ ∃ x, Good x ∧ BoxHas b x ∧ x r.col ≤ (⌊sol r.col⌋ : ℚ)) :
    ∀ x, Good x → BoxHas b x → BoxHas (fixResults fix sol rs b) x := by
  intro x gx bx
  unfold fixResults
  split
  · have : ∀ (l : List SideInf), (∀ r ∈ l, r ∈ rs) → ∀ c, BoxHas c x → BoxHas (l.foldl (fixResult sol) c) x := by
      intro l
      induction l with
      | nil => intro _ c hc; exact hc
      | cons r l ih =>
        intro hl c hc
        rw [List.foldl_cons]
        have hr := hl r List.mem_cons_self
        apply ih (fun q hq => hl q (List.mem_cons_of_mem _ hq))
        apply fixResult_keeps sol r c x hc (hint x gx r hr)
        · intro h; by_contra hcon
          exact hup r hr h ⟨x, gx, bx, not_lt.mp hcon⟩
        · intro h; by_contra hcon
          exact hdown r hr h ⟨x, gx, bx, not_lt.mp hcon⟩
    exact this rs (fun _ h => h) b bx
  · exact bx

/-- Fixing does something: after a side is found infeasible, no point of the new box is on that side (the value
being within the bounds and fractional). -/
theorem fixing_excludes (sol : ℕ → ℚ) (col : ℕ) (b : (ℕ → ℚ) × (ℕ → ℚ))
    (hb : b.1 col ≤ sol col ∧ sol col ≤ b.2 col) (hf : (⌊sol col⌋ : ℚ) < sol col) (x : ℕ → ℚ) :
    (BoxHas (fixResults true sol [⟨col, true, false⟩] b) x → x col < (⌈sol col⌉ : ℚ)) ∧
    (BoxHas (fixResults true sol [⟨col, false, true⟩] b) x → (⌊sol col⌋ : ℚ) < x col) := by
  have hv : min (max (sol col) (b.1 col)) (b.2 col) = sol col := by
    rw [max_eq_left hb.1, min_eq_left hb.2]
  constructor
  · intro h
    have := (h col).2
    simp only [fixResults, if_true, List.foldl_cons, List.foldl_nil, fixResult, fixSide, Bool.false_eq_true, if_false,
      Function.update_self, hv] at this
    have h2 : sol col ≤ (⌈sol col⌉ : ℚ) := Int.le_ceil _
    linarith
  · intro h
    have := (h col).1
    simp only [fixResults, if_true, List.foldl_cons, List.foldl_nil, fixResult, fixSide, Bool.false_eq_true, if_false,
      Function.update_self, hv] at this
    have h2 : sol col ≤ (⌈sol col⌉ : ℚ) := Int.le_ceil _
    linarith

/-- Only columns of the results are touched, each of them only in the direction a side was found infeasible, and
nothing without `fixVariables`. -/
theorem fixing_only (fix : Bool) (sol : ℕ → ℚ) (rs : List SideInf) (b : (ℕ → ℚ) × (ℕ → ℚ)) (j : ℕ) :
    ((fix = false ∨ ∀ r ∈ rs, r.col = j → r.downInf = false) → (fixResults fix sol rs b).1 j = b.1 j) ∧
    ((fix = false ∨ ∀ r ∈ rs, r.col = j → r.upInf = false) → (fixResults fix sol rs b).2 j = b.2 j) := by
  cases fix with
  | false => simp [fixResults]
  | true =>
    simp only [fixResults, if_true, Bool.true_eq_false, false_or]
    induction rs generalizing b with
    | nil => simp
    | cons r rs ih =>
      have i := ih (fixResult sol b r)
      rw [List.foldl_cons]
      constructor
      · intro h
        rw [i.1 (fun q hq => h q (List.mem_cons_of_mem _ hq))]
        have hr := h r List.mem_cons_self
        unfold fixResult fixSide
        by_cases e : j = r.col
        · have := hr e.symm
          simp [this]; split <;> rfl
        · cases r.upInf <;> cases r.downInf <;> simp [Function.update, e]
      · intro h
        rw [i.2 (fun q hq => h q (List.mem_cons_of_mem _ hq))]
        have hr := h r List.mem_cons_self
        unfold fixResult fixSide
        by_cases e : j = r.col
        · have := hr e.symm
          simp [this]; split <;> rfl
        · cases r.upInf <;> cases r.downInf <;> simp [Function.update, e]

/-! ## Concrete cases -/

/-- Two candidates on three columns; the first side of the second is infeasible, the second side of the first finds
a solution of value 7. -/
def sbDemo : List STry :=
  [⟨0, true, ⟨[⟨0, true, 0⟩], 0, 0, 3⟩, ⟨[⟨0, false, 1⟩], 3, 7, 4⟩, false⟩,
   ⟨2, true, ⟨[⟨2, true, 4⟩, ⟨1, true, 1⟩], 1, 0, 5⟩, ⟨[⟨2, false, 5⟩], 0, 0, 6⟩, false⟩,
   ⟨1, false, ⟨[], 0, 0, 1⟩, ⟨[], 0, 0, 1⟩, false⟩]

/-- Bounds `[0, 9]`, cutoff 100. -/
def sbDemo0 : SRun := { lo := fun _ => 0, hi := fun _ => 9, cutoff := 100 }

example : WritesIn 3 sbDemo := by unfold WritesIn; decide +kernel

example : (doStrongBranching true true 3 true sbDemo sbDemo0).2 = 2 ∧
    (doStrongBranching true true 3 true sbDemo sbDemo0).1.results = 2 ∧
    (doStrongBranching true true 3 true sbDemo sbDemo0).1.iters = 18 ∧
    (doStrongBranching true true 3 true sbDemo sbDemo0).1.fixed = 1 ∧
    (doStrongBranching true true 3 true sbDemo sbDemo0).1.cutoff = 7 ∧
    (doStrongBranching true true 3 true sbDemo sbDemo0).1.best = some (2, 0) ∧
    (doStrongBranching true true 3 false sbDemo sbDemo0).2 = 1 ∧
    (doStrongBranching false true 3 false sbDemo sbDemo0).1.cutoff = 100 := by decide +kernel

example : (doStrongBranching true true 3 false [⟨0, true, ⟨[], 0, 0, 1⟩, ⟨[], 0, 0, 1⟩, false⟩,
    ⟨1, true, ⟨[], 1, 0, 1⟩, ⟨[], 0, 0, 1⟩, true⟩, ⟨1, true, ⟨[], 1, 0, 1⟩, ⟨[], 1, 0, 1⟩, true⟩] sbDemo0).2 = 3 := by
  decide +kernel

example : ((fixResults true (fun _ => 9 / 2) [⟨2, true, false⟩] (fun _ => 0, fun _ => 9)).2 2,
    (fixResults true (fun _ => 9 / 2) [⟨1, false, true⟩] (fun _ => 0, fun _ => 9)).1 1,
    (fixResults false (fun _ => 9 / 2) [⟨1, false, true⟩] (fun _ => 0, fun _ => 9)).1 1) = (4, 5, 0) := by
  decide +kernel

end VPC
