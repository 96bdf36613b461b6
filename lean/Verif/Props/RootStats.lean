import Verif.Props.UserCuts

/-!
# Statistics of the root node (C113)

Documented (include/test/BBHelper.hpp:30-36): number of passes of cuts at the root, bound after one and after the
last round of cuts, iterations and time at the root, time the best solution was found.
-/
namespace VPC

/-! ## Specification: objective of a relaxation -/

/-- Objective value of the relaxation values `x`: offset plus inner product. -/
def relaxObj (c : GrbCfg) (x : List ℚ) : ℚ := c.offset + (List.zipWith (· * ·) x c.obj).sum

theorem nodeObj_eq (c : GrbCfg) (x : List ℚ) : nodeObj c x = relaxObj c x := by
  unfold nodeObj relaxObj
  have : ∀ (l : List (ℚ × ℚ)) (v : ℚ), l.foldl (fun v e => v + e.1 * e.2) v = v + (l.map fun e => e.1 * e.2).sum := by
    intro l
    induction l with
    | nil => simp
    | cons a l ih => intro v; simp [ih, add_assoc]
  rw [this]
  congr 2
  rw [List.zip, List.map_zipWith]

/-! ## Gurobi -/

/-- From the second pass on the first bound is fixed. -/
theorem grbStep_first_fixed (c : GrbCfg) (s : GrbCb) (h : 2 ≤ s.passes) (e : GrbEvent) :
    (grbStep c s e).firstCut = s.firstCut := by
  cases e with
  | mipsol o t => change (grbSol s o t).firstCut = _; unfold grbSol; split <;> rfl
  | mip n i b =>
    change (grbMip s n i b).firstCut = _
    unfold grbMip
    split
    · rfl
    · rw [if_neg (by omega), if_neg (by omega)]
  | mipnode n t o x =>
    change (grbNode c s n t o x).firstCut = _
    unfold grbNode
    split
    · rfl
    · split
      · unfold grbNodeOpt
        dsimp only
        rw [if_pos (by omega), if_neg (by omega)]
      · rfl

theorem grbEvents_first_fixed (c : GrbCfg) (es : List GrbEvent) (s : GrbCb) (h : 2 ≤ s.passes) :
    (grbEvents c s es).firstCut = s.firstCut := by
  induction es generalizing s with
  | nil => rfl
  | cons e es ih =>
    change (grbEvents c (grbStep c s e) es).firstCut = _
    rw [ih _ (by rw [grbStep_passes]; split <;> omega), grbStep_first_fixed c s h]

/-- From the second pass on, only a solved root relaxation changes the last bound. -/
theorem grbEvents_last_fixed (c : GrbCfg) (es : List GrbEvent) (s : GrbCb) (h : 2 ≤ s.passes)
    (hn : ∀ e ∈ es, (e.rootNode && e.solved) = false) : (grbEvents c s es).lastCut = s.lastCut := by
  induction es generalizing s with
  | nil => rfl
  | cons e es ih =>
    change (grbEvents c (grbStep c s e) es).lastCut = _
    rw [ih _ (by rw [grbStep_passes]; split <;> omega) fun e' he => hn e' (List.mem_cons_of_mem _ he)]
    have hne := hn e (List.mem_cons_self)
    cases e with
    | mipsol o t => change (grbSol s o t).lastCut = _; unfold grbSol; split <;> rfl
    | mip n i b =>
      change (grbMip s n i b).lastCut = _
      unfold grbMip
      split
      · rfl
      · rw [if_neg (by omega), if_neg (by omega)]
    | mipnode n t o x =>
      change (grbNode c s n t o x).lastCut = _
      unfold grbNode
      simp only [GrbEvent.rootNode, GrbEvent.solved, Bool.and_eq_false_iff, decide_eq_false_iff_not] at hne
      split
      · rfl
      · next hn => rw [if_neg (by rcases hne with h | h; omega; simp [h])]

/-- The reported record of a run with at least one pass is that of the callback. -/
theorem grbUser_report (c : GrbCfg) (s : BitVec 32) (want : Bool) (info : BBInfo) (first again : GrbRun)
    (o : BBInfo × Option (List ℚ) × List RowCut) (h : grbUser c s want info first again = .ok o) (es : List GrbEvent)
    (hes : es = (grbRuns (withUserCuts s) first again).flatMap (·.events)) :
    o.1.rootPasses = es.countP GrbEvent.rootNode ∧
    (0 < es.countP GrbEvent.rootNode → o.1.firstCutPass = (grbEvents c {} es).firstCut ∧
      o.1.lastCutPass = (grbEvents c {} es).lastCut ∧ o.1.rootIters = (grbEvents c {} es).rootIters ∧
      o.1.rootTime = (grbEvents c {} es).rootTime) ∧
    o.1.lastSolTime = (grbEvents c {} es).lastSolTime := by
  unfold grbUser at h
  obtain ⟨a, _, h⟩ := Res.bind_ok h
  cases h
  have hp := grbEvents_passes c es {}
  simp only [zero_add] at hp
  unfold grbCbOf
  rw [← hes]
  dsimp only
  generalize grbEvents c {} es = g at *
  unfold grbReport
  split
  · exact ⟨hp, fun _ => ⟨rfl, rfl, rfl, rfl⟩, rfl⟩
  · split
    · exact ⟨hp, fun h => absurd h (by omega), rfl⟩
    · exact ⟨hp, fun h => absurd h (by omega), rfl⟩

/-- **C113, passes (Gurobi).** The number of passes reported is the number of node events at the root. -/
theorem gurobi_passes (c : GrbCfg) (s : BitVec 32) (want : Bool) (info : BBInfo) (first again : GrbRun)
    (o : BBInfo × Option (List ℚ) × List RowCut) (h : grbUser c s want info first again = .ok o) :
    o.1.rootPasses = ((grbRuns (withUserCuts s) first again).flatMap (·.events)).countP GrbEvent.rootNode :=
  (grbUser_report c s want info first again o h _ rfl).1

/-- **C113, first bound (Gurobi).** If the second relaxation at the root is optimal, the bound after the first round is
its objective value. -/
theorem gurobi_first_bound (c : GrbCfg) (s : BitVec 32) (want : Bool) (info : BBInfo) (first again : GrbRun)
    (o : BBInfo × Option (List ℚ) × List RowCut) (h : grbUser c s want info first again = .ok o)
    (pre post : List GrbEvent) (n : ℤ) (t : ℚ) (x : List ℚ)
    (hes : (grbRuns (withUserCuts s) first again).flatMap (·.events) = pre ++ .mipnode n t true x :: post)
    (hn : n ≤ 0) (hpre : pre.countP GrbEvent.rootNode = 1) : o.1.firstCutPass = relaxObj c x := by
  obtain ⟨_, hr, _⟩ := grbUser_report c s want info first again o h _ rfl
  have hroot : GrbEvent.rootNode (.mipnode n t true x) = true := by simpa [GrbEvent.rootNode] using hn
  rw [(hr (by rw [hes, List.countP_append, hpre]; omega)).1, hes, grbEvents_append]
  have hp := grbEvents_passes c pre {}
  rw [hpre] at hp
  generalize grbEvents c {} pre = g at *
  change (grbEvents c (grbNode c g n t true x) post).firstCut = _
  have hp1 : g.passes = 1 := by simpa using hp
  have : grbNode c g n t true x =
      { g with passes := 2, rootTime := t, lastCut := nodeObj c x, firstCut := nodeObj c x, setFirst := true } := by
    unfold grbNode grbNodeOpt
    rw [if_neg (by omega), if_pos rfl, if_pos (by simp [hp1]), if_pos (by simp [hp1])]
    simp [hp1]
  rw [grbEvents_first_fixed _ _ _ (by rw [this]), this, nodeObj_eq]

/-- **C113, last bound (Gurobi).** The bound after the last round is the objective value of the last root relaxation
that was solved, if that is not the first pass. -/
theorem gurobi_last_bound (c : GrbCfg) (s : BitVec 32) (want : Bool) (info : BBInfo) (first again : GrbRun)
    (o : BBInfo × Option (List ℚ) × List RowCut) (h : grbUser c s want info first again = .ok o)
    (pre post : List GrbEvent) (n : ℤ) (t : ℚ) (x : List ℚ)
    (hes : (grbRuns (withUserCuts s) first again).flatMap (·.events) = pre ++ .mipnode n t true x :: post)
    (hn : n ≤ 0) (hpre : 1 ≤ pre.countP GrbEvent.rootNode) (hpost : ∀ e ∈ post, (e.rootNode && e.solved) = false) :
    o.1.lastCutPass = relaxObj c x := by
  obtain ⟨_, hr, _⟩ := grbUser_report c s want info first again o h _ rfl
  rw [(hr (by rw [hes, List.countP_append]; omega)).2.1, hes, grbEvents_append]
  have hp := grbEvents_passes c pre {}
  generalize grbEvents c {} pre = g at *
  change (grbEvents c (grbNode c g n t true x) post).lastCut = _
  have hp1 : 1 ≤ g.passes := by simp at hp; omega
  have hpass := grbNode_passes c g n t true x
  rw [if_pos hn] at hpass
  rw [grbEvents_last_fixed _ _ _ (by omega) hpost, ← nodeObj_eq]
  unfold grbNode grbNodeOpt
  rw [if_neg (by omega), if_pos rfl, if_pos (by simp; omega)]
  split <;> rfl

/-- A state in which the single pass has been seen and the bound after it not yet. -/
theorem grbEvents_wait (c : GrbCfg) (es : List GrbEvent) (s : GrbCb) (h : s.passes = 1)
    (hn : ∀ e ∈ es, e.rootNode = false ∧ e.rootMip = false) :
    (grbEvents c s es).passes = 1 ∧ (grbEvents c s es).setFirst = s.setFirst ∧
    (grbEvents c s es).firstCut = s.firstCut ∧ (grbEvents c s es).lastCut = s.lastCut := by
  induction es generalizing s with
  | nil => exact ⟨h, rfl, rfl, rfl⟩
  | cons e es ih =>
    obtain ⟨h1, h2⟩ := hn e List.mem_cons_self
    have hs : (grbStep c s e).passes = 1 ∧ (grbStep c s e).setFirst = s.setFirst ∧
        (grbStep c s e).firstCut = s.firstCut ∧ (grbStep c s e).lastCut = s.lastCut := by
      cases e with
      | mipsol o t => simp only [grbStep]; unfold grbSol; split <;> exact ⟨h, rfl, rfl, rfl⟩
      | mip n i b =>
        simp only [grbStep]; unfold grbMip
        rw [if_pos (by simpa [GrbEvent.rootMip] using h2)]; exact ⟨h, rfl, rfl, rfl⟩
      | mipnode n t o x =>
        simp only [grbStep]; unfold grbNode
        rw [if_pos (by simpa [GrbEvent.rootNode] using h1)]; exact ⟨h, rfl, rfl, rfl⟩
    have := ih (grbStep c s e) hs.1 fun e' he => hn e' (List.mem_cons_of_mem _ he)
    rw [hs.2.1, hs.2.2.1, hs.2.2.2] at this
    exact this

/-- Once set, with one pass only, the bounds do not change any more. -/
theorem grbEvents_one_fixed (c : GrbCfg) (es : List GrbEvent) (s : GrbCb) (h : s.passes = 1)
    (hs : s.setFirst = true) (hn : ∀ e ∈ es, e.rootNode = false) :
    (grbEvents c s es).firstCut = s.firstCut ∧ (grbEvents c s es).lastCut = s.lastCut := by
  induction es generalizing s with
  | nil => exact ⟨rfl, rfl⟩
  | cons e es ih =>
    have h1 := hn e List.mem_cons_self
    have hs : (grbStep c s e).passes = 1 ∧ (grbStep c s e).setFirst = true ∧
        (grbStep c s e).firstCut = s.firstCut ∧ (grbStep c s e).lastCut = s.lastCut := by
      cases e with
      | mipsol o t => simp only [grbStep]; unfold grbSol; split <;> exact ⟨h, hs, rfl, rfl⟩
      | mip n i b =>
        simp only [grbStep]; unfold grbMip
        split
        · exact ⟨h, hs, rfl, rfl⟩
        · rw [if_neg (by omega), if_neg (by simp [hs])]; exact ⟨h, hs, rfl, rfl⟩
      | mipnode n t o x =>
        simp only [grbStep]; unfold grbNode
        rw [if_pos (by simpa [GrbEvent.rootNode] using h1)]; exact ⟨h, hs, rfl, rfl⟩
    have := ih (grbStep c s e) hs.1 hs.2.1 fun e' he => hn e' (List.mem_cons_of_mem _ he)
    rw [hs.2.2.1, hs.2.2.2] at this
    exact this

/-- Before the first pass nothing sets the flag. -/
theorem grbEvents_setFirst (c : GrbCfg) (es : List GrbEvent) (s : GrbCb) (h : s.passes = 0)
    (hs : s.setFirst = false) (hn : ∀ e ∈ es, e.rootNode = false) :
    (grbEvents c s es).setFirst = false ∧ (grbEvents c s es).passes = 0 := by
  induction es generalizing s with
  | nil => exact ⟨hs, h⟩
  | cons e es ih =>
    have h1 := hn e List.mem_cons_self
    refine ih (grbStep c s e) (by rw [grbStep_passes, h1]; simpa using h) ?_
      fun e' he => hn e' (List.mem_cons_of_mem _ he)
    cases e with
    | mipsol o t => simp only [grbStep]; unfold grbSol; split <;> exact hs
    | mip n i b =>
      simp only [grbStep]; unfold grbMip
      split
      · exact hs
      · exact hs
    | mipnode n t o x =>
      simp only [grbStep]; unfold grbNode
      rw [if_pos (by simpa [GrbEvent.rootNode] using h1)]; exact hs

/-- **C113, one pass (Gurobi).** With exactly one pass, both bounds are the bound of the first progress event after
it (while still at the root). -/
theorem gurobi_one_pass (c : GrbCfg) (s : BitVec 32) (want : Bool) (info : BBInfo) (first again : GrbRun)
    (o : BBInfo × Option (List ℚ) × List RowCut) (h : grbUser c s want info first again = .ok o)
    (pre mid post : List GrbEvent) (e : GrbEvent) (n i : ℤ) (b : ℚ)
    (hes : (grbRuns (withUserCuts s) first again).flatMap (·.events) = pre ++ e :: mid ++ .mip n i b :: post)
    (hpre : ∀ e ∈ pre, e.rootNode = false) (he : e.rootNode = true)
    (hmid : ∀ e ∈ mid, e.rootNode = false ∧ e.rootMip = false) (hn : n ≤ 0)
    (hpost : ∀ e ∈ post, e.rootNode = false) :
    o.1.rootPasses = 1 ∧ o.1.firstCutPass = b ∧ o.1.lastCutPass = b := by
  obtain ⟨h0, hr, _⟩ := grbUser_report c s want info first again o h _ rfl
  have hz : ∀ l : List GrbEvent, (∀ e ∈ l, e.rootNode = false) → l.countP GrbEvent.rootNode = 0 := by
    intro l hl
    rw [List.countP_eq_zero]
    intro a ha
    simp [hl a ha]
  have hcount : ((grbRuns (withUserCuts s) first again).flatMap (·.events)).countP GrbEvent.rootNode = 1 := by
    rw [hes, List.countP_append, List.countP_append, List.countP_cons, List.countP_cons, hz _ hpre,
      hz _ (fun e he => (hmid e he).1), hz _ hpost, if_pos he]
    simp [GrbEvent.rootNode]
  rw [hcount] at h0
  obtain ⟨r1, r2, _⟩ := hr (by omega)
  refine ⟨by simpa using h0, ?_⟩
  rw [r1, r2, hes, grbEvents_append, grbEvents_append]
  obtain ⟨f1, f2⟩ := grbEvents_setFirst c pre {} rfl rfl hpre
  generalize grbEvents c {} pre = g at *
  change (grbEvents c (grbEvents c (grbStep c g e) mid) (.mip n i b :: post)).firstCut = _ ∧
    (grbEvents c (grbEvents c (grbStep c g e) mid) (.mip n i b :: post)).lastCut = _
  have hp1 : (grbStep c g e).passes = 1 := by rw [grbStep_passes, if_pos he, f2]; rfl
  have hs1 : (grbStep c g e).setFirst = false := by
    cases e with
    | mipsol => simp [GrbEvent.rootNode] at he
    | mip => simp [GrbEvent.rootNode] at he
    | mipnode n t o x =>
      simp only [grbStep]; unfold grbNode
      split
      · exact f1
      · split
        · unfold grbNodeOpt
          dsimp only
          rw [if_neg (by omega)]; exact f1
        · exact f1
  obtain ⟨w1, w2, _, _⟩ := grbEvents_wait c mid _ hp1 hmid
  rw [hs1] at w2
  generalize grbEvents c (grbStep c g e) mid = g2 at *
  change (grbEvents c (grbMip g2 n i b) post).firstCut = _ ∧ (grbEvents c (grbMip g2 n i b) post).lastCut = _
  have hm : grbMip g2 n i b = { g2 with rootIters := i, firstCut := b, lastCut := b, setFirst := true } := by
    unfold grbMip
    rw [if_neg (by omega), if_neg (by omega), if_pos ⟨w1, w2⟩]
  rw [hm]
  exact grbEvents_one_fixed c post _ w1 rfl hpost

/-- Time of the best solution: what the callback has stored. -/
theorem grbEvents_sol (c : GrbCfg) (es : List GrbEvent) (s : GrbCb) :
    (∀ o t, GrbEvent.mipsol o t ∈ es → (grbEvents c s es).obj ≤ o) ∧ (grbEvents c s es).obj ≤ s.obj ∧
    (((grbEvents c s es).obj = s.obj ∧ (grbEvents c s es).lastSolTime = s.lastSolTime) ∨
      (∃ pre post, es = pre ++ .mipsol (grbEvents c s es).obj (grbEvents c s es).lastSolTime :: post ∧
        (grbEvents c s es).obj < s.obj ∧ ∀ o t, GrbEvent.mipsol o t ∈ pre → (grbEvents c s es).obj < o)) := by
  induction es generalizing s with
  | nil => exact ⟨by simp, le_refl _, Or.inl ⟨rfl, rfl⟩⟩
  | cons e es ih =>
    change (∀ o t, _ → (grbEvents c (grbStep c s e) es).obj ≤ o) ∧ (grbEvents c (grbStep c s e) es).obj ≤ s.obj ∧
      (((grbEvents c (grbStep c s e) es).obj = s.obj ∧ (grbEvents c (grbStep c s e) es).lastSolTime = s.lastSolTime) ∨
      (∃ pre post, e :: es = pre ++ .mipsol (grbEvents c (grbStep c s e) es).obj
        (grbEvents c (grbStep c s e) es).lastSolTime :: post ∧
        (grbEvents c (grbStep c s e) es).obj < s.obj ∧ ∀ o t, GrbEvent.mipsol o t ∈ pre →
          (grbEvents c (grbStep c s e) es).obj < o))
    obtain ⟨i1, i2, i3⟩ := ih (grbStep c s e)
    have keep : ∀ e : GrbEvent, (∀ o t, e ≠ .mipsol o t) → (grbStep c s e).obj = s.obj ∧
        (grbStep c s e).lastSolTime = s.lastSolTime := by
      intro e he
      cases e with
      | mipsol o t => exact absurd rfl (he o t)
      | mip n i b =>
        simp only [grbStep]; unfold grbMip
        split
        · exact ⟨rfl, rfl⟩
        · split
          · exact ⟨rfl, rfl⟩
          · split <;> exact ⟨rfl, rfl⟩
      | mipnode n t o x =>
        simp only [grbStep]; unfold grbNode
        split
        · exact ⟨rfl, rfl⟩
        · split
          · unfold grbNodeOpt
            split
            · split <;> exact ⟨rfl, rfl⟩
            · exact ⟨rfl, rfl⟩
          · exact ⟨rfl, rfl⟩
    generalize grbEvents c (grbStep c s e) es = g at *
    cases hk : e with
    | mipsol o t =>
      subst hk
      have hst : grbStep c s (.mipsol o t) = if o < s.obj then { s with lastSolTime := t, obj := o } else s := rfl
      by_cases ho : o < s.obj
      · rw [hst, if_pos ho] at i2 i3
        dsimp only at i2 i3
        refine ⟨?_, by linarith, Or.inr ?_⟩
        · intro o' t' hm
          rcases List.mem_cons.mp hm with hm | hm
          · cases hm; exact i2
          · exact i1 o' t' hm
        · rcases i3 with ⟨h1, h2⟩ | ⟨pre, post, h1, h2, h3⟩
          · exact ⟨[], es, by rw [h1, h2]; rfl, by linarith, by simp⟩
          · refine ⟨.mipsol o t :: pre, post, ?_, by linarith, ?_⟩
            · rw [List.cons_append, ← h1]
            · intro o' t' hm
              rcases List.mem_cons.mp hm with hm | hm
              · cases hm; exact h2
              · exact h3 o' t' hm
      · rw [hst, if_neg ho] at i2 i3
        refine ⟨?_, i2, ?_⟩
        · intro o' t' hm
          rcases List.mem_cons.mp hm with hm | hm
          · cases hm; linarith
          · exact i1 o' t' hm
        · rcases i3 with h | ⟨pre, post, h1, h2, h3⟩
          · exact Or.inl h
          · refine Or.inr ⟨.mipsol o t :: pre, post, ?_, h2, ?_⟩
            · rw [List.cons_append, ← h1]
            · intro o' t' hm
              rcases List.mem_cons.mp hm with hm | hm
              · cases hm; linarith
              · exact h3 o' t' hm
    | _ =>
      have hne : ∀ o t, e ≠ .mipsol o t := by intro o t; rw [hk]; simp
      rw [← hk]
      obtain ⟨k1, k2⟩ := keep e hne
      rw [k1] at i2 i3
      rw [k2] at i3
      refine ⟨?_, i2, ?_⟩
      · intro o' t' hm
        rcases List.mem_cons.mp hm with hm | hm
        · exact absurd hm.symm (hne o' t')
        · exact i1 o' t' hm
      · rcases i3 with h | ⟨pre, post, h1, h2, h3⟩
        · exact Or.inl h
        · refine Or.inr ⟨e :: pre, post, ?_, h2, ?_⟩
          · rw [List.cons_append, ← h1]
          · intro o' t' hm
            rcases List.mem_cons.mp hm with hm | hm
            · exact absurd hm.symm (hne o' t')
            · exact h3 o' t' hm

/-- **C113, time of the best solution (Gurobi).** If a solution better than the starting value was announced, the time
reported is that of the first announcement of a solution with the smallest value announced. -/
theorem gurobi_sol_time (c : GrbCfg) (s : BitVec 32) (want : Bool) (info : BBInfo) (first again : GrbRun)
    (o : BBInfo × Option (List ℚ) × List RowCut) (h : grbUser c s want info first again = .ok o)
    (hsol : ∃ v t, GrbEvent.mipsol v t ∈ (grbRuns (withUserCuts s) first again).flatMap (·.events) ∧ v < dblMax) :
    ∃ v pre post, (grbRuns (withUserCuts s) first again).flatMap (·.events) =
        pre ++ .mipsol v o.1.lastSolTime :: post ∧
      (∀ v' t, GrbEvent.mipsol v' t ∈ pre → v < v') ∧
      ∀ v' t, GrbEvent.mipsol v' t ∈ (grbRuns (withUserCuts s) first again).flatMap (·.events) → v ≤ v' := by
  obtain ⟨_, _, hr⟩ := grbUser_report c s want info first again o h _ rfl
  rw [hr]
  obtain ⟨i1, i2, i3⟩ := grbEvents_sol c ((grbRuns (withUserCuts s) first again).flatMap (·.events)) {}
  obtain ⟨v, t, hm, hv⟩ := hsol
  rcases i3 with ⟨h1, _⟩ | ⟨pre, post, h1, h2, h3⟩
  · have := i1 v t hm
    rw [h1] at this
    exact absurd (lt_of_le_of_lt this hv) (lt_irrefl _)
  · exact ⟨_, pre, post, h1, h3, i1⟩

example : (grbUser ucCfg 24 false {} ucRun ucRun).bind
    (fun o => Res.ok (o.1.firstCutPass, o.1.lastCutPass, o.1.lastSolTime)) = .ok (10, 11, 4) := by decide +kernel

/-- One pass only. -/
def ucRun1 : GrbRun := { ucRun with events := [.mipnode 0 2 true [1, 1, 0], .mipsol 12 1, .mip 0 7 9, .mip 0 9 10] }

example : (grbUser ucCfg 24 false {} ucRun1 ucRun1).bind
    (fun o => Res.ok (o.1.firstCutPass, o.1.lastCutPass, o.1.rootPasses)) = .ok (9, 9, 1) := by decide +kernel

/-- **Negation (Gurobi, CPLEX).** A run that is stopped by the time limit before the root relaxation is solved, with a
solution of value 10 and a bound of 5: the reported "bound after the cuts" is 10, above the bound proved. -/
theorem root_bound_is_incumbent :
    (∃ (r : GrbRun) (o : BBInfo × Option (List ℚ) × List RowCut), grbUser ucCfg 24 false {} r r = .ok o ∧
      o.1.lastCutPass = 10 ∧ o.1.bound = 5) ∧
    ∃ (r : CpxRun) (o : BBInfo × Option (List ℚ) × List RowCut × List RowCut),
      cpxUser (some ucCuts) false 20 false {} r r = .ok o ∧ o.1.lastCutPass = 10 ∧ o.1.bound = 5 := by
  refine ⟨⟨{ ucRun with events := [.mipsol 10 1], status := .timeLimit, objVal := 10, objBound := 5, nodes := 0 },
    (⟨10, 5, 30, 0, 0, 10, 10, 30, 7, 1, 7⟩, none, []), ?_, rfl, rfl⟩,
    { ucCpx with events := [.info (some 10) 1], status := .limitFeas, objVal := 10, bestBound := 5, nodes := 0 },
    (⟨10, 5, 30, 0, 0, 10, 10, 0, 7, 1, 7⟩, none, [⟨[(0, 1), (2, 3)], 1⟩, ⟨[(1, -1)], -2⟩], []), ?_, rfl, rfl⟩
  · decide +kernel
  · decide +kernel

/-! ## CPLEX -/

/-- An event of the user cut callback at the root, in the cut loop. -/
def CpxEvent.rootLoop : CpxEvent → Bool
  | .user n .cutLoop _ _ _ => decide (n = 0)
  | _ => false

/-- An event after the last round of cuts of the root (or of the first node). -/
def CpxEvent.rootLast : CpxEvent → Bool
  | .user n .cutLast _ _ _ => decide (n ≤ 1)
  | _ => false

theorem cpxFirst_passes (i : BBInfo) (b : ℚ) : (cpxFirst i b).rootPasses = i.rootPasses ∧
    (cpxFirst i b).lastCutPass = i.lastCutPass := by
  unfold cpxFirst; split <;> exact ⟨rfl, rfl⟩

theorem cpxEnd_passes (i : BBInfo) (w : CpxWhere) (b t : ℚ) (k : ℤ) :
    (cpxEnd i w b t k).rootPasses = i.rootPasses := by
  unfold cpxEnd cpxLate
  split
  · split <;> rfl
  · rfl

theorem cpxCount_last (i : BBInfo) (n : ℤ) (w : CpxWhere) : (cpxCount i n w).lastCutPass = i.lastCutPass := by
  unfold cpxCount; split <;> rfl

theorem cpxStep_passes (i : BBInfo) (e : CpxEvent) :
    (cpxStep i e).rootPasses = i.rootPasses + if e.rootLoop then 1 else 0 := by
  cases e with
  | info v t =>
    simp only [cpxStep, cpxLog, CpxEvent.rootLoop]
    cases v with
    | none => simp
    | some v => dsimp only; split <;> simp
  | user n w b t k =>
    simp only [cpxStep, cpxUserCb]
    split
    · next h =>
      have : CpxEvent.rootLoop (.user n w b t k) = false := by
        cases w <;> simp [CpxEvent.rootLoop]; omega
      simp [this]
    · rw [cpxEnd_passes]
      unfold cpxCount
      rw [(cpxFirst_passes i b).1]
      cases w <;> simp [CpxEvent.rootLoop]
      · split
        · rfl
        · rw [(cpxFirst_passes i b).1]; simp
      · exact (cpxFirst_passes i b).1
      · exact (cpxFirst_passes i b).1

theorem cpxFold_passes (es : List CpxEvent) (i : BBInfo) :
    (es.foldl cpxStep i).rootPasses = i.rootPasses + es.countP CpxEvent.rootLoop := by
  induction es generalizing i with
  | nil => simp
  | cons e es ih =>
    rw [List.foldl_cons, ih, cpxStep_passes, List.countP_cons]
    cases e.rootLoop <;> simp; omega

/-- **C113, passes (CPLEX).** The number of passes reported is the number of calls from the cut loop of the root. -/
theorem cplex_passes (cuts : Option (List OsiRow)) (lazy : Bool) (s : BitVec 32) (want : Bool) (info : BBInfo)
    (h0 : info.rootPasses = 0) (first again : CpxRun) (o : BBInfo × Option (List ℚ) × List RowCut × List RowCut)
    (h : cpxUser cuts lazy s want info first again = .ok o) :
    o.1.rootPasses = (cpxEventsOf (withUserCuts s) first again).countP CpxEvent.rootLoop := by
  unfold cpxUser at h
  obtain ⟨a, ha, h⟩ := Res.bind_ok h
  cases h
  unfold cpxBB at ha
  dsimp only at ha
  obtain ⟨i, hi, ha⟩ := Res.bind_ok ha
  obtain ⟨x, _, ha⟩ := Res.bind_ok ha
  cases ha
  have hrep : ∀ i : BBInfo, (cpxReport i).rootPasses = i.rootPasses := by
    intro i; unfold cpxReport; split <;> rfl
  rw [hrep]
  dsimp only
  have hv : i.rootPasses = ((cpxEventsOf (withUserCuts s) first again).foldl cpxStep
      { info with firstCutPass := -dblMax, lastCutPass := -dblMax }).rootPasses := by
    rw [if_pos rfl] at hi
    unfold cpxValues at hi
    split at hi <;> first | (cases hi; rfl) | cases hi
  rw [hv, cpxFold_passes]
  simp [h0]

theorem infinite_negMax : isInfinity |(-dblMax : ℚ)| = true := by decide +kernel

theorem cpxStep_last (i : BBInfo) (e : CpxEvent) (he : e.rootLast = false) :
    (cpxStep i e).lastCutPass = i.lastCutPass := by
  cases e with
  | info v t =>
    simp only [cpxStep, cpxLog]
    cases v with
    | none => rfl
    | some v => dsimp only; split <;> rfl
  | user n w b t k =>
    simp only [cpxStep, cpxUserCb]
    split
    · rfl
    · next hn =>
      unfold cpxEnd
      rw [if_neg, cpxCount_last, (cpxFirst_passes i b).2]
      rintro ⟨rfl, _⟩
      simp [CpxEvent.rootLast] at he
      omega

theorem cpxStep_last_fixed (i : BBInfo) (e : CpxEvent) (h : isInfinity |i.lastCutPass| = false) :
    (cpxStep i e).lastCutPass = i.lastCutPass := by
  cases e with
  | info v t =>
    simp only [cpxStep, cpxLog]
    cases v with
    | none => rfl
    | some v => dsimp only; split <;> rfl
  | user n w b t k =>
    simp only [cpxStep, cpxUserCb]
    split
    · rfl
    · unfold cpxEnd
      rw [if_neg, cpxCount_last, (cpxFirst_passes i b).2]
      rintro ⟨_, h2⟩
      rw [cpxCount_last, (cpxFirst_passes i b).2, h] at h2
      cases h2

theorem cpxFold_last_fixed (es : List CpxEvent) (i : BBInfo) (h : isInfinity |i.lastCutPass| = false) :
    (es.foldl cpxStep i).lastCutPass = i.lastCutPass := by
  induction es generalizing i with
  | nil => rfl
  | cons e es ih =>
    rw [List.foldl_cons, ih _ (by rw [cpxStep_last_fixed i e h]; exact h), cpxStep_last_fixed i e h]

theorem cpxFold_last (es : List CpxEvent) (i : BBInfo) (h : isInfinity |i.lastCutPass| = true)
    (n : ℤ) (b t : ℚ) (k : ℤ) (hf : es.find? CpxEvent.rootLast = some (.user n .cutLast b t k))
    (hb : isInfinity |b| = false) : (es.foldl cpxStep i).lastCutPass = b := by
  induction es generalizing i with
  | nil => simp at hf
  | cons e es ih =>
    rw [List.foldl_cons]
    by_cases he : e.rootLast = true
    · rw [List.find?_cons_of_pos he] at hf
      cases hf
      have hn : ¬ n > 1 := by simp [CpxEvent.rootLast] at he; omega
      have : (cpxStep i (.user n .cutLast b t k)).lastCutPass = b := by
        simp only [cpxStep, cpxUserCb]
        rw [if_neg hn]
        unfold cpxEnd
        rw [if_pos]
        exact ⟨rfl, by rw [cpxCount_last, (cpxFirst_passes i b).2]; exact h⟩
      rw [cpxFold_last_fixed _ _ (by rw [this]; exact hb), this]
    · rw [List.find?_cons_of_neg he] at hf
      have hs := cpxStep_last i e (by simpa using he)
      exact ih _ (by rw [hs]; exact h) hf

/-- **C113, last bound (CPLEX).** If there was a pass and CPLEX announced the end of the cut loop, the bound after the
last round is the bound at the first such announcement. -/
theorem cplex_last_bound (cuts : Option (List OsiRow)) (lazy : Bool) (s : BitVec 32) (want : Bool) (info : BBInfo)
    (h0 : info.rootPasses = 0) (first again : CpxRun) (o : BBInfo × Option (List ℚ) × List RowCut × List RowCut)
    (h : cpxUser cuts lazy s want info first again = .ok o)
    (hp : 0 < (cpxEventsOf (withUserCuts s) first again).countP CpxEvent.rootLoop) (n : ℤ) (b t : ℚ) (k : ℤ)
    (hf : (cpxEventsOf (withUserCuts s) first again).find? CpxEvent.rootLast = some (.user n .cutLast b t k))
    (hb : isInfinity |b| = false) : o.1.lastCutPass = b := by
  have hpass := cplex_passes cuts lazy s want info h0 first again o h
  unfold cpxUser at h
  obtain ⟨a, ha, h⟩ := Res.bind_ok h
  cases h
  unfold cpxBB at ha
  dsimp only at ha
  obtain ⟨i, hi, ha⟩ := Res.bind_ok ha
  obtain ⟨x, _, ha⟩ := Res.bind_ok ha
  cases ha
  have hl := cpxFold_last _ { info with firstCutPass := -dblMax, lastCutPass := -dblMax } infinite_negMax n b t k hf hb
  have hv : i.lastCutPass = b := by
    rw [if_pos rfl] at hi
    rw [← hl]
    unfold cpxValues at hi
    split at hi <;> first | (cases hi; rfl) | cases hi
  unfold cpxReport at hpass ⊢
  split
  · next hz =>
    rw [if_pos hz] at hpass
    dsimp only at hpass hz
    omega
  · exact hv

example : (cpxUser (some ucCuts) false 20 false {} ucCpx ucCpx).bind
    (fun o => Res.ok (o.1.rootPasses, o.1.firstCutPass, o.1.lastCutPass, o.1.lastSolTime)) = .ok (2, 9, 10, 5) := by
  decide +kernel

/-- **Negation (CPLEX).** No call from the cut loop, but the end of the cut loop is announced with the bound 8 and 100
nodes are needed: both bounds are reported as the value 11 of the best solution, and all the time as root time. -/
theorem cplex_root_closed : ∃ (r : CpxRun) (o : BBInfo × Option (List ℚ) × List RowCut × List RowCut),
    CpxEvent.user 0 .cutLast 8 1 3 ∈ r.events ∧ cpxUser (some ucCuts) false 20 false {} r r = .ok o ∧
    o.1.nodes = 100 ∧ o.1.lastCutPass = o.1.obj ∧ o.1.rootTime = o.1.time ∧ o.1.obj = 11 := by
  refine ⟨{ ucCpx with events := [.user 0 .cutLast 8 1 3, .info (some 11) 2], nodes := 100 },
    (⟨11, 11, 30, 100, 0, 11, 11, 3, 7, 2, 7⟩, none, [⟨[(0, 1), (2, 3)], 1⟩, ⟨[(1, -1)], -2⟩], []),
    by simp, ?_, rfl, rfl, rfl, rfl⟩
  decide +kernel

/-- **Negation (CPLEX).** A best solution of value 0 found after 6 seconds is reported as found at time 0. -/
theorem cplex_zero_solution_time : ∃ (r : CpxRun) (o : BBInfo × Option (List ℚ) × List RowCut × List RowCut),
    r.events = [.user 0 .cutLoop (-3) 1 3, .info none 2, .info (some 0) 6] ∧
    cpxUser (some ucCuts) false 20 false {} r r = .ok o ∧ o.1.lastSolTime = 0 := by
  refine ⟨{ ucCpx with events := [.user 0 .cutLoop (-3) 1 3, .info none 2, .info (some 0) 6], objVal := 0,
                       bestBound := 0 },
    (⟨0, 0, 30, 2, 1, -dblMax, -dblMax, 0, 0, 0, 7⟩, none, [⟨[(0, 1), (2, 3)], 1⟩, ⟨[(1, -1)], -2⟩], []),
    rfl, ?_, rfl⟩
  decide +kernel

/-! ## Cbc -/

theorem cbcStep_firstLp (v : Bool) (h h' : CbcHandler) (e : CbcUEvent) (hs : cbcStep v h e = .ok h') :
    h'.firstLp = h.firstLp := by
  unfold cbcStep at hs
  split at hs
  · cases hs
  · cases hs; rfl

theorem cbcEvents_firstLp (v : Bool) (es : List CbcUEvent) (h h' : CbcHandler) (hs : cbcEvents v h es = .ok h') :
    h'.firstLp = h.firstLp := by
  induction es generalizing h with
  | nil => cases hs; rfl
  | cons e es ih =>
    obtain ⟨a, ha, hs⟩ := Res.bind_ok hs
    rw [ih a hs, cbcStep_firstLp v h a e ha]

/-- An event that counts as a pass of cuts. -/
def CbcUEvent.pass (v210 : Bool) (e : CbcUEvent) : Bool :=
  v210 && decide (e.kind = .generatedCuts) && decide (e.nodes = 0)

theorem cbcBegin_passes (i : BBInfo) (e : CbcUEvent) : (cbcBegin i e).rootPasses = i.rootPasses := by
  unfold cbcBegin; split <;> rfl

theorem cbcStep_passes (v : Bool) (h h' : CbcHandler) (e : CbcUEvent) (hs : cbcStep v h e = .ok h') :
    h'.info.rootPasses = h.info.rootPasses + if e.pass v then 1 else 0 := by
  unfold cbcStep at hs
  split at hs
  · cases hs
  · cases hs
    dsimp only
    unfold cbcKind
    have hb := cbcBegin_passes h.info e
    unfold CbcUEvent.pass
    split
    · next hk => rw [hk]; unfold cbcNode; simp; split; split; all_goals simpa using hb
    · next hk => rw [hk]; simp [hb]
    · next hk =>
      rw [hk]; unfold cbcCuts
      cases v <;> by_cases hn : e.nodes = 0 <;> simp [hn, hb]
    · next hk => rw [hk]; simp [hb]

theorem cbcEvents_passes (v : Bool) (es : List CbcUEvent) (h h' : CbcHandler) (hs : cbcEvents v h es = .ok h') :
    h'.info.rootPasses = h.info.rootPasses + es.countP (CbcUEvent.pass v) := by
  induction es generalizing h with
  | nil => cases hs; simp
  | cons e es ih =>
    obtain ⟨a, ha, hs⟩ := Res.bind_ok hs
    rw [ih a hs, cbcStep_passes v h a e ha, List.countP_cons]
    cases e.pass v <;> simp; omega

/-- **C113, Cbc: the report is defined** exactly if the process does not end before it and there was a pass of cuts
or no branching; the number of passes is that of the events. -/
theorem cbc_report_partial (v : Bool) (info : BBInfo) (r : CbcRun) (o : BBInfo) (h : cbcUser v info r = .ok o) :
    o.rootPasses = r.events.countP (CbcUEvent.pass v) ∧ (0 < o.rootPasses ∨ o.nodes = 0) := by
  unfold cbcUser at h
  obtain ⟨g, hg, h⟩ := Res.bind_ok h
  obtain ⟨i, hi, h⟩ := Res.bind_ok h
  have hp := cbcEvents_passes v r.events {} g hg
  have hl := cbcEvents_firstLp v r.events {} g hg
  simp only [zero_add] at hp
  unfold cbcReport at h
  split at h
  · next hpos => cases h; exact ⟨hp, Or.inl hpos⟩
  · split at h
    · next hn => cases h; exact ⟨hp, Or.inr hn⟩
    · rw [hl] at h; cases h

/-- **Negation (Cbc).** Without a pass of cuts (always, before Cbc 2.10), every run with cuts that branches and does not
end the process reads a variable that was never assigned. -/
theorem cbc_uninitialised (v : Bool) (info : BBInfo) (r : CbcRun) (hn : r.nodes ≠ 0) (hf : r.fails = false)
    (hp : ∀ e ∈ r.events, e.pass v = false) (hc : ∀ e ∈ r.events, e.hasCuts = false) :
    cbcUser v info r = .undef := by
  have hex : ∀ (es : List CbcUEvent) (h : CbcHandler), (∀ e ∈ es, e.hasCuts = false) →
      ∃ g, cbcEvents v h es = .ok g := by
    intro es
    induction es with
    | nil => intro h _; exact ⟨h, rfl⟩
    | cons e es ih =>
      intro h hc
      have : cbcStep v h e = .ok { h with info := cbcKind v (cbcBegin h.info e) e } := by
        simp [cbcStep, hc e List.mem_cons_self]
      simp only [cbcEvents, this, Res.bind]
      exact ih _ fun e' he => hc e' (List.mem_cons_of_mem _ he)
  obtain ⟨g, hg⟩ := hex r.events {} hc
  have h1 := cbcEvents_passes v r.events {} g hg
  have h2 := cbcEvents_firstLp v r.events {} g hg
  have h3 : r.events.countP (CbcUEvent.pass v) = 0 := by
    rw [List.countP_eq_zero]; intro e he; simp [hp e he]
  unfold cbcUser
  rw [hg]
  simp only [Res.bind, cbcBB, hf, Bool.false_eq_true, if_false]
  unfold cbcReport
  rw [if_neg (by rw [h1, h3]; simp), if_neg (by simpa using hn), h2]

/-- A run of Cbc used in the examples. -/
def ucCbc : CbcRun where
  events := [⟨.beforeSolution2, 0, 3, false, 4, 1⟩, ⟨.generatedCuts, 0, 5, false, 6, 2⟩, ⟨.others, 0, 6, false, 8, 3⟩,
    ⟨.node, 1, 7, false, 9, 4⟩]
  fails := false
  objVal := 11
  best := 11
  iters := 30
  nodes := 5
  seconds := 7

example : cbcUser true {} ucCbc = .ok ⟨11, 11, 30, 5, 1, 6, 5, 9, 0, 1, 7⟩ := by decide +kernel
example : cbcUser false {} ucCbc = .undef := by decide +kernel

/-! ## CPLEX: bound after the first round, time of the best solution -/

/-- A call of the user cut callback that is not ignored. -/
def CpxEvent.early : CpxEvent → Bool
  | .user n _ _ _ _ => decide (n ≤ 1)
  | _ => false

theorem cpxStep_late (i : BBInfo) (e : CpxEvent) (he : e.early = false) :
    (cpxStep i e).firstCutPass = i.firstCutPass ∧ (cpxStep i e).rootPasses = i.rootPasses := by
  cases e with
  | info v t =>
    simp only [cpxStep, cpxLog]
    cases v with
    | none => exact ⟨rfl, rfl⟩
    | some v => dsimp only; split <;> exact ⟨rfl, rfl⟩
  | user n w b t k =>
    simp only [cpxStep, cpxUserCb]
    rw [if_pos (by simpa [CpxEvent.early] using he)]
    exact ⟨rfl, rfl⟩

theorem cpxFold_late (es : List CpxEvent) (i : BBInfo) (he : ∀ e ∈ es, e.early = false) :
    (es.foldl cpxStep i).firstCutPass = i.firstCutPass ∧ (es.foldl cpxStep i).rootPasses = i.rootPasses := by
  induction es generalizing i with
  | nil => exact ⟨rfl, rfl⟩
  | cons e es ih =>
    have h1 := cpxStep_late i e (he e List.mem_cons_self)
    have h2 := ih (cpxStep i e) fun e' h => he e' (List.mem_cons_of_mem _ h)
    rw [h1.1, h1.2] at h2
    exact h2

theorem cpxEnd_first (i : BBInfo) (w : CpxWhere) (b t : ℚ) (k : ℤ) (h : isInfinity |i.firstCutPass| = false) :
    (cpxEnd i w b t k).firstCutPass = i.firstCutPass := by
  unfold cpxEnd cpxLate
  split
  · rw [if_neg (by simp [h])]
  · rfl

theorem cpxCount_first (i : BBInfo) (n : ℤ) (w : CpxWhere) : (cpxCount i n w).firstCutPass = i.firstCutPass := by
  unfold cpxCount; split <;> rfl

theorem cpxStep_first_fixed (i : BBInfo) (e : CpxEvent) (h : isInfinity |i.firstCutPass| = false) :
    (cpxStep i e).firstCutPass = i.firstCutPass := by
  cases e with
  | info v t => exact (cpxStep_late i _ rfl).1
  | user n w b t k =>
    simp only [cpxStep, cpxUserCb]
    split
    · rfl
    · have h1 : cpxFirst i b = i := by unfold cpxFirst; rw [if_neg (by simp [h])]
      rw [h1, cpxEnd_first _ _ _ _ _ (by rw [cpxCount_first]; exact h), cpxCount_first]

theorem cpxFold_first_fixed (es : List CpxEvent) (i : BBInfo) (h : isInfinity |i.firstCutPass| = false) :
    (es.foldl cpxStep i).firstCutPass = i.firstCutPass := by
  induction es generalizing i with
  | nil => rfl
  | cons e es ih =>
    rw [List.foldl_cons, ih _ (by rw [cpxStep_first_fixed i e h]; exact h), cpxStep_first_fixed i e h]

/-- Until the first call from the cut loop (and without the end of the loop) the first bound is not set. -/
theorem cpxFold_before (es : List CpxEvent) (i : BBInfo) (hp : i.rootPasses = 0)
    (he : ∀ e ∈ es, e.rootLoop = false ∧ e.rootLast = false) :
    (es.foldl cpxStep i).firstCutPass = i.firstCutPass ∧ (es.foldl cpxStep i).rootPasses = 0 := by
  induction es generalizing i with
  | nil => exact ⟨rfl, hp⟩
  | cons e es ih =>
    obtain ⟨h1, h2⟩ := he e List.mem_cons_self
    have hp' : (cpxStep i e).rootPasses = 0 := by rw [cpxStep_passes, h1, hp]; rfl
    have hf : (cpxStep i e).firstCutPass = i.firstCutPass := by
      cases e with
      | info v t => exact (cpxStep_late i _ rfl).1
      | user n w b t k =>
        simp only [cpxStep, cpxUserCb]
        split
        · rfl
        · have h3 : cpxFirst i b = i := by unfold cpxFirst; rw [if_neg (by omega)]
          rw [h3]
          unfold cpxEnd
          rw [if_neg, cpxCount_first]
          rintro ⟨rfl, _⟩
          simp [CpxEvent.rootLast] at h2
          omega
    have := ih (cpxStep i e) hp' fun e' h => he e' (List.mem_cons_of_mem _ h)
    rw [hf] at this
    exact this

/-- **C113, first bound (CPLEX).** The bound after the first round is the bound at the next call (of the root or the
first node) after the first call from the cut loop. -/
theorem cplex_first_bound (cuts : Option (List OsiRow)) (lazy : Bool) (s : BitVec 32) (want : Bool) (info : BBInfo)
    (h0 : info.rootPasses = 0) (first again : CpxRun) (o : BBInfo × Option (List ℚ) × List RowCut × List RowCut)
    (h : cpxUser cuts lazy s want info first again = .ok o) (pre mid post : List CpxEvent) (b1 t1 : ℚ) (k1 : ℤ)
    (n : ℤ) (w : CpxWhere) (b t : ℚ) (k : ℤ)
    (hes : cpxEventsOf (withUserCuts s) first again =
      pre ++ .user 0 .cutLoop b1 t1 k1 :: mid ++ .user n w b t k :: post)
    (hpre : ∀ e ∈ pre, e.rootLoop = false ∧ e.rootLast = false) (hmid : ∀ e ∈ mid, e.early = false) (hn : n ≤ 1)
    (hb : isInfinity |b| = false) : o.1.firstCutPass = b := by
  have hpass := cplex_passes cuts lazy s want info h0 first again o h
  unfold cpxUser at h
  obtain ⟨a, ha, h⟩ := Res.bind_ok h
  cases h
  unfold cpxBB at ha
  dsimp only at ha
  obtain ⟨i, hi, ha⟩ := Res.bind_ok ha
  obtain ⟨x, _, ha⟩ := Res.bind_ok ha
  cases ha
  have hl : ((cpxEventsOf (withUserCuts s) first again).foldl cpxStep
      { info with firstCutPass := -dblMax, lastCutPass := -dblMax }).firstCutPass = b := by
    rw [hes, List.foldl_append, List.foldl_append]
    obtain ⟨p1, p2⟩ := cpxFold_before pre { info with firstCutPass := -dblMax, lastCutPass := -dblMax } h0 hpre
    generalize List.foldl cpxStep { info with firstCutPass := -dblMax, lastCutPass := -dblMax } pre = g at *
    simp only [List.foldl_cons]
    have q1 : (cpxStep g (.user 0 .cutLoop b1 t1 k1)).rootPasses = 1 := by
      rw [cpxStep_passes, p2]; rfl
    have q2 : (cpxStep g (.user 0 .cutLoop b1 t1 k1)).firstCutPass = -dblMax := by
      simp only [cpxStep, cpxUserCb]
      have h3 : cpxFirst g b1 = g := by unfold cpxFirst; rw [if_neg (by omega)]
      rw [if_neg (by omega), h3]
      unfold cpxEnd
      rw [if_neg (by rintro ⟨h, _⟩; cases h), cpxCount_first, p1]
    generalize cpxStep g (.user 0 .cutLoop b1 t1 k1) = g1 at q1 q2 ⊢
    obtain ⟨r1, r2⟩ := cpxFold_late mid g1 hmid
    rw [q2] at r1
    rw [q1] at r2
    generalize List.foldl cpxStep g1 mid = g2 at r1 r2 ⊢
    have hs : (cpxStep g2 (.user n w b t k)).firstCutPass = b := by
      simp only [cpxStep, cpxUserCb]
      rw [if_neg (by omega)]
      have h3 : cpxFirst g2 b = { g2 with firstCutPass := b } := by
        unfold cpxFirst; rw [if_pos ⟨r2, by rw [r1]; exact infinite_negMax⟩]
      rw [h3, cpxEnd_first _ _ _ _ _ (by rw [cpxCount_first]; exact hb), cpxCount_first]
    rw [cpxFold_first_fixed _ _ (by rw [hs]; exact hb), hs]
  have hv : i.firstCutPass = b := by
    rw [if_pos rfl] at hi
    rw [← hl]
    unfold cpxValues at hi
    split at hi <;> first | (cases hi; rfl) | cases hi
  have hc : 0 < (cpxEventsOf (withUserCuts s) first again).countP CpxEvent.rootLoop := by
    rw [List.countP_pos_iff]
    exact ⟨.user 0 .cutLoop b1 t1 k1, by rw [hes]; simp, rfl⟩
  unfold cpxReport at hpass ⊢
  split
  · next hz =>
    rw [if_pos hz] at hpass
    dsimp only at hpass hz
    omega
  · exact hv

/-! ## Gurobi: iterations and time of the root -/

theorem grbStep_iters (c : GrbCfg) (s : GrbCb) (e : GrbEvent) (he : e.rootMip = false) :
    (grbStep c s e).rootIters = s.rootIters := by
  cases e with
  | mipsol o t => simp only [grbStep]; unfold grbSol; split <;> rfl
  | mip n i b =>
    simp only [grbStep]; unfold grbMip
    rw [if_pos (by simpa [GrbEvent.rootMip] using he)]
  | mipnode n t o x =>
    simp only [grbStep]; unfold grbNode
    split
    · rfl
    · split
      · unfold grbNodeOpt
        split
        · split <;> rfl
        · rfl
      · rfl

theorem grbStep_time (c : GrbCfg) (s : GrbCb) (e : GrbEvent) (he : e.rootNode = false) :
    (grbStep c s e).rootTime = s.rootTime := by
  cases e with
  | mipsol o t => simp only [grbStep]; unfold grbSol; split <;> rfl
  | mip n i b =>
    simp only [grbStep]; unfold grbMip
    split
    · rfl
    · split
      · rfl
      · split <;> rfl
  | mipnode n t o x =>
    simp only [grbStep]; unfold grbNode
    rw [if_pos (by simpa [GrbEvent.rootNode] using he)]

theorem grbEvents_iters (c : GrbCfg) (es : List GrbEvent) (s : GrbCb) (he : ∀ e ∈ es, e.rootMip = false) :
    (grbEvents c s es).rootIters = s.rootIters := by
  induction es generalizing s with
  | nil => rfl
  | cons e es ih =>
    change (grbEvents c (grbStep c s e) es).rootIters = _
    rw [ih _ fun e' h => he e' (List.mem_cons_of_mem _ h), grbStep_iters c s e (he e List.mem_cons_self)]

theorem grbEvents_time (c : GrbCfg) (es : List GrbEvent) (s : GrbCb) (he : ∀ e ∈ es, e.rootNode = false) :
    (grbEvents c s es).rootTime = s.rootTime := by
  induction es generalizing s with
  | nil => rfl
  | cons e es ih =>
    change (grbEvents c (grbStep c s e) es).rootTime = _
    rw [ih _ fun e' h => he e' (List.mem_cons_of_mem _ h), grbStep_time c s e (he e List.mem_cons_self)]

/-- **C113, time at the root (Gurobi).** The time reported is that of the last pass at the root. -/
theorem gurobi_root_time (c : GrbCfg) (s : BitVec 32) (want : Bool) (info : BBInfo) (first again : GrbRun)
    (o : BBInfo × Option (List ℚ) × List RowCut) (h : grbUser c s want info first again = .ok o)
    (pre post : List GrbEvent) (n : ℤ) (t : ℚ) (b : Bool) (x : List ℚ)
    (hes : (grbRuns (withUserCuts s) first again).flatMap (·.events) = pre ++ .mipnode n t b x :: post)
    (hn : n ≤ 0) (hpost : ∀ e ∈ post, e.rootNode = false) : o.1.rootTime = t := by
  obtain ⟨_, hr, _⟩ := grbUser_report c s want info first again o h _ rfl
  have hroot : GrbEvent.rootNode (.mipnode n t b x) = true := by simpa [GrbEvent.rootNode] using hn
  rw [(hr (by rw [List.countP_pos_iff]; exact ⟨_, by rw [hes]; simp, hroot⟩)).2.2.2, hes, grbEvents_append]
  generalize grbEvents c {} pre = g at *
  change (grbEvents c (grbNode c g n t b x) post).rootTime = _
  rw [grbEvents_time _ _ _ hpost]
  unfold grbNode
  rw [if_neg (by omega)]
  split
  · unfold grbNodeOpt
    split
    · split <;> rfl
    · rfl
  · rfl

/-- **C113, iterations at the root (Gurobi).** The number reported is that of the last progress event at the root. -/
theorem gurobi_root_iters (c : GrbCfg) (s : BitVec 32) (want : Bool) (info : BBInfo) (first again : GrbRun)
    (o : BBInfo × Option (List ℚ) × List RowCut) (h : grbUser c s want info first again = .ok o)
    (pre post : List GrbEvent) (n k : ℤ) (b : ℚ)
    (hes : (grbRuns (withUserCuts s) first again).flatMap (·.events) = pre ++ .mip n k b :: post)
    (hn : n ≤ 0) (hpost : ∀ e ∈ post, e.rootMip = false)
    (hpass : 0 < ((grbRuns (withUserCuts s) first again).flatMap (·.events)).countP GrbEvent.rootNode) :
    o.1.rootIters = k := by
  obtain ⟨_, hr, _⟩ := grbUser_report c s want info first again o h _ rfl
  rw [(hr hpass).2.2.1, hes, grbEvents_append]
  generalize grbEvents c {} pre = g at *
  change (grbEvents c (grbMip g n k b) post).rootIters = _
  rw [grbEvents_iters _ _ _ hpost]
  unfold grbMip
  rw [if_neg (by omega)]
  split
  · rfl
  · split <;> rfl

end VPC
