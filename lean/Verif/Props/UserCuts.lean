import Verif.Model.UserCuts
import Mathlib.Tactic.Linarith
import Mathlib.Data.List.Induction
import Mathlib.Data.List.GetD
import Verif.Model.SolverOps

/-!
# Branch and bound with user cuts: cuts handed over (C112)
-/
namespace VPC

/-! ## Specification -/

/-- A point satisfies a row cut with two bounds. -/
def OsiRow.Sat (c : OsiRow) (x : Vec) : Prop :=
  (∀ l ∈ c.lb, l ≤ sdot c.row x) ∧ ∀ u ∈ c.ub, sdot c.row x ≤ u

/-- A node event at the root: a pass of cuts. -/
def GrbEvent.rootNode : GrbEvent → Bool
  | .mipnode n _ _ _ => decide (n ≤ 0)
  | _ => false

/-- A node event whose relaxation was solved to optimality. -/
def GrbEvent.solved : GrbEvent → Bool
  | .mipnode _ _ o _ => o
  | _ => false

/-- A progress event at the root. -/
def GrbEvent.rootMip : GrbEvent → Bool
  | .mip n _ _ => decide (n ≤ 0)
  | _ => false

/-! ## The side of the inequality -/

/-- A cut with a lower bound only (all VPCs) is given as the same inequality. -/
theorem ge_same (c : OsiRow) (h : c.ub = none) (hl : c.lb ≠ none) (x : Vec) : c.asGe.Sat x ↔ c.Sat x := by
  obtain ⟨r, lb, ub⟩ := c
  simp only at h hl
  subst h
  obtain ⟨l, rfl⟩ := Option.ne_none_iff_exists'.mp hl
  simp [OsiRow.asGe, OsiRow.rhs, RowCut.Sat, OsiRow.Sat]

/-- A cut with an upper bound only, as CglGMI makes them, is given the other way round: exactly the points on
the hyperplane satisfy both. -/
theorem le_reversed (c : OsiRow) (u : ℚ) (h : c.ub = some u) (hl : c.lb = none) (x : Vec) :
    (c.asGe.Sat x ∧ c.Sat x) ↔ sdot c.row x = u := by
  obtain ⟨r, lb, ub⟩ := c
  simp only at h hl
  subst h hl
  simp only [OsiRow.asGe, OsiRow.rhs, RowCut.Sat, OsiRow.Sat]
  constructor
  · rintro ⟨h1, _, h2⟩; exact le_antisymm (h2 u (by simp)) h1
  · intro h; exact ⟨h.ge, by simp, by intro u' hu; simp at hu; exact hu ▸ h.le⟩

/-- **Negation for Gomory cuts.** The valid cut `x0 ≤ 1` becomes `x0 ≥ 1`, which removes the point 0. -/
theorem gmic_other_side : ∃ (c : OsiRow) (x : Vec), c.Sat x ∧ ¬ c.asGe.Sat x := by
  refine ⟨⟨[(0, 1)], none, some 1⟩, fun _ => 0, ?_, ?_⟩ <;>
    simp [OsiRow.Sat, OsiRow.asGe, OsiRow.rhs, RowCut.Sat, sdot]

/-! ## Gurobi -/

theorem grbSol_passes (s : GrbCb) (o t : ℚ) : (grbSol s o t).passes = s.passes ∧ (grbSol s o t).given = s.given := by
  unfold grbSol; split <;> exact ⟨rfl, rfl⟩

theorem grbMip_passes (s : GrbCb) (n i : ℤ) (b : ℚ) :
    (grbMip s n i b).passes = s.passes ∧ (grbMip s n i b).given = s.given := by
  unfold grbMip; split
  · exact ⟨rfl, rfl⟩
  · split
    · exact ⟨rfl, rfl⟩
    · split <;> exact ⟨rfl, rfl⟩

theorem grbNode_passes (c : GrbCfg) (s : GrbCb) (n : ℤ) (t : ℚ) (o : Bool) (x : List ℚ) :
    (grbNode c s n t o x).passes = s.passes + (if n ≤ 0 then 1 else 0) := by
  unfold grbNode
  by_cases hn : n > 0
  · rw [if_pos hn, if_neg (show ¬ n ≤ 0 by omega)]; omega
  · rw [if_neg hn, if_pos (show n ≤ 0 by omega)]
    split
    · unfold grbNodeOpt
      split
      · split <;> rfl
      · rfl
    · rfl

theorem grbStep_passes (c : GrbCfg) (s : GrbCb) (e : GrbEvent) :
    (grbStep c s e).passes = s.passes + (if e.rootNode then 1 else 0) := by
  cases e with
  | mipsol o t => simp [grbStep, GrbEvent.rootNode, (grbSol_passes s o t).1]
  | mip n i b => simp [grbStep, GrbEvent.rootNode, (grbMip_passes s n i b).1]
  | mipnode n t o x => simp [grbStep, GrbEvent.rootNode, grbNode_passes]

theorem grbEvents_passes (c : GrbCfg) (es : List GrbEvent) (s : GrbCb) :
    (grbEvents c s es).passes = s.passes + es.countP GrbEvent.rootNode := by
  induction es generalizing s with
  | nil => simp [grbEvents]
  | cons e es ih =>
    change (grbEvents c (grbStep c s e) es).passes = _
    rw [ih, grbStep_passes, List.countP_cons]
    cases e.rootNode <;> simp; omega

theorem grbEvents_append (c : GrbCfg) (s : GrbCb) (a b : List GrbEvent) :
    grbEvents c s (a ++ b) = grbEvents c (grbEvents c s a) b := by
  simp [grbEvents]

/-- After the first pass nothing is handed over. -/
theorem grbStep_given_later (c : GrbCfg) (s : GrbCb) (h : 1 ≤ s.passes) (e : GrbEvent) :
    (grbStep c s e).given = s.given := by
  cases e with
  | mipsol o t => exact (grbSol_passes s o t).2
  | mip n i b => exact (grbMip_passes s n i b).2
  | mipnode n t o x =>
    change (grbNode c s n t o x).given = _
    unfold grbNode
    split
    · rfl
    · split
      · unfold grbNodeOpt
        dsimp only
        rw [if_pos (by omega)]
        split <;> rfl
      · rfl

theorem grbEvents_given_later (c : GrbCfg) (es : List GrbEvent) (s : GrbCb) (h : 1 ≤ s.passes) :
    (grbEvents c s es).given = s.given := by
  induction es generalizing s with
  | nil => rfl
  | cons e es ih =>
    change (grbEvents c (grbStep c s e) es).given = _
    rw [ih _ (by rw [grbStep_passes]; split <;> omega), grbStep_given_later c s h e]

/-- What is handed over during a history: everything at the first pass of the root, if its relaxation is
solved; otherwise nothing. -/
theorem grbEvents_given (c : GrbCfg) (es : List GrbEvent) (s : GrbCb) (h : s.passes = 0) :
    (grbEvents c s es).given = s.given ++
      (if (es.find? GrbEvent.rootNode).any GrbEvent.solved then grbAdd c else []) := by
  induction es generalizing s with
  | nil => simp [grbEvents]
  | cons e es ih =>
    change (grbEvents c (grbStep c s e) es).given = _
    by_cases he : e.rootNode = true
    · rw [grbEvents_given_later _ _ _ (by rw [grbStep_passes, if_pos he]; omega),
        List.find?_cons_of_pos he]
      cases e with
      | mipsol o t => simp [GrbEvent.rootNode] at he
      | mip n i b => simp [GrbEvent.rootNode] at he
      | mipnode n t o x =>
        have hn : ¬ n > 0 := by simpa [GrbEvent.rootNode] using he
        change (grbNode c s n t o x).given = _
        unfold grbNode
        rw [if_neg hn]
        cases o
        · simp [GrbEvent.solved]
        · simp only [if_true, Option.any_some, GrbEvent.solved]
          unfold grbNodeOpt
          dsimp only
          rw [if_neg (by omega)]
    · rw [ih _ (by rw [grbStep_passes, if_neg he]; omega), List.find?_cons_of_neg he]
      congr 1
      cases e with
      | mipsol o t => exact (grbSol_passes s o t).2
      | mip n i b => exact (grbMip_passes s n i b).2
      | mipnode n t o x =>
        have hn : n > 0 := by simpa [GrbEvent.rootNode] using he
        change (grbNode c s n t o x).given = _
        unfold grbNode
        rw [if_pos hn]

/-- **C112, Gurobi.** In a run with cuts that ends normally, every cut is handed to the solver exactly once, in
order, when the first root relaxation seen is optimal; in all other cases none is. -/
theorem gurobi_cuts_partial (c : GrbCfg) (l : List OsiRow) (hc : c.cuts = some l) (hz : c.lazy = false)
    (s : BitVec 32) (want : Bool) (info : BBInfo) (first again : GrbRun) (o : BBInfo × Option (List ℚ) × List RowCut)
    (h : grbUser c s want info first again = .ok o) :
    o.2.2 = if (((grbRuns (withUserCuts s) first again).flatMap (·.events)).find? GrbEvent.rootNode).any
        GrbEvent.solved then l.map OsiRow.asGe else [] := by
  unfold grbUser at h
  obtain ⟨a, _, h⟩ := Res.bind_ok h
  cases h
  change (grbCbOf _ _ _ _).given = _
  unfold grbCbOf
  rw [grbEvents_given _ _ _ rfl]
  have : grbAdd c = l.map OsiRow.asGe := by
    simp only [grbAdd, hc, hz, Option.getD_some]
    exact (List.map_eq_flatMap ..).symm
  rw [this]; simp

/-- The points that satisfy the cuts handed over are those that satisfy the cuts, if all have a lower bound
only. -/
theorem given_same_points (l : List OsiRow) (h : ∀ c ∈ l, c.ub = none ∧ c.lb ≠ none) (x : Vec) :
    (∀ k ∈ l.map OsiRow.asGe, k.Sat x) ↔ ∀ c ∈ l, c.Sat x := by
  simp only [List.mem_map, forall_exists_index, and_imp, forall_apply_eq_imp_iff₂]
  exact forall₂_congr fun c hc => ge_same c (h c hc).1 (h c hc).2 x

/-- Two cuts used in the examples. -/
def ucCuts : List OsiRow := [⟨[(0, 1), (2, 3)], some 1, none⟩, ⟨[(1, -1)], some (-2), none⟩]
/-- A configuration used in the examples. -/
def ucCfg : GrbCfg := ⟨5, [1, 2, 0], some ucCuts, false⟩
/-- A run with three passes at the root and one further node. -/
def ucRun : GrbRun where
  events := [.mip 0 0 (-100), .mipsol 12 1, .mipnode 0 2 true [1, 1, 0], .mip 0 7 8, .mipnode 0 3 true [1, 2, 0],
    .mipsol 11 4, .mipnode 0 5 true [2, 2, 1], .mip 0 20 11, .mipnode 1 6 true [3, 2, 1], .mip 1 30 11]
  status := .optimal
  objVal := 11
  objBound := 11
  iters := 30
  nodes := 2
  runtime := 7
  sol := some [2, 2, 0]

example : (grbUser ucCfg 24 false {} ucRun ucRun).bind (fun o => Res.ok (o.2.2, o.1.rootPasses)) =
    .ok ([⟨[(0, 1), (2, 3)], 1⟩, ⟨[(1, -1)], -2⟩], 3) := by decide +kernel

/-- **Negation, Gurobi.** The relaxation of the first pass is not solved to optimality, that of the second is:
no cut is handed over in the whole run, and nothing is reported about it. -/
theorem gurobi_cuts_lost : ∃ (c : GrbCfg) (first : GrbRun) (o : BBInfo × Option (List ℚ) × List RowCut),
    c.cuts = some ucCuts ∧ grbUser c 24 false {} first first = .ok o ∧ o.2.2 = [] ∧
    ∃ e ∈ first.events, e.rootNode = true ∧ e.solved = true := by
  refine ⟨ucCfg, { ucRun with events := [.mipnode 0 2 false [], .mipnode 0 3 true [1, 2, 0]] },
    (⟨11, 11, 30, 2, 2, 10, 10, 0, 3, 0, 7⟩, none, []), rfl, ?_, rfl, ?_⟩
  · decide +kernel
  · exact ⟨.mipnode 0 3 true [1, 2, 0], by simp, rfl, rfl⟩

/-- **Negation, Gurobi.** If the first run ends with "infeasible or unbounded" after it has seen the root node, the
second run, whose results are reported, gets no cut. -/
theorem gurobi_second_run_no_cuts : ∃ (first again : GrbRun) (o : BBInfo × Option (List ℚ) × List RowCut),
    grbUser ucCfg 24 false {} first again = .ok o ∧ o.1.obj = again.objVal ∧
    (grbEvents ucCfg (grbEvents ucCfg {} first.events) again.events).given =
      (grbEvents ucCfg {} first.events).given ∧
    ∃ e ∈ again.events, e.rootNode = true ∧ e.solved = true := by
  refine ⟨{ ucRun with events := [.mipnode 0 2 true [1, 1, 0]], status := .infOrUnbd }, ucRun,
    (⟨11, 11, 30, 2, 4, 8, 11, 20, 5, 4, 7⟩, none, [⟨[(0, 1), (2, 3)], 1⟩, ⟨[(1, -1)], -2⟩]), ?_, rfl, ?_, ?_⟩
  · decide +kernel
  · decide +kernel
  · exact ⟨.mipnode 0 2 true [1, 1, 0], by simp [ucRun], rfl, rfl⟩

/-- **Negation, Gurobi.** With `addAsLazy` every cut is handed over twice as a user cut (never as a lazy
constraint). -/
theorem gurobi_lazy_twice : ∃ o : BBInfo × Option (List ℚ) × List RowCut,
    grbUser { ucCfg with lazy := true } 24 false {} ucRun ucRun = .ok o ∧
    ∀ k ∈ ucCuts, o.2.2.count k.asGe = 2 := by
  refine ⟨(⟨11, 11, 30, 2, 3, 10, 11, 20, 5, 4, 7⟩, none,
    [⟨[(0, 1), (2, 3)], 1⟩, ⟨[(0, 1), (2, 3)], 1⟩, ⟨[(1, -1)], -2⟩, ⟨[(1, -1)], -2⟩]), ?_, ?_⟩
  · decide +kernel
  · decide +kernel

/-! ## CPLEX -/

theorem csrOf_append (l : List OsiRow) (k : OsiRow) : csrOf (l ++ [k]) = csrAdd (csrOf l) k := by
  simp [csrOf]

theorem csr_lengths (l : List OsiRow) :
    (csrOf l).beg.length = l.length ∧ (csrOf l).rhs.length = l.length ∧
    (csrOf l).ind.length = (csrOf l).val.length ∧ ∀ b ∈ (csrOf l).beg, b ≤ (csrOf l).ind.length := by
  induction l using List.reverseRecOn with
  | nil => simp [csrOf]
  | append_singleton l k ih =>
    rw [csrOf_append]
    obtain ⟨h1, h2, h3, h4⟩ := ih
    refine ⟨by simp [csrAdd, h1], by simp [csrAdd, h2], by simp [csrAdd, h3], ?_⟩
    intro b hb
    simp only [csrAdd, List.mem_append, List.mem_singleton, List.length_append, List.length_map] at hb ⊢
    rcases hb with hb | rfl
    · exact Nat.le_add_right_of_le (h4 b hb)
    · omega

/-- The arrays describe exactly the cuts: reading them back gives the list, for every list of cuts. -/
theorem csr_round_trip (l : List OsiRow) : csrRows (csrOf l) = l.map OsiRow.asGe := by
  induction l using List.reverseRecOn with
  | nil => rfl
  | append_singleton l k ih =>
    obtain ⟨h1, h2, h3, h4⟩ := csr_lengths l
    rw [csrOf_append, List.map_append, ← ih]
    unfold csrRows
    have hlen : (csrAdd (csrOf l) k).beg.length = (csrOf l).beg.length + 1 := by simp [csrAdd]
    rw [hlen, List.range_succ, List.map_append]
    congr 1
    · apply List.map_congr_left
      intro i hi
      rw [List.mem_range] at hi
      unfold csrRow
      simp only [csrAdd]
      rw [List.getD_append _ _ _ _ hi, List.getD_append _ _ _ _ (by omega : i < (csrOf l).rhs.length)]
      congr 2
      rw [List.zip_append h3]
      by_cases hlast : i + 1 < (csrOf l).beg.length
      · rw [List.getD_append _ _ _ _ hlast]
        rw [List.getD_eq_getElem _ _ hlast, List.getD_eq_getElem _ _ hlast]
        rw [List.take_append_of_le_length]
        rw [List.length_zip]
        have := h4 _ (List.getElem_mem hlast)
        omega
      · have he : i + 1 = (csrOf l).beg.length := by omega
        rw [List.getD_eq_default (csrOf l).beg _ (by omega)]
        rw [List.getD_append_right _ _ _ _ (by omega)]
        rw [he, Nat.sub_self]
        simp only [List.getD_cons_zero]
        rw [List.take_append_of_le_length]
        rw [List.length_zip]; omega
    · simp only [List.map_cons, List.map_nil, List.cons.injEq, and_true]
      unfold csrRow
      simp only [csrAdd]
      have e1 : ((csrOf l).beg ++ [(csrOf l).ind.length]).getD (csrOf l).beg.length 0 = (csrOf l).ind.length := by
        rw [List.getD_append_right _ _ _ _ (le_refl _), Nat.sub_self]; rfl
      have e2 : ((csrOf l).rhs ++ [k.rhs]).getD (csrOf l).beg.length 0 = k.rhs := by
        rw [show (csrOf l).beg.length = (csrOf l).rhs.length by omega,
          List.getD_append_right _ _ _ _ (le_refl _), Nat.sub_self]; rfl
      have e3 : ((csrOf l).beg ++ [(csrOf l).ind.length]).getD ((csrOf l).beg.length + 1)
          ((csrOf l).ind ++ k.row.map (·.1)).length = ((csrOf l).ind ++ k.row.map (·.1)).length :=
        List.getD_eq_default _ _ (by simp)
      rw [e1, e2, e3]
      simp only [OsiRow.asGe, RowCut.mk.injEq, and_true]
      rw [List.zip_append h3, List.take_of_length_le (by simp [h3]), List.drop_append_of_le_length (by simp [h3])]
      rw [List.drop_of_length_le (by simp [h3])]
      simp [List.zip_map']

/-- **C112, CPLEX.** Whatever happens in the run, CPLEX gets every cut exactly once as a user cut, in order, and, if
asked, exactly once as a lazy constraint. -/
theorem cplex_cuts (l : List OsiRow) (lazy : Bool) (s : BitVec 32) (want : Bool) (info : BBInfo)
    (first again : CpxRun) (o : BBInfo × Option (List ℚ) × List RowCut × List RowCut)
    (h : cpxUser (some l) lazy s want info first again = .ok o) :
    o.2.2.1 = l.map OsiRow.asGe ∧ o.2.2.2 = if lazy then l.map OsiRow.asGe else [] := by
  unfold cpxUser at h
  obtain ⟨a, _, h⟩ := Res.bind_ok h
  cases h
  simp [cpxGiven, csr_round_trip]

/-- A run of CPLEX used in the examples. -/
def ucCpx : CpxRun where
  events := [.user 0 .cutLoop 8 1 3, .info (some 12) 2, .user 0 .cutLoop 9 3 5, .user 0 .cutLast 10 4 9,
    .info (some 11) 5, .user 1 .cutLast 11 6 12]
  status := .optimal
  objVal := 11
  bestBound := 11
  iters := 30
  nodes := 2
  runtime := 7
  sol := some [2, 2, 0]

example : csrOf ucCuts = ⟨[0, 2], [0, 2, 1], [1, 3, -1], [1, -2]⟩ := by decide +kernel

example : (cpxUser (some ucCuts) true 20 false {} ucCpx ucCpx).bind (fun o => Res.ok o.2.2) =
    .ok ([⟨[(0, 1), (2, 3)], 1⟩, ⟨[(1, -1)], -2⟩], [⟨[(0, 1), (2, 3)], 1⟩, ⟨[(1, -1)], -2⟩]) := by decide +kernel

/-! ## Cbc -/

/-- **C112, Cbc.** A run that goes on has never seen a cut in the model: as soon as Cbc has generated one, the
process ends (without a message). -/
theorem cbc_no_cut_seen (v210 : Bool) (es : List CbcUEvent) (h h' : CbcHandler)
    (hr : cbcEvents v210 h es = .ok h') : ∀ e ∈ es, e.hasCuts = false := by
  induction es generalizing h with
  | nil => simp
  | cons e es ih =>
    obtain ⟨a, ha, hr⟩ := Res.bind_ok hr
    unfold cbcStep at ha
    split at ha
    · cases ha
    · next hc =>
      intro e' he'
      rcases List.mem_cons.mp he' with rfl | he'
      · simpa using hc
      · exact ih a hr e' he'

/-- **Negation, Cbc.** A run in which Cbc makes one cut of its own ends the process. -/
theorem cbc_own_cut_ends (v210 : Bool) (info : BBInfo) (r : CbcRun) (e : CbcUEvent) (he : e ∈ r.events)
    (hc : e.hasCuts = true) : cbcUser v210 info r = .exit := by
  have key : ∀ (es : List CbcUEvent) (h : CbcHandler), e ∈ es → cbcEvents v210 h es = .exit := by
    intro es
    induction es with
    | nil => simp
    | cons a es ih =>
      intro h hm
      unfold cbcEvents
      cases hs : cbcStep v210 h a with
      | exit => rfl
      | undef => unfold cbcStep at hs; split at hs <;> cases hs
      | ok h' =>
        rcases List.mem_cons.mp hm with rfl | hm
        · simp [cbcStep, hc] at hs
        · exact ih h' hm
  unfold cbcUser
  rw [key _ _ he]; rfl

end VPC
