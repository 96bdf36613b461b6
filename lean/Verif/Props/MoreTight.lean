import Verif.Props.BBSettings
import Verif.Props.Bounds
import Verif.Props.DisjOpts
import Verif.Props.Names
import Verif.Props.TreePrep
import Verif.Props.BetterBranch

/-!
# Further facts about options, bounds and user cuts (C110–C114)

Each of these was added because a changed program still satisfied the theorems written before.
-/
namespace VPC

/-! ## C110: numbers out of range -/

/-- **C110.** Whatever the text: a number that is read fits into an `int`; anything else ends the process. -/
theorem stoi_range (s : List Char) : (∃ v, stoi s = .ok v ∧ intMin ≤ v ∧ v ≤ intMax) ∨ stoi s = .exit := by
  unfold stoi
  generalize strtol s = r
  obtain ⟨v, n, t, e⟩ := r
  dsimp only
  by_cases hn : n = true
  · rw [if_pos hn]; exact Or.inr rfl
  · rw [if_neg hn]
    by_cases h : (e || decide (v < intMin) || decide (intMax < v)) = true
    · rw [if_pos h]; exact Or.inr rfl
    · rw [if_neg h]
      simp only [Bool.or_eq_true, decide_eq_true_eq, not_or, not_lt] at h
      exact Or.inl ⟨v, rfl, h.1.2, h.2⟩

/-- **C110.** Every option that comes out of `parseDisjOptions` is an `int`. -/
theorem options_are_ints (text : List Char) (mode : Mode) (rounds : ℤ) (p : DisjParse)
    (h : parseDisjOptions text mode rounds = .ok p) : ∀ v ∈ p.opts, intMin ≤ v ∧ v ≤ intMax := by
  have key : ∀ (ts : List (List Char)) (vs : List ℤ), stoiAll ts = .ok vs → ∀ v ∈ vs, intMin ≤ v ∧ v ≤ intMax := by
    intro ts
    induction ts with
    | nil => intro vs h v hv; cases h; cases hv
    | cons t ts ih =>
      intro vs h v hv
      obtain ⟨a, ha, h⟩ := Res.bind_ok h
      obtain ⟨b, hb, h⟩ := Res.bind_ok h
      cases h
      rcases List.mem_cons.1 hv with rfl | hv
      · rcases stoi_range t with ⟨w, e, h1, h2⟩ | e
        · rw [ha] at e; cases e; exact ⟨h1, h2⟩
        · rw [ha] at e; cases e
      · exact ih b hb v hv
  unfold parseDisjOptions at h
  split at h
  · cases h; intro v hv; cases hv
  · obtain ⟨vs, hv, h⟩ := Res.bind_ok h
    cases h
    unfold countOptions
    split <;> exact key _ _ hv

example : parseDisjOptions "4:16".toList .PARTIAL_BB 2 = .ok ⟨0, [4, 16], false⟩ := by decide +kernel
example : parseDisjOptions "4:-2147483649".toList .PARTIAL_BB 2 = .exit := by decide +kernel
example : parseDisjOptions "4:-2147483648".toList .PARTIAL_BB 2 = .ok ⟨0, [4, -2147483648], false⟩ := by decide +kernel

/-! ## C111: which rounds are made, which Gomory cuts -/

variable {σ : Type} (I : SolverImpl σ)

/-- **C111.** Gomory cuts are generated only for the values −1 and 1 of the parameter. -/
theorem other_gomory_no_cuts (gomory : ℤ) (h1 : gomory ≠ -1) (h2 : gomory ≠ 1) (w : ℕ → BWorld σ) (rounds : ℕ)
    (s : σ) (b : BState σ) (h : boundRun I gomory w rounds s = .ok b) : b.gmics = [] := by
  have key : ∀ (k r : ℕ) (b b' : BState σ), b.gmics = [] → boundLoop I gomory w k r b = .ok b' → b'.gmics = [] := by
    intro k
    induction k with
    | zero => intro r b b' hb h; unfold boundLoop at h; cases h; exact hb
    | succ k ih =>
      intro r b b' hb h
      unfold boundLoop at h
      obtain ⟨b1, e1, h⟩ := Res.bind_ok h
      have hb1 : b1.gmics = [] := by
        unfold boundRound at e1
        obtain ⟨⟨l1, go, gc⟩, x1, e1⟩ := Res.bind_ok e1
        obtain ⟨l2, x2, e1⟩ := Res.bind_ok e1
        obtain ⟨va, x3, e1⟩ := Res.bind_ok e1
        unfold gomoryRound at x1
        rw [if_neg (by rintro (h | h) <;> contradiction)] at x1
        cases x1
        cases e1
        simp [hb]
      split at h
      · cases h; exact hb1
      · exact ih (r + 1) b1 b' hb1 h
  exact key rounds 0 _ b rfl h

/-- **C111.** A round whose LP is not solved to optimality afterwards, or whose value is infinite, is the last one;
otherwise the next is made. -/
theorem round_after (gomory : ℤ) (w : ℕ → BWorld σ) (k r : ℕ) (s s' : BState σ)
    (h : boundRound I gomory (w r) s = .ok s') :
    (((w r).last = true ∨ I.isOptimal s'.lps.solver = false ∨ isInfinity |I.objValue s'.lps.solver| = true) →
      boundLoop I gomory w (k + 1) r s = .ok s') ∧
    ((w r).last = false → I.isOptimal s'.lps.solver = true → isInfinity |I.objValue s'.lps.solver| = false →
      boundLoop I gomory w (k + 1) r s = boundLoop I gomory w k (r + 1) s') := by
  constructor
  · intro hc
    unfold boundLoop
    rw [h]
    simp only [Res.bind]
    rw [if_pos]
    unfold boundStop
    rcases hc with h | h | h <;> simp [h]
  · intro h1 h2 h3
    conv_lhs => unfold boundLoop
    rw [h]
    simp only [Res.bind]
    rw [if_neg]
    unfold boundStop
    simp [h1, h2, h3]

example : ∃ s', boundRound freeSolver (-1) (lineWorld 0) { lps := startLps (-1) [] } = .ok s' ∧
    (lineWorld 0).last = false ∧ freeSolver.isOptimal s'.lps.solver = true := by
  have h : (boundRound freeSolver (-1) (lineWorld 0) { lps := startLps (-1) [] }).bind
      (fun s => Res.ok (freeSolver.isOptimal s.lps.solver)) = .ok true := by decide +kernel
  obtain ⟨s', h1, h2⟩ := Res.bind_ok h
  simp only [Res.ok.injEq] at h2
  exact ⟨s', h1, rfl, h2⟩

/-! ## C112: two-sided cuts -/

/-- **C112 (negation).** A cut with two finite sides is handed over as "at least the upper side": of the points
it allows only those on the upper side remain. -/
theorem range_reversed (c : OsiRow) (l u : ℚ) (hl : c.lb = some l) (hu : c.ub = some u) (x : Vec) :
    c.asGe.Sat x ↔ u ≤ sdot c.row x := by
  unfold OsiRow.asGe OsiRow.rhs
  rw [hl, hu]
  rfl

/-! ## C112: the option -/

/-- **C112.** Whatever the strategy: when cuts are given the bit for user cuts is set and no other bit changes. -/
theorem user_cuts_bit (s : BitVec 32) (i : ℕ) :
    (withUserCuts s).getLsbD i = (s.getLsbD i || decide (i = 4)) := by
  unfold withUserCuts
  by_cases h : useBB s .user_cuts = true
  · rw [if_pos h]
    rw [useBB_eq] at h
    by_cases hi : i = 4
    · subst hi; simp only [BBOpt.idx] at h; simp [h]
    · simp [hi]
  · rw [if_neg h]
    by_cases hi : i = 4
    · subst hi
      have := enableBB_spec s .user_cuts .user_cuts
      rw [if_pos rfl, useBB_eq] at this
      simp only [BBOpt.idx] at this
      simp [this]
    · rw [(enable_disable_other_bits s .user_cuts i hi).1]
      simp [hi]

example : withUserCuts 0x408 = 0x418 := by decide

/-! ## C113: runs without a pass -/

/-- An event of `GRB_CB_MIP` at the root. -/
def GrbEvent.rootBound : GrbEvent → Option ℚ
  | .mip n _ b => if n > 0 then none else some b
  | _ => none

/-- **C113, no pass (Gurobi).** A run that needs nodes but never reports a pass at the root: both bounds reported
are the last bound announced at the root (minus infinity if none was). -/
theorem gurobi_no_pass (c : GrbCfg) (s : BitVec 32) (want : Bool) (info : BBInfo) (first again : GrbRun)
    (o : BBInfo × Option (List ℚ) × List RowCut) (h : grbUser c s want info first again = .ok o) (es : List GrbEvent)
    (hes : es = (grbRuns (withUserCuts s) first again).flatMap (·.events))
    (hp : ∀ e ∈ es, e.rootNode = false) (hn : o.1.nodes ≠ 0) :
    o.1.firstCutPass = ((es.filterMap GrbEvent.rootBound).getLast?).getD (-dblMax) ∧
    o.1.lastCutPass = o.1.firstCutPass ∧ o.1.rootPasses = 0 := by
  have hfold : ∀ (es : List GrbEvent) (g : GrbCb), g.passes = 0 → (∀ e ∈ es, e.rootNode = false) →
      (grbEvents c g es).firstLp = ((es.filterMap GrbEvent.rootBound).getLast?).getD g.firstLp := by
    intro es
    induction es with
    | nil => intro g _ _; rfl
    | cons e es ih =>
      intro g hg he
      have h0 : (grbStep c g e).passes = 0 := by
        rw [grbStep_passes, hg, he e List.mem_cons_self]; rfl
      change (grbEvents c (grbStep c g e) es).firstLp = _
      rw [ih _ h0 fun e' h => he e' (List.mem_cons_of_mem _ h)]
      have hstep : (grbStep c g e).firstLp = (GrbEvent.rootBound e).getD g.firstLp := by
        have hr := he e List.mem_cons_self
        cases e with
        | mipsol a b => change (grbSol g a b).firstLp = _; unfold grbSol; split <;> rfl
        | mip n i b =>
          change (grbMip g n i b).firstLp = (if n > 0 then none else some b : Option ℚ).getD g.firstLp
          unfold grbMip
          by_cases hn0 : n > 0
          · rw [if_pos hn0, if_pos hn0]; rfl
          · rw [if_neg hn0, if_neg hn0, if_pos hg]; rfl
        | mipnode n t o x =>
          change (grbNode c g n t o x).firstLp = _
          unfold grbNode
          simp only [GrbEvent.rootNode, decide_eq_false_iff_not] at hr
          rw [if_pos (by omega)]
          rfl
      rw [hstep]
      cases hb : GrbEvent.rootBound e with
      | none => simp [List.filterMap_cons, hb]
      | some b =>
        simp only [List.filterMap_cons, hb, Option.getD_some]
        cases h : (es.filterMap GrbEvent.rootBound) with
        | nil => rfl
        | cons a l =>
          rw [List.getLast?_cons_cons, List.getLast?_eq_some_getLast (List.cons_ne_nil a l)]
          rfl
  unfold grbUser at h
  obtain ⟨a, _, h⟩ := Res.bind_ok h
  cases h
  have hpz : (grbEvents c {} es).passes = 0 := by
    rw [grbEvents_passes, List.countP_eq_zero.2 (fun e he => by simp [hp e he])]
    rfl
  have hf := hfold es {} rfl hp
  unfold grbCbOf at hn ⊢
  rw [← hes] at hn ⊢
  dsimp only at hn ⊢
  generalize grbEvents c {} es = g at *
  unfold grbReport at hn ⊢
  rw [if_neg (by omega)] at hn ⊢
  by_cases hz : a.1.nodes = 0
  · rw [if_pos hz] at hn
    exact absurd hz hn
  · rw [if_neg hz]
    exact ⟨hf, rfl, hpz⟩

example : (grbUser ucCfg 24 false {} { ucRun with events := [.mip 0 2 3, .mipsol 12 1, .mip 0 7 8, .mip 1 30 11] }
      ucRun).bind (fun o => Res.ok (o.1.firstCutPass, o.1.lastCutPass, o.1.nodes)) = .ok (8, 8, 2) := by decide +kernel

/-- **C113 (negation, CPLEX).** If the first run ends with "infeasible or unbounded" right after its cut loop, the
bound after the first round that is reported is that of the first run (5), not that of the run reported (8). -/
theorem cplex_rerun_first_bound : ∃ (first again : CpxRun) (o : BBInfo × Option (List ℚ) × List RowCut × List RowCut),
    first.events = [.user 0 .cutLast 5 1 3] ∧
    again.events = [.user 0 .cutLoop 7 1 3, .user 0 .cutLoop 8 2 4, .user 0 .cutLast 9 2 4] ∧
    cpxUser (some ucCuts) false 20 false {} first again = .ok o ∧ o.1.firstCutPass = 5 ∧ o.1.lastCutPass = 5 := by
  refine ⟨{ ucCpx with events := [.user 0 .cutLast 5 1 3], status := .infOrUnbd },
    { ucCpx with events := [.user 0 .cutLoop 7 1 3, .user 0 .cutLoop 8 2 4, .user 0 .cutLast 9 2 4] },
    (⟨11, 11, 30, 2, 2, 5, 5, 3, 1, 0, 7⟩, none, [⟨[(0, 1), (2, 3)], 1⟩, ⟨[(1, -1)], -2⟩], []), rfl, rfl, ?_, rfl, rfl⟩
  decide +kernel

/-! ## C116: fractional numbers and several summands -/

/-- **C116.** A number that is not within the tolerance of an integer is written with `std::to_string`. -/
theorem numText_frac (fmt : ℚ → List Char) (q : ℚ) (h1 : defEps ≤ |q - ⌊q⌋|) (h2 : defEps ≤ |q - ⌈q⌉|) :
    numText fmt q = .ok (fmt q) := by
  unfold numText nearInt
  rw [if_neg]
  simp only [Bool.or_eq_true, decide_eq_true_eq, not_or, not_lt]
  exact ⟨h1, h2⟩

example (fmt : ℚ → List Char) : numText fmt (5 / 2) = .ok (fmt (5 / 2)) :=
  numText_frac fmt (5 / 2) (by decide +kernel) (by decide +kernel)

/-- **C116.** The left-hand side lists the variables in the order in which they are given. -/
theorem sumText_parts (fmt : ℚ → List Char) (cs : List (ℕ × ℚ)) (s : List Char)
    (h : sumText fmt cs = .ok s) :
    ∃ parts : List (List Char), List.Forall₂ (fun t p => summandText fmt t = .ok p) cs parts ∧
      s = parts.flatten := by
  induction cs generalizing s with
  | nil => simp only [sumText, Res.ok.injEq] at h; exact ⟨[], .nil, by rw [← h]; rfl⟩
  | cons t ts ih =>
    simp only [sumText] at h
    obtain ⟨a, ha, h⟩ := Res.bind_ok h
    obtain ⟨b, hb, h⟩ := Res.bind_ok h
    simp only [Res.ok.injEq] at h
    obtain ⟨ps, hps, rfl⟩ := ih b hb
    exact ⟨a :: ps, .cons ha hps, by rw [← h]; rfl⟩

example : sumText (fun _ => []) [(0, 2), (3, -1)] = .ok "+2 x0-x3".toList := by decide +kernel

/-! ## C45/C88: fewer than two terms -/

/-- **C45.** A tree asked for fewer than two terms is not made and the disjunction stays as it is. -/
theorem tree_needs_two (disjTerms : ℤ) (keep : Bool) (D : Disj) (run : TreeRun) (h : disjTerms < 2) :
    prepareTree disjTerms keep D run = .ok (.NO_DISJUNCTION, D) := by
  unfold prepareTree
  rw [if_pos h]

example (run : TreeRun) : prepareTree 1 false Disj.new run = .ok (.NO_DISJUNCTION, Disj.new) :=
  tree_needs_two 1 false Disj.new run (by decide)

/-! ## C118: ties -/

/-- **C118.** Before a solution, among candidates whose smaller number of infeasibilities equals the best
one, a candidate with fewer on the up side replaces the best exactly if its change upwards is below the
recorded criterion; correspondingly for the down side. -/
theorem better_before_tie (s : BrState) (i : ℕ) (c : BrCand) (hs : s.best ≠ none)
    (hn : min c.numUp c.numDown = min s.numUp s.numDown) :
    (c.numUp < c.numDown → ((betterBranch true s i c).1.best = some i ∧
        (betterBranch true s i c).2 = (if c.preferred ≠ 0 then c.preferred else 1) ∨
      (betterBranch true s i c) = (s, 0)) ∧
      ((betterBranch true s i c).2 ≠ 0 ↔ c.up < s.crit)) ∧
    (c.numDown < c.numUp → ((betterBranch true s i c).1.best = some i ∧
        (betterBranch true s i c).2 = (if c.preferred ≠ 0 then c.preferred else -1) ∨
      (betterBranch true s i c) = (s, 0)) ∧
      ((betterBranch true s i c).2 ≠ 0 ↔ c.down < s.crit)) := by
  have hst : s.start true = s := by unfold BrState.start; rw [if_neg hs]
  constructor
  · intro hlt
    rw [min_eq_left hlt.le] at hn
    have hw : s.way true c = if c.up < s.crit then 1 else 0 := by
      unfold BrState.way
      rw [if_pos rfl]
      unfold wayBefore
      rw [if_pos hlt, ← hn, if_neg (lt_irrefl _)]
      simp
    unfold betterBranch
    simp only [hst, hw]
    by_cases hc : c.up < s.crit
    · simp only [if_pos hc]
      simp only [ne_eq, one_ne_zero, not_false_eq_true, if_true]
      refine ⟨.inl ⟨trivial, trivial⟩, ?_⟩
      by_cases hp : c.preferred = 0 <;> simp [hp, hc]
    · simp [if_neg hc, hc]
  · intro hlt
    rw [min_eq_right hlt.le] at hn
    have hw : s.way true c = if c.down < s.crit then -1 else 0 := by
      unfold BrState.way
      rw [if_pos rfl]
      unfold wayBefore
      rw [if_neg (not_lt.2 hlt.le), if_pos hlt, ← hn, if_neg (lt_irrefl _)]
      simp
    unfold betterBranch
    simp only [hst, hw]
    by_cases hc : c.down < s.crit
    · simp only [if_pos hc]
      simp only [ne_eq, neg_eq_zero, one_ne_zero, not_false_eq_true, if_true]
      refine ⟨.inl ⟨trivial, trivial⟩, ?_⟩
      by_cases hp : c.preferred = 0 <;> simp [hp, hc]
    · simp [if_neg hc, hc]

example : (betterBranch true ⟨5, 2, 3, some 0⟩ 1 ⟨4, 2, 9, 3, 0⟩).2 = 1 ∧
    (betterBranch true ⟨5, 2, 3, some 0⟩ 1 ⟨6, 2, 9, 3, 0⟩).2 = 0 := by decide +kernel

end VPC
