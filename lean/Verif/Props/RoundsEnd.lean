import Verif.Props.RoundsValid
import Verif.Props.EndToEndEx

/-!
# C145, C03: rounds of disjunctive cuts, end to end

The hypotheses of `rounds_keep_solutions` on the disjunctive cuts of a round, from how the generator finds them.
-/
namespace VPC

variable {σ : Type} (I : SolverImpl σ)

/-- The LP of a round: the problem with the rows of the cuts in use. -/
def roundLP (P : Relax) (s : σ) : Relax := applyIneqs (I.rows s) P

/-- `c` is a cut (or a one-sided cut) found from a split disjunction on the LP `P`, in a run that meets the hypotheses
of C03 and C04 (`split_vpc_valid_partial`). -/
def SplitCut (P : Relax) (isInt : ℕ → Prop) (x : Vec) (c : RowCut) : Prop :=
  ∃ (AWAY : ℚ) (cols : List (Bool × ℚ)) (sort : List (ℕ × ℚ) → List (ℕ × ℚ)) (ask : ℕ → ℕ → VarAns) (s s' : Split)
    (E : NumEnv) (st : RootSt) (o : NBData) (strengthen flip : Bool) (w : ℕ → TermWorld) (L : BuiltLP)
    (β : List ℚ) (scale EPS : ℚ),
    0 < AWAY ∧ s.d = Disj.new ∧ splitPrepare AWAY cols sort ask s = .ok (.SUCCESS, s') ∧
    (∀ k col, (ask k col).isInt = true → isInt col) ∧ Genuine P isInt ask ∧
    RunOk E s'.d P st o strengthen flip w L β scale EPS x ∧
    (c = cutOf o L β flip scale EPS ∨ c ∈ st.cuts)

/-- `c` is a cut (or a one-sided cut) found from a partial branch-and-bound tree on the LP `P`, in a run that meets the
hypotheses of C03 and C05 (`bb_vpc_valid_partial`): the point is not discarded by the branch-and-bound solver. -/
def TreeCut (P : Relax) (x : Vec) (c : RowCut) : Prop :=
  ∃ (root : NewNode) (es : List BBStep) (b : BB) (nodes : List CNode) (intSol : List ℚ) (maxLeaf numLeaf : ℤ)
    (env : SaveEnv) (r : Bool × SaveSt)
    (E : NumEnv) (st : RootSt) (o : NBData) (strengthen flip : Bool) (w : ℕ → TermWorld) (L : BuiltLP)
    (β : List ℚ) (scale EPS : ℚ),
    OnlyTightens P root es ∧ bbRun (bbInit P root) es = .ok b ∧ nodes.Perm b.tree ∧
    saveInformation P maxLeaf b nodes intSol numLeaf env = .ok r ∧ r.1 = false ∧
    IntegralOn root es x ∧ (∀ i j Q, env.lp i j Q = none → ¬ Q.Feas x) ∧ InBnds root.lo root.hi x ∧
    ¬ LostIn false (bbInit P root) es x ∧
    RunOk E r.2.D P st o strengthen flip w L β scale EPS x ∧
    (c = cutOf o L β flip scale EPS ∨ c ∈ st.cuts)

theorem SplitCut.sat {P : Relax} {isInt : ℕ → Prop} {x : Vec} {c : RowCut} (h : SplitCut P isInt x c)
    (hx : P.Feas x) (hxi : ∀ i, isInt i → ∃ z : ℤ, x i = z) : c.Sat x := by
  obtain ⟨AWAY, cols, sort, ask, s, s', E, st, o, str, flip, w, L, β, scale, EPS, h1, h2, h3, h4, h5, h6, h7⟩ := h
  have := split_vpc_valid_partial h1 h2 h3 h4 h5 h6 hx hxi
  rcases h7 with rfl | h7
  · exact this.1
  · exact this.2 c h7

theorem TreeCut.sat {P : Relax} {x : Vec} {c : RowCut} (h : TreeCut P x c) (hx : P.Feas x) : c.Sat x := by
  obtain ⟨root, es, b, nodes, intSol, maxLeaf, numLeaf, env, r, E, st, o, str, flip, w, L, β, scale, EPS,
    h1, h2, h3, h4, h5, h6, h7, h8, h9, h10, h11⟩ := h
  have := bb_vpc_valid_partial h1 h2 h3 h4 h5 h10 hx h6 h7 h8 h9
  rcases h11 with rfl | h11
  · exact this.1
  · exact this.2 c h11

/-- **C145, end to end** (partial: the runs meet the hypotheses of C03, i.e. exact arithmetic and truthful LPs). Let `x` be a
solution of the problem `P`, and let every round find its disjunctive cuts from a split disjunction or a partial tree
*on the LP with the cuts found so far*. Let the Gomory cuts be valid for solutions of the LP they are generated for. Then, after
any number of rounds, `x` satisfies every cut and is a solution of every LP given to the final branch and bound. -/
theorem rounds_of_vpcs_valid_partial {keep : RowCut → Bool} (hR : RowLaws I keep) {P : Relax} {isInt : ℕ → Prop}
    {x : Vec} (hP : P.Feas x) (hxi : ∀ i, isInt i → ∃ z : ℤ, x i = z) (gomory : ℤ) {w : ℕ → BWorld σ}
    (hg : ∀ r s, (roundLP I P s).Feas x → SatRows x ((w r).gomoryCuts s))
    (hd : ∀ r s, (roundLP I P s).Feas x → ∀ c ∈ (w r).disjCuts s,
      SplitCut (roundLP I P s) isInt x c ∨ TreeCut (roundLP I P s) x c)
    (rounds : ℕ) (s : σ) (hx : SatRows x (I.rows s)) (b : BState σ)
    (h : boundRun I gomory w rounds s = .ok b) :
    SatRows x b.gmics ∧ SatRows x b.vpcs ∧
      (roundLP I P b.lps.solver).Feas x ∧
      (∀ t, (analysed gomory b.lps).1 = some t → (roundLP I P t).Feas x) ∧
      (∀ t, (analysed gomory b.lps).2.1 = some t → (roundLP I P t).Feas x) ∧
      (∀ t, (analysed gomory b.lps).2.2 = some t → (roundLP I P t).Feas x) := by
  have lp : ∀ t : σ, SatRows x (I.rows t) → (roundLP I P t).Feas x :=
    fun t ht => (applyIneqs_feas _ P x).2 ⟨hP, ht⟩
  have hw : SoundRounds I w x := by
    refine ⟨fun r t ht => hg r t (lp t ht), fun r t ht c hc => ?_⟩
    rcases hd r t (lp t ht) c hc with h1 | h1
    · exact h1.sat (lp t ht) hxi
    · exact h1.sat (lp t ht)
  obtain ⟨h1, h2, h3, h4, h5, h6⟩ := rounds_keep_solutions I hR gomory hw rounds s hx b h
  exact ⟨h1, h2, lp _ h3, fun t ht => lp t (h4 t ht), fun t ht => lp t (h5 t ht), fun t ht => lp t (h6 t ht)⟩

/-! ## A concrete run -/

namespace Tri

/-- Two rounds on the triangle: the first finds the cut `x1 ≤ 0` of the complete split run, then nothing more is
found. -/
def triWorld : ℕ → BWorld (List RowCut) := fun r =>
  { gomoryCuts := fun _ => []
    disjCuts := fun s => if s = [] then [cutOf o L [1/2, 1/2] false 1 (1/10000000)] else []
    last := decide (1 ≤ r) }

/-- The hypotheses of `rounds_of_vpcs_valid_partial` hold for every point of the triangle with integral `x0`, and the LP
at the end has the cut. -/
example (x : Vec) (hx : V.Feas x) (h0 : ∃ z : ℤ, x 0 = z) :
    ∃ b, boundRun freeSolver 1 triWorld 2 [] = .ok b ∧ b.vpcs = [cutOf o L [1/2, 1/2] false 1 (1/10000000)] ∧
      b.byRound.length = 2 ∧ (roundLP freeSolver V b.lps.solver).Feas x := by
  have hok : ((boundRun freeSolver 1 triWorld 2 []).bind fun b => .ok (b.vpcs, b.byRound.length)) =
      .ok ([cutOf o L [1/2, 1/2] false 1 (1/10000000)], 2) := by decide +kernel
  obtain ⟨b, hb, hb2⟩ := Res.bind_ok hok
  simp only [Res.ok.injEq, Prod.mk.injEq] at hb2
  refine ⟨b, hb, hb2.1, hb2.2, ?_⟩
  refine (rounds_of_vpcs_valid_partial freeSolver freeSolver_rows hx (isInt := fun i => i = 0)
    (by rintro i rfl; exact h0) 1 (w := triWorld) (by intro r s _ c hc; simp [triWorld] at hc) ?_ 2 []
    (by intro c hc; simp [freeSolver, lineSolver] at hc) b hb).2.2.1
  intro r s _ c hc
  left
  by_cases hs : s = []
  · subst hs
    simp only [triWorld, if_true, List.mem_singleton] at hc
    have e : roundLP freeSolver V [] = V := by decide +kernel
    rw [e]
    exact ⟨_, _, _, _, _, _, E, ⟨V, []⟩, o, false, false, Tri.w, L, [1/2, 1/2], 1, 1/10000000, by norm_num, rfl,
      split_prepared, (by intro k col h; simpa [ask] using h), (by intro k col x _ _; simp [ask]), runOkS x,
      Or.inl hc⟩
  · simp [triWorld, hs] at hc

end Tri
end VPC
