import Verif.Props.TargetProps
import Verif.Props.CutClean
import Verif.Props.EndToEnd

/-!
# With a truthful LP solver: every solution used is an optimal solution of the point-ray LP
-/
namespace VPC

/-! ## Specification -/

/-- Feasible for the LP held by the solver. -/
def PLP.Feas (INF : ℚ) (p : PLP) (β : List ℚ) : Prop :=
  p.base.Feas INF β ∧ ∀ k, p.eqRow = some k → p.base.act k β ≤ p.base.rhs k

/-- Whenever the LP solver reports an optimal solution, it is one. -/
def TWorld.Truthful (W : TWorld) (INF : ℚ) : Prop :=
  ∀ n p x, W.solve n p = .optimal x →
    p.Feas INF x ∧ ∀ y, p.Feas INF y → objVal p.obj x ≤ objVal p.obj y

/-! ## The feasible set does not change -/

theorem raise_feas {INF : ℚ} {B : BuiltLP} {j : ℕ} {v : ℚ}
    (hj : j < B.lb.length) (hv1 : B.lb.getD j 0 ≤ v) (hv : ∀ β, B.Feas INF β → v ≤ β.getD j 0) (β : List ℚ) :
    BuiltLP.Feas INF { B with lb := B.lb.set j v } β ↔ B.Feas INF β := by
  have hset : ∀ t, (B.lb.set j v).getD t 0 = if t = j then v else B.lb.getD t 0 := by
    intro t
    rw [List.getD_eq_getElem?_getD, List.getElem?_set]
    by_cases h : j = t
    · subst h; simp [hj]
    · rw [if_neg h, if_neg (fun e => h e.symm), List.getD_eq_getElem?_getD]
  constructor
  · rintro ⟨h1, h2, h3⟩
    refine ⟨h1, fun t ht => ⟨?_, (h2 t ht).2⟩, h3⟩
    have := (h2 t ht).1
    simp only [hset] at this
    split at this
    · rename_i e
      subst e
      rcases this with h | h
      · exact .inl (hv1.trans h)
      · exact .inr (hv1.trans h)
    · exact this
  · intro hβ
    obtain ⟨h1, h2, h3⟩ := hβ
    refine ⟨h1, fun t ht => ⟨?_, (h2 t ht).2⟩, h3⟩
    simp only [hset]
    split
    · rename_i e
      subst e
      exact .inr (hv β ⟨h1, h2, h3⟩)
    · exact (h2 t ht).1

theorem newLower_ge {p : PLP} {n j : ℕ} (hn : p.cols = n) (hj : j < n) {x : List ℚ} (hx : x.length = n)
    (ho : p.obj = (constObj n 0).set j 1) :
    newLower p x j = p.base.lb.getD j 0 ∨ (newLower p x j = x.getD j 0 ∧ p.base.lb.getD j 0 ≤ x.getD j 0) := by
  unfold newLower
  split
  · rename_i h
    right
    have hv : (List.zipWith (· * ·) p.obj x).sum = x.getD j 0 := by
      have := objVal_set (constObj n 0) x j 1 (by simp [constObj, hx]) (by simpa [constObj] using hj)
      rw [constObj_val n 0 x hx] at this
      rw [ho]
      show objVal _ _ = _
      rw [this]
      simp [constObj, hj]
    refine ⟨hv, ?_⟩
    rw [greaterThanVal_iff] at h
    have : (0 : ℚ) ≤ defEps := by unfold defEps; norm_num
    linarith
  · exact .inl rfl

/-- What is known about the state when the solver is truthful. -/
structure Sound (W : TWorld) (INF : ℚ) (L : BuiltLP) (st : TSt) : Prop where
  feas : ∀ β, st.lp.base.Feas INF β ↔ L.Feas INF β
  log : ∀ a ∈ st.log, (∀ β, a.lp.base.Feas INF β ↔ L.Feas INF β) ∧ a.lp.base.rows = L.rows ∧
    ∃ n old, a.op = .tryObj W.env old (W.solve n a.lp) a.heur

theorem sound_keeps {W : TWorld} {INF : ℚ} {L : BuiltLP} (hw : L.WF) (hW : W.Sorts L)
    (hT : W.Truthful INF) : Keeps W L (Sound W INF L) := by
  refine ⟨hW.cands, ?_, ?_, ?_⟩
  · intro st st' hP _ hl _ _ hb
    exact ⟨by rw [hb]; exact hP.feas, by rw [hl]; exact hP.log⟩
  · intro st heur st' r hP _ hs _ ha
    obtain ⟨g', -, rfl⟩ := attempt_ok ha
    refine ⟨hP.feas, fun a hm => ?_⟩
    rw [after_log, List.mem_append, List.mem_singleton] at hm
    rcases hm with hm | rfl
    · exact hP.log a hm
    · exact ⟨hP.feas, hs.rows, st.n, st.cur, rfl⟩
  · intro st x j m hP hr hj hsol
    have hj' : j < L.nz.length := by simpa using hW.units.mem_iff.1 hj
    refine ⟨?_, hP.log⟩
    intro β
    simp only [raiseLower]
    rw [← hP.feas β]
    obtain ⟨hx, hopt⟩ := hT m _ x hsol
    simp only [PLP.Feas] at hx hopt
    have hxl : x.length = L.nz.length := by rw [hx.1.1, hr.nz]
    have hn := newLower_ge (p := { st.lp with obj := (constObj L.nz.length 0).set j 1 }) hr.toShape.cols
      hj' hxl rfl
    simp only at hn
    have hval : ∀ y : List ℚ, y.length = L.nz.length →
        objVal ((constObj L.nz.length 0).set j 1) y = y.getD j 0 := by
      intro y hy
      rw [objVal_set _ _ _ _ (by simp [constObj, hy]) (by simpa [constObj] using hj'),
        constObj_val _ _ _ hy]
      simp [constObj, hj']
    have hlen : j < st.lp.base.lb.length := by rw [hr.lb, hw.lb]; exact hj'
    rcases hn with hn | ⟨hn, hle⟩
    · rw [hn]
      have : st.lp.base.lb.set j (st.lp.base.lb.getD j 0) = st.lp.base.lb := by
        rw [List.getD_eq_getElem?_getD, List.getElem?_eq_getElem hlen]
        exact List.set_getElem_self hlen
      rw [this]
    · rw [hn]
      refine raise_feas hlen hle ?_ β
      intro y hy
      have := hopt y ⟨hy, by rw [hr.eq]; simp⟩
      rw [hval x hxl, hval y (by rw [hy.1, hr.nz])] at this
      exact this

/-- **C103.** If the LP solver is truthful: every solution turned into a cut is a feasible solution of the
point-ray LP as it was set up — although bounds are raised along the way — and it is optimal for the
objective of its heuristic among the feasible solutions (for which the targeted row, if one is set as an
equation, is tight). -/
theorem solutions_optimal {W : TWorld} {INF : ℚ} {L : BuiltLP} (hw : L.WF) (hW : W.Sorts L)
    (hT : W.Truthful INF) {cur : Option (List ℚ)} {g : Gen} {st : TSt}
    (h : targetCuts W L cur g = .ok st) :
    ∀ a ∈ st.log, ∀ x, a.sol? = some x → L.Feas INF x ∧
      (∀ k, a.lp.eqRow = some k → L.act k x = L.rhs k) ∧
      ∀ y, L.Feas INF y → (∀ k, a.lp.eqRow = some k → L.act k y = L.rhs k) →
        objVal a.lp.obj x ≤ objVal a.lp.obj y := by
  have hS := (targetCuts_keeps (sound_keeps hw hW hT)
    (fun st _ hl _ _ hb => ⟨by rw [hb]; simp, by rw [hl]; simp⟩) h).1
  have hD := (objectives_as_documented hw hW h).1
  intro a ha x hx
  obtain ⟨hf, hrows, n, old, hop⟩ := hS.log a ha
  have hsol : W.solve n a.lp = .optimal x := by
    unfold Attempt.sol? at hx
    rw [hop] at hx
    simp only at hx
    generalize W.solve n a.lp = s at hx ⊢
    cases s <;> simp_all [Solve.sol?]
  obtain ⟨h1, h2⟩ := hT n a.lp x hsol
  have hact : ∀ k y, a.lp.base.act k y = L.act k y := by intro k y; simp [BuiltLP.act, BuiltLP.vec, hrows]
  have hrhs : ∀ k, a.lp.base.rhs k = L.rhs k := by intro k; simp [BuiltLP.rhs, hrows]
  have heq : ∀ k, a.lp.eqRow = some k → k < L.rows.length := by
    intro k hk
    have hpt : ∀ k', IsPoint L k' → TargetsPoint L k' a.lp → k < L.rows.length := by
      rintro k' hp (⟨h, -⟩ | ⟨h, -⟩)
      · rw [hk] at h; cases h
      · rw [hk, Option.some.injEq] at h
        subst h
        exact hp.1
    have hsp := (hD a ha).1
    revert hsp
    cases a.heur <;> simp only [HeurSpec]
    case DISJ_LB => rintro ⟨k', hp, -, ht⟩; exact hpt k' hp ht
    case TIGHT_POINTS => rintro ⟨k', hp, ht⟩; exact hpt k' hp ht
    case TIGHT_POINTS2 => rintro ⟨k', hp, ht⟩; exact hpt k' hp ht
    all_goals simp [hk]
  refine ⟨(hf x).1 h1.1, fun k hk => ?_, fun y hy hk => h2 y ⟨(hf y).2 hy, fun k hk' => ?_⟩⟩
  · refine le_antisymm ?_ ?_
    · have := h1.2 k hk
      rwa [hact, hrhs] at this
    · have hk' := heq k hk
      have := ((hf x).1 h1.1).2.2 (L.rows[k]) (List.getElem_mem hk')
      unfold BuiltLP.rhs BuiltLP.act BuiltLP.vec
      simpa [List.getD_eq_getElem?_getD, List.getElem?_eq_getElem hk'] using this
  · rw [hact, hrhs, hk k hk']

/-! ## Where the cuts come from -/

/-- `c` is the cleaned form of the cut with nonbasic coefficients `x`, and it passed all tests. -/
def CutFrom (e : GenEnv) (x : List ℚ) (c : RowCut) : Prop :=
  cleanCut e.norm e.clean e.solver (setCutFromNBCoefficients e.lp e.nz x e.beta e.nbVar e.EPS) = (c, none)

theorem helper_source (e : GenEnv) (g : Gen) (x : List ℚ) (heur : ObjType) :
    ∀ c ∈ (genCutHelper e g x heur).1.cuts, c ∈ g.cuts ∨ CutFrom e x c.cut := by
  intro c hc
  unfold genCutHelper at hc
  split at hc
  · exact .inl hc
  dsimp only at hc
  unfold CutFrom
  generalize cleanCut e.norm e.clean e.solver
    (setCutFromNBCoefficients e.lp e.nz x e.beta e.nbVar e.EPS) = cc at hc ⊢
  obtain ⟨cut, fl⟩ := cc
  cases fl with
  | some f => exact .inl hc
  | none =>
    dsimp only at hc
    split at hc
    · split at hc
      · rcases List.mem_or_eq_of_mem_set hc with h | rfl
        · exact .inl h
        · exact .inr rfl
      · exact .inl hc
    · split at hc
      · simp only [Gen.addCut, List.mem_append, List.mem_singleton] at hc
        rcases hc with h | rfl
        · exact .inl h
        · exact .inr rfl
      · split at hc <;> exact .inl hc

theorem genCut_source {e : GenEnv} {g : Gen} {old : Option (List ℚ)} {s : Solve} {heur : ObjType}
    {p : Gen × Ret} (h : genCut e g old s heur = some p) :
    ∀ c ∈ p.1.cuts, c ∈ g.cuts ∨ ∃ x, s = .optimal x ∧ CutFrom e x c.cut := by
  intro c hc
  unfold genCut at h
  dsimp only at h
  split at h
  · rw [exitGenCut_cuts h] at hc; exact .inl hc
  · split at h
    · split at h
      · rw [exitGenCut_cuts h] at hc; exact .inl hc
      · rw [exitGenCut_cuts h] at hc
        rcases helper_source e _ _ heur c hc with h | h
        · exact .inl h
        · exact .inr ⟨_, rfl, h⟩
    · rw [exitGenCut_cuts h] at hc; exact .inl hc
    · split at h
      · rw [exitGenCut_cuts h] at hc; exact .inl hc
      · rw [exitGenCut_cuts h] at hc; exact .inl hc

/-- **C103.** Every cut in the collection afterwards was there before or is the cleaned cut of the solution
of one of the objectives tried. -/
theorem cuts_from_attempts {W : TWorld} {L : BuiltLP} (hW : W.Sorts L) {cur : Option (List ℚ)} {g : Gen}
    {st : TSt} (h : targetCuts W L cur g = .ok st) :
    ∀ c ∈ st.g.cuts, c ∈ g.cuts ∨ ∃ a ∈ st.log, ∃ x, a.sol? = some x ∧ CutFrom W.env x c.cut := by
  have hK : Keeps W L (fun st => ∀ c ∈ st.g.cuts, c ∈ g.cuts ∨
      ∃ a ∈ st.log, ∃ x, a.sol? = some x ∧ CutFrom W.env x c.cut) := by
    refine ⟨hW.cands, ?_, ?_, ?_⟩
    · intro st st' hP hg hl _ _ _
      rw [hg, hl]; exact hP
    · intro st heur st' r hP _ _ _ ha
      obtain ⟨g', hg, rfl⟩ := attempt_ok ha
      intro c hc
      rw [after_log]
      rcases genCut_source hg c hc with h | ⟨x, hs, hx⟩
      · rcases hP c h with h | ⟨a, ha, h⟩
        · exact .inl h
        · exact .inr ⟨a, List.mem_append_left _ ha, h⟩
      · exact .inr ⟨_, List.mem_append_right _ (List.mem_singleton.2 rfl), x,
          by simp [Attempt.sol?, hs, Solve.sol?], hx⟩
    · intro st x j m hP _ _ _
      simpa [raiseLower] using hP
  exact (targetCuts_keeps hK (fun st hg _ _ _ _ => by rw [hg]; exact fun c hc => .inl hc) h).1

/-! ## Validity -/

theorem setCut_noTiny (lp : LP) (nz : List ℕ) (x : List ℚ) (beta : ℚ) (nbVar : List ℕ) (EPS : ℚ) :
    ∀ e ∈ (setCutFromNBCoefficients lp nz x beta nbVar EPS).row, EPS ≤ |e.2| := by
  intro e he
  unfold setCutFromNBCoefficients setOsiRowCut at he
  simp only [List.mem_filterMap] at he
  obtain ⟨⟨c, i⟩, -, h⟩ := he
  dsimp only at h
  split at h
  · cases h
  · rename_i hz
    simp only [Option.some.injEq] at h
    subst h
    simpa [isZero_iff] using hz

theorem cleanCut_fst (norm : SVec → ℚ) (p : CleanParams) (s : CutSolver) (cut : RowCut) :
    (cleanCut norm p s cut).1 =
      removeSmallCoefficients s.colLower s.colUpper s.obj p.EPS p.EPS_COEFF cut := by
  unfold cleanCut
  dsimp only
  generalize (max _ _ : ℚ) = m
  split
  · rfl
  split
  · rfl
  split <;> rfl

theorem cutFrom_valid {e : GenEnv} {x : List ℚ} {c : RowCut} (hc : CutFrom e x c) (he : e.clean.EPS = e.EPS)
    (h0 : 0 ≤ e.EPS) {y : Vec} (hy : InBox e.solver.colLower e.solver.colUpper y)
    (hs : (setCutFromNBCoefficients e.lp e.nz x e.beta e.nbVar e.EPS).Sat y) :
    c.lb ≤ sdot c.row y + e.EPS := by
  have hcl : c = removeSmallCoefficients e.solver.colLower e.solver.colUpper e.solver.obj e.clean.EPS
      e.clean.EPS_COEFF (setCutFromNBCoefficients e.lp e.nz x e.beta e.nbVar e.EPS) := by
    rw [← cleanCut_fst e.norm, hc]
  have := removeSmall_valid_up_to_eps e.solver.colLower e.solver.colUpper e.solver.obj y e.clean.EPS
    e.clean.EPS_COEFF (by rw [he]; exact h0) _ hy hs
  rw [← hcl] at this
  have ht : tinyMass e.clean.EPS (setCutFromNBCoefficients e.lp e.nz x e.beta e.nbVar e.EPS).row y = 0 := by
    unfold tinyMass
    rw [List.filter_eq_nil_iff.2]
    · simp
    · intro d hd
      rw [he]
      simpa using setCut_noTiny _ _ _ _ _ _ d hd
  rw [ht, he] at this
  linarith

/-- **C03/C103, the whole cut loop** (partial: exact arithmetic, i.e. `RunOk` for each solution used). Let the
objectives be tried on the point-ray LP built from the disjunction, with a truthful LP solver. Then every
point of the problem lying in a term marked feasible satisfies every cut added, up to `EPS` (the amount
by which a right-hand side may be rounded to zero). -/
theorem target_cuts_valid_partial {W : TWorld} {INF : ℚ} {L : BuiltLP} (hw : L.WF) (hW : W.Sorts L)
    (hT : W.Truthful INF) {cur : Option (List ℚ)} {g : Gen} {st : TSt}
    (h : targetCuts W L cur g = .ok st)
    {E : NumEnv} {D : Disj} {P : Relax} {rt : RootSt} {o : NBData} {strengthen flip : Bool}
    {w : ℕ → TermWorld} {scale : ℚ} {x : Vec}
    (henv : W.env.lp = o.lp ∧ W.env.nz = L.nz ∧ W.env.nbVar = o.nb ∧
      W.env.beta = (if flip then -1 else 1) * scale)
    (heps : W.env.clean.EPS = W.env.EPS) (h0 : 0 ≤ W.env.EPS)
    (hrun : ∀ a ∈ st.log, ∀ β, a.sol? = some β → L.Feas INF β →
      RunOk E D P rt o strengthen flip w L β scale W.env.EPS x)
    {t : Term} (ht : t ∈ D.terms) (hf : t.feasible = true) (hx : InTerm P D t x)
    (hi : ∀ c ∈ D.commonIneqs, c.Sat x)
    (hbox : InBox W.env.solver.colLower W.env.solver.colUpper x) :
    ∀ c ∈ st.g.cuts, c ∈ g.cuts ∨ c.cut.lb ≤ sdot c.cut.row x + W.env.EPS := by
  intro c hc
  rcases cuts_from_attempts hW h c hc with h1 | ⟨a, ha, β, hβ, hcf⟩
  · exact .inl h1
  · right
    have hfe := (solutions_optimal hw hW hT h a ha β hβ).1
    have hv := (run_valid_partial (hrun a ha β hβ hfe) ht hf hx hi).1
    refine cutFrom_valid hcf heps h0 hbox ?_
    unfold cutOf at hv
    rw [henv.1, henv.2.1, henv.2.2.1, henv.2.2.2]
    exact hv

end VPC
