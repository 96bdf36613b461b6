import Verif.Props.Bounds

/-!
# C145: rounds of cuts lose no solution, and the bounds reported are bounds

A point `x` stands for a solution of the mixed-integer program, `v` for its objective value.
-/
namespace VPC

variable {σ : Type} (I : SolverImpl σ)

/-! ## Specification -/

/-- The point satisfies all the rows. -/
def SatRows (x : Vec) (l : List RowCut) : Prop := ∀ c ∈ l, c.Sat x

/-- What C03 and the validity of Gomory cuts give in one round: a solution in the LP the cuts are generated for
satisfies the cuts. -/
structure SoundRounds (w : ℕ → BWorld σ) (x : Vec) : Prop where
  gomory : ∀ r s, SatRows x (I.rows s) → SatRows x ((w r).gomoryCuts s)
  disj : ∀ r s, SatRows x (I.rows s) → SatRows x ((w r).disjCuts s)

/-- A solver that claims optimality reports a value not above that of a feasible point. -/
def TrueOptimum (x : Vec) (v : ℚ) : Prop :=
  ∀ s, I.isOptimal s = true → SatRows x (I.rows s) → I.objValue s ≤ v

/-- The solver solves every LP that has the feasible point `x`. -/
def SolvesAt (x : Vec) : Prop :=
  ∀ s s', SatRows x (I.rows s) → recheck I s = .ok s' → I.isOptimal s' = true

/-- The four LPs, as far as they exist, admit the point. -/
structure LpsAdmit (x : Vec) (l : Lps σ) : Prop where
  solver : SatRows x (I.rows l.solver)
  gmic : ∀ s, l.gmic = some s → SatRows x (I.rows s)
  vpc : ∀ s, l.vpc = some s → SatRows x (I.rows s)
  all : ∀ s, l.all = some s → SatRows x (I.rows s)

/-- The four LPs, as far as they exist, are solved to optimality. -/
structure LpsOptimal (l : Lps σ) : Prop where
  solver : I.isOptimal l.solver = true
  gmic : ∀ s, l.gmic = some s → I.isOptimal s = true
  vpc : ∀ s, l.vpc = some s → I.isOptimal s = true
  all : ∀ s, l.all = some s → I.isOptimal s = true

/-- All bounds of a record are at most `v`; the one for Gomory cuts only if there are such cuts. -/
def BoundVals.Below (gomory : ℤ) (v : ℚ) (b : BoundVals) : Prop :=
  b.vpc ≤ v ∧ b.gmicVpc ≤ v ∧ b.all ≤ v ∧ (gomory ≠ 0 → b.gmic ≤ v)

/-! ## Applying cuts -/

theorem satRows_append {x : Vec} {a b : List RowCut} (ha : SatRows x a) (hb : SatRows x b) :
    SatRows x (a ++ b) := by
  intro c hc
  rcases List.mem_append.1 hc with h | h
  · exact ha c h
  · exact hb c h

theorem satRows_filter {x : Vec} {a : List RowCut} (keep : RowCut → Bool) (ha : SatRows x a) :
    SatRows x (a.filter keep) := fun c hc => ha c (List.mem_filter.1 hc).1

theorem resolve_rows {keep : RowCut → Bool} (hR : RowLaws I keep) (s : σ) :
    I.rows (I.resolve s) = I.rows s := (hR.stable (I.rows s)).resolve _ rfl

theorem initialSolve_rows {keep : RowCut → Bool} (hR : RowLaws I keep) (s : σ) :
    I.rows (I.initialSolve s) = I.rows s := (hR.stable (I.rows s)).initialSolve _ rfl

/-- Whatever the solver answers, the LP afterwards has its old rows and possibly the cuts. -/
theorem applyAll_rows {keep : RowCut → Bool} (hR : RowLaws I keep) (cs : List RowCut) (s s' : σ)
    (h : applyAll I cs (some s) = .ok s') :
    I.rows s' = I.rows s ∨ I.rows s' = I.rows s ++ cs.filter keep := by
  unfold applyAll at h
  obtain ⟨⟨v, s2⟩, h1, h2⟩ := Res.bind_ok h
  cases h2
  unfold applyCutsCustom applyCutsFrom at h1
  dsimp only at h1
  have en : (if (if (-1 : ℤ) ≥ 0 then (-1 : ℤ) else (cs.length : ℤ)) ≥ 0 then
      (if (-1 : ℤ) ≥ 0 then (-1 : ℤ) else (cs.length : ℤ)) else (cs.length : ℤ)) = cs.length := by
    rw [if_neg (by omega : ¬ (-1 : ℤ) ≥ 0), if_pos (by omega)]
  rw [en] at h1
  obtain ⟨s0, h0, h1⟩ := Res.bind_ok h1
  have r0 : I.rows s0 = I.rows s := by
    split at h0
    · rw [recheck_rows I hR _ _ h0, resolve_rows I hR]
    · cases h0; rfl
  split at h1
  · cases h1; exact Or.inl r0
  · generalize (if isNegInfinity (-dblMax) = true then I.objValue s0 else -dblMax) = cmp at h1
    obtain ⟨t, ht, h1⟩ := Res.bind_ok h1
    obtain ⟨t', ht', hrow⟩ := addCuts_spec I hR cs 0 cs.length (by omega) s0
    rw [show ((0 : ℕ) : ℤ) = 0 from rfl] at ht'
    rw [ht] at ht'
    cases ht'
    have hreq : requested keep cs 0 cs.length = cs.filter keep := by simp [requested]
    rw [hreq, r0] at hrow
    right
    unfold afterCuts at h1
    obtain ⟨u, hu, h1⟩ := Res.bind_ok h1
    have ru : I.rows u = I.rows t := by
      rw [recheck_rows I hR _ _ hu]
      split
      · exact resolve_rows I hR _
      · exact initialSolve_rows I hR _
    split at h1
    · cases h1
    · obtain ⟨y, hy, h1⟩ := Res.bind_ok h1
      cases h1
      rw [← hrow, ← ru]
      split at hy
      · rw [recheck_rows I hR _ _ hy, resolve_rows I hR]
      · cases hy; rfl

theorem applyAll_admits {keep : RowCut → Bool} (hR : RowLaws I keep) {x : Vec} {cs : List RowCut} {s s' : σ}
    (hs : SatRows x (I.rows s)) (hc : SatRows x cs) (h : applyAll I cs (some s) = .ok s') :
    SatRows x (I.rows s') := by
  rcases applyAll_rows I hR cs s s' h with e | e <;> rw [e]
  · exact hs
  · exact satRows_append hs (satRows_filter keep hc)

/-- A solver that solves LPs with a feasible point does not end the process while cuts valid for it are
applied. -/
theorem applyAll_done {keep : RowCut → Bool} (hI : Coherent I) (hR : RowLaws I keep) {x : Vec}
    (hS : SolvesAt I x) {cs : List RowCut} {s : σ} (hs : SatRows x (I.rows s)) (hc : SatRows x cs) :
    ∃ s', applyAll I cs (some s) = .ok s' ∧ I.isOptimal s' = true := by
  unfold applyAll applyCutsCustom applyCutsFrom
  dsimp only
  have en : (if (if (-1 : ℤ) ≥ 0 then (-1 : ℤ) else (cs.length : ℤ)) ≥ 0 then
      (if (-1 : ℤ) ≥ 0 then (-1 : ℤ) else (cs.length : ℤ)) else (cs.length : ℤ)) = cs.length := by
    rw [if_neg (by omega : ¬ (-1 : ℤ) ≥ 0), if_pos (by omega)]
  rw [en]
  have h0 : ∃ s0, (if (!I.isOptimal s) = true then recheck I (I.resolve s) else .ok s) = .ok s0 ∧
      I.isOptimal s0 = true ∧ SatRows x (I.rows s0) := by
    by_cases ho : I.isOptimal s = true
    · rw [ho]; exact ⟨s, rfl, ho, hs⟩
    · have ho' : I.isOptimal s = false := by simpa using ho
      rw [ho']
      obtain ⟨s0, e⟩ := recheck_ok I hI (I.resolve s)
      refine ⟨s0, by simpa using e, hS _ _ (by rw [resolve_rows I hR]; exact hs) e, ?_⟩
      rw [recheck_rows I hR _ _ e, resolve_rows I hR]; exact hs
  obtain ⟨s0, e0, o0, q0⟩ := h0
  rw [e0]
  simp only [Res.bind, o0, Bool.not_true, Bool.false_eq_true, if_false]
  generalize (if isNegInfinity (-dblMax) = true then I.objValue s0 else -dblMax) = cmp
  obtain ⟨t, ht, hrow⟩ := addCuts_spec I hR cs 0 cs.length (by omega) s0
  rw [show ((0 : ℕ) : ℤ) = 0 from rfl] at ht
  rw [ht]
  have hreq : requested keep cs 0 cs.length = cs.filter keep := by simp [requested]
  have qt : SatRows x (I.rows t) := by
    rw [hrow, hreq]; exact satRows_append q0 (satRows_filter keep hc)
  simp only [Res.bind]
  unfold afterCuts
  set t1 := (if I.isOptimal t = true then I.resolve t else I.initialSolve t) with ht1
  have qt1 : SatRows x (I.rows t1) := by
    rw [ht1]
    split
    · rw [resolve_rows I hR]; exact qt
    · rw [initialSolve_rows I hR]; exact qt
  obtain ⟨u, hu⟩ := recheck_ok I hI t1
  have ou := hS _ _ qt1 hu
  have qu : SatRows x (I.rows u) := by rw [recheck_rows I hR _ _ hu]; exact qt1
  rw [hu]
  simp only [Res.bind, ou, Bool.not_true, Bool.false_and, Bool.false_eq_true, if_false, Bool.true_and]
  by_cases hlt : (decide (I.objValue u < cmp)) = true
  · obtain ⟨u', hu'⟩ := recheck_ok I hI (I.resolve u)
    rw [if_pos hlt, hu']
    exact ⟨u', rfl, hS _ _ (by rw [resolve_rows I hR]; exact qu) hu'⟩
  · rw [if_neg hlt]
    exact ⟨u, rfl, ou⟩

/-! ## One round -/

theorem gomoryRound_admits {keep : RowCut → Bool} (hR : RowLaws I keep) {x : Vec} {gomory : ℤ} {w : BWorld σ}
    (hw : ∀ s, SatRows x (I.rows s) → SatRows x (w.gomoryCuts s)) {l l' : Lps σ} {o : Option ℚ}
    {cs : List RowCut} (hl : LpsAdmit I x l) (h : gomoryRound I gomory w l = .ok (l', o, cs)) :
    LpsAdmit I x l' ∧ SatRows x cs := by
  unfold gomoryRound at h
  split at h
  · obtain ⟨⟨l1, v⟩, e, h⟩ := Res.bind_ok h
    cases h
    have hc := hw _ hl.solver
    refine ⟨?_, hc⟩
    unfold gomoryPart at e
    obtain ⟨g, e1, e⟩ := Res.bind_ok e
    obtain ⟨s, e2, e⟩ := Res.bind_ok e
    obtain ⟨a, e3, e⟩ := Res.bind_ok e
    cases e
    have some_of : ∀ {p : Option σ} {q : σ}, applyAll I (w.gomoryCuts l.solver) p = .ok q → ∃ z, p = some z := by
      intro p q hp
      cases p with
      | none => simp [applyAll, applyCutsCustom, applyCutsFrom, Res.bind] at hp
      | some z => exact ⟨z, rfl⟩
    obtain ⟨zg, eg⟩ := some_of e1
    obtain ⟨za, ea⟩ := some_of e3
    rw [eg] at e1
    rw [ea] at e3
    refine ⟨?_, ?_, hl.vpc, ?_⟩
    · dsimp only
      split at e2
      · exact applyAll_admits I hR hl.solver hc e2
      · cases e2; exact hl.solver
    · intro z hz
      cases hz
      exact applyAll_admits I hR (hl.gmic _ eg) hc e1
    · intro z hz
      cases hz
      exact applyAll_admits I hR (hl.all _ ea) hc e3
  · cases h
    exact ⟨hl, by intro c hc; simp at hc⟩

theorem vpcApply_admits {keep : RowCut → Bool} (hR : RowLaws I keep) {x : Vec} {gomory : ℤ} {cs : List RowCut}
    (hc : SatRows x cs) {l l' : Lps σ} (hl : LpsAdmit I x l) (h : vpcApply I gomory cs l = .ok l') :
    LpsAdmit I x l' := by
  have some_of : ∀ {p : Option σ} {q : σ}, applyAll I cs p = .ok q → ∃ z, p = some z := by
    intro p q hp
    cases p with
    | none => simp [applyAll, applyCutsCustom, applyCutsFrom, Res.bind] at hp
    | some z => exact ⟨z, rfl⟩
  unfold vpcApply at h
  split at h
  · split at h
    · obtain ⟨v, e1, h⟩ := Res.bind_ok h
      obtain ⟨s, e2, h⟩ := Res.bind_ok h
      obtain ⟨a, e3, h⟩ := Res.bind_ok h
      cases h
      obtain ⟨zv, ev⟩ := some_of e1
      obtain ⟨za, ea⟩ := some_of e3
      rw [ev] at e1
      rw [ea] at e3
      refine ⟨applyAll_admits I hR hl.solver hc e2, hl.gmic, ?_, ?_⟩
      · intro z hz; cases hz; exact applyAll_admits I hR (hl.vpc _ ev) hc e1
      · intro z hz; cases hz; exact applyAll_admits I hR (hl.all _ ea) hc e3
    · obtain ⟨s, e2, h⟩ := Res.bind_ok h
      cases h
      exact ⟨applyAll_admits I hR hl.solver hc e2, hl.gmic, hl.vpc, hl.all⟩
  · cases h; exact hl

/-- What holds after every round. -/
structure RoundsInv (x : Vec) (b : BState σ) : Prop where
  lps : LpsAdmit I x b.lps
  gmics : SatRows x b.gmics
  vpcs : SatRows x b.vpcs

theorem boundRound_admits {keep : RowCut → Bool} (hR : RowLaws I keep) {x : Vec} {gomory : ℤ} {w : BWorld σ}
    (hg : ∀ s, SatRows x (I.rows s) → SatRows x (w.gomoryCuts s))
    (hd : ∀ s, SatRows x (I.rows s) → SatRows x (w.disjCuts s)) {b b' : BState σ} (hb : RoundsInv I x b)
    (h : boundRound I gomory w b = .ok b') : RoundsInv I x b' := by
  unfold boundRound at h
  obtain ⟨⟨l1, o, cs⟩, e1, h⟩ := Res.bind_ok h
  obtain ⟨l2, e2, h⟩ := Res.bind_ok h
  obtain ⟨va, e3, h⟩ := Res.bind_ok h
  cases h
  obtain ⟨h1, h2⟩ := gomoryRound_admits I hR hg hb.lps e1
  have hc := hd _ h1.solver
  exact ⟨vpcApply_admits I hR hc h1 e2, satRows_append hb.gmics h2, satRows_append hb.vpcs hc⟩

theorem boundLoop_admits {keep : RowCut → Bool} (hR : RowLaws I keep) {x : Vec} {gomory : ℤ}
    {w : ℕ → BWorld σ} (hw : SoundRounds I w x) :
    ∀ (k r : ℕ) (b b' : BState σ), RoundsInv I x b → boundLoop I gomory w k r b = .ok b' → RoundsInv I x b'
  | 0, r, b, b', hb, h => by
    unfold boundLoop at h; cases h; exact hb
  | k + 1, r, b, b', hb, h => by
    unfold boundLoop at h
    obtain ⟨b1, e1, h⟩ := Res.bind_ok h
    have h1 := boundRound_admits I hR (hw.gomory r) (hw.disj r) hb e1
    split at h
    · cases h; exact h1
    · exact boundLoop_admits hR hw k (r + 1) b1 b' h1 h

theorem startLps_admits {x : Vec} (gomory : ℤ) {s : σ} (hx : SatRows x (I.rows s)) :
    LpsAdmit I x (startLps gomory s) := by
  unfold startLps
  split
  · exact ⟨hx, fun _ e => (by cases e; exact hx), fun _ e => (by cases e; exact hx), fun _ e => (by cases e; exact hx)⟩
  · exact ⟨hx, fun _ e => (by cases e), fun _ e => (by cases e), fun _ e => (by cases e)⟩

/-- **C145.** For every solver, also one that hits limits or reports nonsense, every GOMORY, every number of rounds
and every solution `x` of the relaxation given: if in each round the cuts generated for an LP that admits `x`
admit `x`, then after all rounds `x` satisfies all cuts collected, is in the LP cuts are generated for and in
each of the LPs given to the final analysis. -/
theorem rounds_keep_solutions {keep : RowCut → Bool} (hR : RowLaws I keep) {x : Vec} (gomory : ℤ)
    {w : ℕ → BWorld σ} (hw : SoundRounds I w x) (rounds : ℕ) (s : σ) (hx : SatRows x (I.rows s)) (b : BState σ)
    (h : boundRun I gomory w rounds s = .ok b) :
    SatRows x b.gmics ∧ SatRows x b.vpcs ∧ SatRows x (I.rows b.lps.solver) ∧
      (∀ t, (analysed gomory b.lps).1 = some t → SatRows x (I.rows t)) ∧
      (∀ t, (analysed gomory b.lps).2.1 = some t → SatRows x (I.rows t)) ∧
      (∀ t, (analysed gomory b.lps).2.2 = some t → SatRows x (I.rows t)) := by
  have inv := boundLoop_admits I hR hw rounds 0 _ b
    ⟨startLps_admits I gomory hx, by intro c hc; simp at hc, by intro c hc; simp at hc⟩ h
  refine ⟨inv.gmics, inv.vpcs, inv.lps.solver, ?_, ?_, ?_⟩ <;> intro t ht <;> unfold analysed at ht <;>
    dsimp only at ht <;> split at ht
  · cases ht
  · exact inv.lps.gmic t ht
  · cases ht; exact inv.lps.solver
  · exact inv.lps.vpc t ht
  · cases ht; exact inv.lps.solver
  · exact inv.lps.all t ht

/-! ## The bounds -/

/-- One round with a solver that solves what has a solution: it ends, everything stays optimal, the new bounds are
below the value of the solution. -/
theorem boundRound_done {keep : RowCut → Bool} (hI : Coherent I) (hR : RowLaws I keep) {x : Vec} {v : ℚ}
    (hS : SolvesAt I x) (hT : TrueOptimum I x v) {gomory : ℤ} (hgo : gomory = -1 ∨ gomory = 0 ∨ gomory = 1)
    {w : BWorld σ} (hg : ∀ s, SatRows x (I.rows s) → SatRows x (w.gomoryCuts s))
    (hd : ∀ s, SatRows x (I.rows s) → SatRows x (w.disjCuts s)) {b : BState σ} (hb : RoundsInv I x b)
    (ho : LpsOptimal I b.lps)
    (hp : gomory ≠ 0 → (∃ s, b.lps.gmic = some s) ∧ (∃ s, b.lps.vpc = some s) ∧ ∃ s, b.lps.all = some s) :
    ∃ b', boundRound I gomory w b = .ok b' ∧ LpsOptimal I b'.lps ∧
      (gomory ≠ 0 → (∃ s, b'.lps.gmic = some s) ∧ (∃ s, b'.lps.vpc = some s) ∧ ∃ s, b'.lps.all = some s) ∧
      b'.bound.Below gomory v ∧
      ∃ p : ℚ × BoundVals, b'.byRound = b.byRound ++ [p] ∧ p.1 ≤ v ∧ p.2.Below gomory v := by
  -- the Gomory part
  have h1 : ∃ l1 o cs, gomoryRound I gomory w b.lps = .ok (l1, o, cs) ∧ LpsOptimal I l1 ∧
      (gomory ≠ 0 → (∃ s, l1.gmic = some s) ∧ (∃ s, l1.vpc = some s) ∧ ∃ s, l1.all = some s) ∧
      (gomory ≠ 0 → ∃ q, o = some q ∧ q ≤ v) := by
    unfold gomoryRound
    by_cases h0 : gomory = 0
    · rw [if_neg (by omega)]
      exact ⟨_, _, _, rfl, ho, hp, fun e => absurd h0 e⟩
    · rw [if_pos (by omega)]
      obtain ⟨⟨sg, eg⟩, ⟨sv, ev⟩, ⟨sa, ea⟩⟩ := hp h0
      have hc := hg _ hb.lps.solver
      unfold gomoryPart
      rw [eg, ea]
      obtain ⟨g, e1, og⟩ := applyAll_done I hI hR hS (hb.lps.gmic _ eg) hc
      obtain ⟨a, e3, oa⟩ := applyAll_done I hI hR hS (hb.lps.all _ ea) hc
      have h2 : ∃ s, (if gomory > 0 then applyAll I (w.gomoryCuts b.lps.solver) (some b.lps.solver)
          else .ok b.lps.solver) = .ok s ∧ I.isOptimal s = true := by
        split
        · exact applyAll_done I hI hR hS hb.lps.solver hc
        · exact ⟨_, rfl, ho.solver⟩
      obtain ⟨s, e2, os⟩ := h2
      rw [e1]
      simp only [Res.bind]
      rw [e2]
      simp only [Res.bind]
      rw [e3]
      simp only [Res.bind]
      refine ⟨_, _, _, rfl, ⟨os, ?_, ho.vpc, ?_⟩, fun _ => ⟨⟨g, rfl⟩, ⟨sv, ev⟩, ⟨a, rfl⟩⟩, fun _ => ⟨_, rfl, ?_⟩⟩
      · intro z hz; cases hz; exact og
      · intro z hz; cases hz; exact oa
      · exact hT g og (applyAll_admits I hR (hb.lps.gmic _ eg) hc e1)
  obtain ⟨l1, o, cs, e1, o1, p1, q1⟩ := h1
  obtain ⟨a1, a2⟩ := gomoryRound_admits I hR hg hb.lps e1
  have hc := hd _ a1.solver
  -- the disjunctive cuts
  have h2 : ∃ l2, vpcApply I gomory (w.disjCuts l1.solver) l1 = .ok l2 ∧ LpsOptimal I l2 ∧
      (gomory ≠ 0 → (∃ s, l2.gmic = some s) ∧ (∃ s, l2.vpc = some s) ∧ ∃ s, l2.all = some s) := by
    unfold vpcApply
    split
    · obtain ⟨s, e, os⟩ := applyAll_done I hI hR hS a1.solver hc
      split
      · rename_i h0
        obtain ⟨⟨sg, eg⟩, ⟨sv, ev⟩, ⟨sa, ea⟩⟩ := p1 h0
        obtain ⟨z, ez, oz⟩ := applyAll_done I hI hR hS (a1.vpc _ ev) hc
        obtain ⟨a, e3, oa⟩ := applyAll_done I hI hR hS (a1.all _ ea) hc
        rw [ev, ea, ez]
        simp only [Res.bind]
        rw [e]
        simp only [Res.bind]
        rw [e3]
        refine ⟨_, rfl, ⟨os, o1.gmic, ?_, ?_⟩, fun _ => ⟨⟨sg, eg⟩, ⟨z, rfl⟩, ⟨a, rfl⟩⟩⟩
        · intro y hy; cases hy; exact oz
        · intro y hy; cases hy; exact oa
      · rename_i h0
        rw [e]
        exact ⟨_, rfl, ⟨os, o1.gmic, o1.vpc, o1.all⟩, fun e => absurd e h0⟩
    · exact ⟨l1, rfl, o1, p1⟩
  obtain ⟨l2, e2, o2, p2⟩ := h2
  have a3 := vpcApply_admits I hR hc a1 e2
  have h3 : ∃ va : ℚ × ℚ, roundVals I gomory l2 = .ok va ∧ va.1 ≤ v ∧ va.2 ≤ v := by
    unfold roundVals
    split
    · rename_i h0
      obtain ⟨-, ⟨sv, ev⟩, ⟨sa, ea⟩⟩ := p2 h0
      rw [ev, ea]
      exact ⟨_, rfl, hT sv (o2.vpc _ ev) (a3.vpc _ ev), hT sa (o2.all _ ea) (a3.all _ ea)⟩
    · exact ⟨_, rfl, hT _ o2.solver a3.solver, hT _ o2.solver a3.solver⟩
  obtain ⟨va, e3, va1, va2⟩ := h3
  have hnew : ∀ old : BoundVals, (newBound old o va).Below gomory v := by
    intro old
    refine ⟨va1, va2, va2, fun h0 => ?_⟩
    obtain ⟨q, rfl, hq⟩ := q1 h0
    exact hq
  unfold boundRound
  rw [e1]
  simp only [Res.bind]
  rw [e2]
  simp only [Res.bind]
  rw [e3]
  simp only [Res.bind]
  exact ⟨_, rfl, o2, p2, hnew _, _, rfl, hT _ ho.solver hb.lps.solver, hnew {}⟩

theorem boundLoop_done {keep : RowCut → Bool} (hI : Coherent I) (hR : RowLaws I keep) {x : Vec} {v : ℚ}
    (hS : SolvesAt I x) (hT : TrueOptimum I x v) {gomory : ℤ} (hgo : gomory = -1 ∨ gomory = 0 ∨ gomory = 1)
    {w : ℕ → BWorld σ} (hw : SoundRounds I w x) :
    ∀ (k r : ℕ) (b : BState σ), RoundsInv I x b → LpsOptimal I b.lps →
      (gomory ≠ 0 → (∃ s, b.lps.gmic = some s) ∧ (∃ s, b.lps.vpc = some s) ∧ ∃ s, b.lps.all = some s) →
      (0 < b.byRound.length → b.bound.Below gomory v) →
      (∀ p ∈ b.byRound, p.1 ≤ v ∧ p.2.Below gomory v) →
      ∃ b', boundLoop I gomory w k r b = .ok b' ∧ LpsOptimal I b'.lps ∧
        (0 < b'.byRound.length → b'.bound.Below gomory v) ∧
        (0 < k → b.byRound.length < b'.byRound.length) ∧ b.byRound.length ≤ b'.byRound.length ∧
        (∀ p ∈ b'.byRound, p.1 ≤ v ∧ p.2.Below gomory v)
  | 0, r, b, hb, ho, hp, h1, h2 => ⟨b, rfl, ho, h1, by simp, le_refl _, h2⟩
  | k + 1, r, b, hb, ho, hp, h1, h2 => by
    obtain ⟨b1, e1, o1, p1, n1, p, ep, hp1, hp2⟩ :=
      boundRound_done I hI hR hS hT hgo (hw.gomory r) (hw.disj r) hb ho hp
    have i1 := boundRound_admits I hR (hw.gomory r) (hw.disj r) hb e1
    have hall : ∀ q ∈ b1.byRound, q.1 ≤ v ∧ q.2.Below gomory v := by
      intro q hq
      rw [ep] at hq
      rcases List.mem_append.1 hq with hq | hq
      · exact h2 q hq
      · rw [List.mem_singleton.1 hq]; exact ⟨hp1, hp2⟩
    have hlen : b1.byRound.length = b.byRound.length + 1 := by rw [ep]; simp
    unfold boundLoop
    rw [e1]
    simp only [Res.bind]
    split
    · exact ⟨b1, rfl, o1, fun _ => n1, fun _ => by omega, by omega, hall⟩
    · obtain ⟨b', e', c1, c2, c3, c4, c5⟩ := boundLoop_done hI hR hS hT hgo hw k (r + 1) b1 i1 o1 p1 (fun _ => n1) hall
      exact ⟨b', e', c1, c2, fun _ => by omega, by omega, c5⟩

/-- **C145.** Let the solver solve every LP that has the solution `x` as a feasible point, and let its value for an LP
solved be at most that of a feasible point. Then, however many rounds are asked for, the program is not stopped
by an LP it takes to be infeasible, and all bounds it reports — of each round and at the end, for the
disjunctive cuts, for all cuts and, if there are any, for Gomory cuts, and the value with which each round
starts — are at most the objective value of `x`. -/
theorem rounds_bounds_valid {keep : RowCut → Bool} (hI : Coherent I) (hR : RowLaws I keep) {x : Vec} {v : ℚ}
    (hS : SolvesAt I x) (hT : TrueOptimum I x v) (gomory : ℤ) (hgo : gomory = -1 ∨ gomory = 0 ∨ gomory = 1)
    {w : ℕ → BWorld σ} (hw : SoundRounds I w x) (rounds : ℕ) (s : σ) (hs : I.isOptimal s = true)
    (hx : SatRows x (I.rows s)) :
    ∃ b, boundRun I gomory w rounds s = .ok b ∧ (0 < rounds → b.byRound ≠ []) ∧
      (0 < rounds → b.bound.Below gomory v) ∧ ∀ p ∈ b.byRound, p.1 ≤ v ∧ p.2.Below gomory v := by
  have hadm := startLps_admits I gomory hx
  have hopt : LpsOptimal I (startLps gomory s) := by
    unfold startLps
    split
    · exact ⟨hs, fun _ e => (by cases e; exact hs), fun _ e => (by cases e; exact hs), fun _ e => (by cases e; exact hs)⟩
    · exact ⟨hs, fun _ e => (by cases e), fun _ e => (by cases e), fun _ e => (by cases e)⟩
  obtain ⟨b, e, -, h2, h3, -, h4⟩ := boundLoop_done I hI hR hS hT hgo hw rounds 0
    { lps := startLps gomory s } ⟨hadm, by intro c hc; simp at hc, by intro c hc; simp at hc⟩ hopt
    (by intro h0; simp [startLps, h0]) (by simp) (by simp)
  refine ⟨b, e, ?_, ?_, h4⟩
  · intro hr hn
    have := h3 hr
    rw [hn] at this
    simp at this
  · intro hr
    exact h2 (by have := h3 hr; simp at this; omega)

/-- Rows are never lost by a round. -/
theorem boundRound_grows {keep : RowCut → Bool} (hR : RowLaws I keep) {gomory : ℤ} {w : BWorld σ} {b b' : BState σ}
    (h : boundRound I gomory w b = .ok b') : I.rows b.lps.solver ⊆ I.rows b'.lps.solver := by
  have key : ∀ {cs : List RowCut} {s s' : σ}, applyAll I cs (some s) = .ok s' → I.rows s ⊆ I.rows s' := by
    intro cs s s' h
    rcases applyAll_rows I hR cs s s' h with e | e <;> rw [e]
    · exact fun _ hc => hc
    · exact List.subset_append_left _ _
  unfold boundRound at h
  obtain ⟨⟨l1, o, cs⟩, e1, h⟩ := Res.bind_ok h
  obtain ⟨l2, e2, h⟩ := Res.bind_ok h
  obtain ⟨va, e3, h⟩ := Res.bind_ok h
  cases h
  have h1 : I.rows b.lps.solver ⊆ I.rows l1.solver := by
    unfold gomoryRound at e1
    split at e1
    · obtain ⟨⟨l', v⟩, e, e1⟩ := Res.bind_ok e1
      cases e1
      unfold gomoryPart at e
      obtain ⟨g, x1, e⟩ := Res.bind_ok e
      obtain ⟨s, x2, e⟩ := Res.bind_ok e
      obtain ⟨a, x3, e⟩ := Res.bind_ok e
      cases e
      dsimp only
      split at x2
      · exact key x2
      · cases x2; exact fun _ hc => hc
    · cases e1; exact fun _ hc => hc
  have h2 : I.rows l1.solver ⊆ I.rows l2.solver := by
    unfold vpcApply at e2
    split at e2
    · split at e2
      · obtain ⟨v, x1, e⟩ := Res.bind_ok e2
        obtain ⟨s, x2, e⟩ := Res.bind_ok e
        obtain ⟨a, x3, e⟩ := Res.bind_ok e
        cases e
        exact key x2
      · obtain ⟨s, x2, e⟩ := Res.bind_ok e2
        cases e
        exact key x2
    · cases e2; exact fun _ hc => hc
  exact fun c hc => h2 (h1 hc)

theorem boundLoop_grows {keep : RowCut → Bool} (hR : RowLaws I keep) {gomory : ℤ} {w : ℕ → BWorld σ} :
    ∀ (k r : ℕ) (b b' : BState σ), boundLoop I gomory w k r b = .ok b' → I.rows b.lps.solver ⊆ I.rows b'.lps.solver
  | 0, r, b, b', h => by
    unfold boundLoop at h; cases h; exact fun _ hc => hc
  | k + 1, r, b, b', h => by
    unfold boundLoop at h
    obtain ⟨b1, e1, h⟩ := Res.bind_ok h
    have h1 := boundRound_grows I hR e1
    split at h
    · cases h; exact h1
    · exact fun c hc => boundLoop_grows hR k (r + 1) b1 b' h (h1 hc)

/-- **C145.** For every set `X` of points (the integer points), every objective and every value `v`: `v` is the optimal
value over the points of `X` in the relaxation exactly if it is over those in the LP with all the cuts in use, when
the cuts of each round are sound for the points of `X`. -/
theorem rounds_keep_optimum {keep : RowCut → Bool} (hR : RowLaws I keep) (X : Set Vec) (obj : Vec → ℚ) (gomory : ℤ)
    {w : ℕ → BWorld σ} (hw : ∀ x ∈ X, SoundRounds I w x) (rounds : ℕ) (s : σ) (b : BState σ)
    (h : boundRun I gomory w rounds s = .ok b) (v : ℚ) :
    IsLeast (obj '' {x | x ∈ X ∧ SatRows x (I.rows s)}) v ↔
      IsLeast (obj '' {x | x ∈ X ∧ SatRows x (I.rows b.lps.solver)}) v := by
  have hgrow : I.rows s ⊆ I.rows b.lps.solver := by
    have := boundLoop_grows I hR rounds 0 _ b h
    have e : (startLps gomory s).solver = s := by unfold startLps; split <;> rfl
    rwa [e] at this
  have : {x | x ∈ X ∧ SatRows x (I.rows s)} = {x | x ∈ X ∧ SatRows x (I.rows b.lps.solver)} := by
    ext x
    constructor
    · rintro ⟨h1, h2⟩
      exact ⟨h1, (rounds_keep_solutions I hR gomory (hw x h1) rounds s h2 b h).2.2.1⟩
    · rintro ⟨h1, h2⟩
      exact ⟨h1, fun c hc => h2 c (hgrow hc)⟩
  rw [this]

/-! ## A concrete run, and what goes wrong at a limit -/

/-- Rounds for the example: the Gomory cut x₀ ≥ 1 in every round, the disjunctive cut x₀ ≥ value of the LP + 1, but
at most 3. -/
def cappedWorld : ℕ → BWorld (List RowCut) := fun r =>
  { gomoryCuts := fun _ => [⟨[(0, 1)], 1⟩]
    disjCuts := fun s => [⟨[(0, 1)], min (lineVal s + 1) 3⟩]
    last := decide (3 ≤ r) }

/-- The point x₀ = 3. -/
def pointThree : Vec := fun _ => 3

theorem cappedWorld_sound : SoundRounds freeSolver cappedWorld pointThree where
  gomory r s _ c hc := by
    simp only [cappedWorld, List.mem_singleton] at hc
    subst hc
    norm_num [RowCut.Sat, sdot, pointThree]
  disj r s _ c hc := by
    simp only [cappedWorld, List.mem_singleton] at hc
    subst hc
    simp [RowCut.Sat, sdot, pointThree]

/-- Every LP whose rows are of the form x₀ ≥ … has a value of at most that of a feasible point; the rows of the toy solver
are of that form here. -/
theorem lineVal_le {x : Vec} (hx : 0 ≤ x 0) : ∀ l : List RowCut, (∀ c ∈ l, c.row = [(0, 1)]) → SatRows x l →
    lineVal l ≤ x 0
  | [], _, _ => hx
  | c :: l, hf, hs => by
    refine max_le ?_ (lineVal_le hx l (fun d hd => hf d (by simp [hd])) (fun d hd => hs d (by simp [hd])))
    have := hs c (by simp)
    unfold RowCut.Sat at this
    rw [hf c (by simp)] at this
    simpa [sdot] using this

/-- The toy solver for LPs with rows of that form; it reports 0, a bound, for others. -/
def formSolver : SolverImpl (List RowCut) :=
  { freeSolver with objValue := fun s => if s.all (fun c => decide (c.row = [(0, 1)])) then lineVal s else 0 }

theorem formSolver_coherent : Coherent formSolver := by
  constructor <;> intro s h <;> rfl

theorem formSolver_rows : RowLaws formSolver (fun _ => true) where
  stable r := ⟨fun _ h => h, fun _ h => h, fun _ h => h, fun _ _ h => h, fun _ h => h, fun _ h => h,
    fun _ h => h, fun _ h => h⟩
  applyRowCuts _ _ := rfl
  applyCuts l s := by simp [formSolver, freeSolver, lineSolver]
  restoreBase _ _ := rfl

theorem formSolver_true : TrueOptimum formSolver pointThree 3 := by
  intro s _ hs
  show (if _ then _ else _ : ℚ) ≤ 3
  split
  · rename_i h
    exact lineVal_le (x := pointThree) (by norm_num [pointThree]) s (fun c hc => by
      simpa using (List.all_eq_true.1 h) c hc) hs
  · norm_num

/-- Four rounds that meet the hypotheses of `rounds_keep_solutions`, `rounds_bounds_valid`: the bounds rise to 3, the value of the
solution, and stay there. -/
example : Coherent formSolver ∧ RowLaws formSolver (fun _ => true) ∧ SolvesAt formSolver pointThree ∧
    TrueOptimum formSolver pointThree 3 ∧ SoundRounds formSolver cappedWorld pointThree ∧
    formSolver.isOptimal [] = true ∧ SatRows pointThree (formSolver.rows []) ∧
    (boundRun formSolver (-1) cappedWorld 9 []).bind (fun b => .ok (b.bound, b.byRound.map (·.1),
      b.byRound.map (·.2.gmic), b.byRound.map (·.2.vpc))) =
      .ok (⟨1, 3, 3, 3⟩, [0, 1, 2, 3], [1, 1, 1, 1], [1, 2, 3, 3]) :=
  ⟨formSolver_coherent, formSolver_rows, fun _ _ _ _ => rfl, formSolver_true,
    ⟨cappedWorld_sound.gomory, cappedWorld_sound.disj⟩, rfl, (by intro c hc; simp [formSolver, freeSolver, lineSolver] at hc),
    by decide +kernel⟩

/-- A solver that reaches the time limit when there is one row, and then has an objective value that is no bound
(as the primal simplex method has before it is done). -/
def lateSolver : SolverImpl (List RowCut) :=
  { formSolver with
    isOptimal := fun s => decide (s.length ≠ 1)
    hitTime := fun s => decide (s.length = 1)
    objValue := fun s => if s.length = 1 then 100 else lineVal s }

/-- **C145 (negation).** If the time limit is hit while an LP with cuts is solved, its value at that moment is reported
as bound, of the round and at the end: here 100 although the solution x₀ = 3, not cut off, has value 3, and the solver is truthful
about all LPs it says it solved. -/
theorem bound_at_limit_invalid : SoundRounds lateSolver cappedWorld pointThree ∧
    (boundRun lateSolver 0 cappedWorld 4 []).bind (fun b => .ok (b.bound.vpc, b.bound.all,
      b.byRound.map (·.2.vpc), b.vpcs.map (·.lb))) = .ok (100, 100, [100], [1]) :=
  ⟨⟨cappedWorld_sound.gomory, cappedWorld_sound.disj⟩, by decide +kernel⟩

/-- **C145 (negation).** Without Gomory cuts (GOMORY = 0) the bound reported for them is larger than the value of the solution. -/
theorem gmic_bound_not_below : ∃ b, boundRun formSolver 0 cappedWorld 4 [] = .ok b ∧ (3 : ℚ) < b.bound.gmic := by
  obtain ⟨b, e, -, -, -⟩ := rounds_bounds_valid formSolver formSolver_coherent formSolver_rows
    (x := pointThree) (v := 3) (fun _ _ _ _ => rfl) formSolver_true 0 (by simp)
    (w := cappedWorld) ⟨cappedWorld_sound.gomory, cappedWorld_sound.disj⟩ 4 [] rfl
    (by intro c hc; simp [formSolver, freeSolver, lineSolver] at hc)
  refine ⟨b, e, ?_⟩
  rw [(gmic_bound_without_gmics formSolver cappedWorld 4 [] b e).1]
  decide +kernel

end VPC
