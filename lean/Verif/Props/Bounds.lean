import Verif.Model.Bounds
import Verif.Props.SolverOps

/-!
# C111: the bounds reported are those of the LPs with the cuts named
-/
namespace VPC

variable {σ : Type} (I : SolverImpl σ)

/-- No limit is hit, and an LP solved to optimality is still optimal after solving it again. -/
structure Dependable : Prop where
  time : ∀ s, I.hitTime s = false
  iter : ∀ s, I.isIterLimit s = false
  again : ∀ s s', I.isOptimal s = true → recheck I (I.resolve s) = .ok s' → I.isOptimal s' = true

/-- Applying a collection to an optimal LP that does not end the process: the cuts are in, the LP is
optimal again. -/
theorem applyAll_ok {keep : RowCut → Bool} (hI : Coherent I) (hR : RowLaws I keep) (hD : Dependable I)
    (cs : List RowCut) (s s' : σ) (hs : I.isOptimal s = true) (h : applyAll I cs (some s) = .ok s') :
    I.isOptimal s' = true ∧ I.rows s' = I.rows s ++ cs.filter keep := by
  unfold applyAll at h
  obtain ⟨⟨v, s2⟩, h1, h2⟩ := Res.bind_ok h
  cases h2
  unfold applyCutsCustom applyCutsFrom at h1
  dsimp only at h1
  have en : (if (if (-1 : ℤ) ≥ 0 then (-1 : ℤ) else (cs.length : ℤ)) ≥ 0 then
      (if (-1 : ℤ) ≥ 0 then (-1 : ℤ) else (cs.length : ℤ)) else (cs.length : ℤ)) = cs.length := by
    rw [if_neg (by omega : ¬ (-1 : ℤ) ≥ 0), if_pos (by omega)]
  rw [en] at h1
  simp only [hs, Bool.not_true, Bool.false_eq_true, if_false] at h1
  obtain ⟨s0, h0, h1⟩ := Res.bind_ok h1
  cases h0
  simp only [hs, Bool.not_true, Bool.false_eq_true, if_false] at h1
  generalize (if isNegInfinity (-dblMax) = true then I.objValue s else -dblMax) = cmp at h1
  obtain ⟨t, ht, h1⟩ := Res.bind_ok h1
  obtain ⟨t', ht', hrow⟩ := addCuts_spec I hR cs 0 cs.length (by omega) s
  rw [show ((0 : ℕ) : ℤ) = 0 from rfl] at ht'
  rw [ht] at ht'
  cases ht'
  have hreq : requested keep cs 0 cs.length = cs.filter keep := by simp [requested]
  rw [hreq] at hrow
  unfold afterCuts at h1
  obtain ⟨u, hu, h1⟩ := Res.bind_ok h1
  have ru := recheck_rows I hR _ _ hu
  have ru' : I.rows u = I.rows t := by
    rw [ru]
    split
    · exact (hR.stable (I.rows t)).resolve _ rfl
    · exact (hR.stable (I.rows t)).initialSolve _ rfl
  simp only [hD.time, hD.iter, Bool.not_false, Bool.and_true, Bool.not_eq_true'] at h1
  split at h1
  · cases h1
  · rename_i hou
    simp only [Bool.not_eq_false] at hou
    obtain ⟨x, hx, h1⟩ := Res.bind_ok h1
    cases h1
    split at hx
    · refine ⟨hD.again u _ hou hx, ?_⟩
      rw [recheck_rows I hR _ _ hx, (hR.stable (I.rows u)).resolve _ rfl, ru', hrow]
    · cases hx
      exact ⟨hou, by rw [ru', hrow]⟩

/-! ## Specification -/

/-- The cuts of the rounds in the order in which they are found: in each round first the Gomory cuts,
then the disjunctive cuts. -/
def interleave (G V : List (List RowCut)) : List RowCut := (List.zipWith (· ++ ·) G V).flatten

/-- The bounds that should be reported when the Gomory cuts of the rounds are `G` and the disjunctive
cuts `V`: values of the LP with the rows `base` and these cuts. `val` gives the value of an LP from its
rows, `keep` says which cuts the solver accepts. -/
def wantedBounds (val : List RowCut → ℚ) (keep : RowCut → Bool) (base : List RowCut) (gomory : ℤ)
    (G V : List (List RowCut)) : BoundVals where
  gmic := if gomory ≠ 0 then val (base ++ G.flatten.filter keep) else dblMax
  vpc := val (base ++ V.flatten.filter keep)
  gmicVpc := val (base ++ (interleave G V).filter keep)
  all := val (base ++ (interleave G V).filter keep)

/-- The cuts in the LP for which cuts are generated: all of them if GOMORY is 1, only disjunctive cuts
otherwise. -/
def inUse (gomory : ℤ) (G V : List (List RowCut)) : List RowCut :=
  if gomory = 1 then interleave G V else V.flatten

/-! ## Proof -/

/-- An LP holds exactly the given rows and is optimal. -/
def Holds (rows : List RowCut) (s : σ) : Prop := I.isOptimal s = true ∧ I.rows s = rows

/-- State after rounds with Gomory cuts `G` and disjunctive cuts `V`. -/
structure BInv (val : List RowCut → ℚ) (keep : RowCut → Bool) (base : List RowCut) (gomory : ℤ)
    (G V : List (List RowCut)) (b : BState σ) : Prop where
  len : V.length = G.length
  noG : gomory = 0 → ∀ g ∈ G, g = []
  solver : Holds I (base ++ (inUse gomory G V).filter keep) b.lps.solver
  gmic : gomory ≠ 0 → ∃ s, b.lps.gmic = some s ∧ Holds I (base ++ G.flatten.filter keep) s
  vpc : gomory ≠ 0 → ∃ s, b.lps.vpc = some s ∧ Holds I (base ++ V.flatten.filter keep) s
  all : gomory ≠ 0 → ∃ s, b.lps.all = some s ∧ Holds I (base ++ (interleave G V).filter keep) s
  gs : b.gmics = G.flatten
  vs : b.vpcs = V.flatten
  count : b.byRound.length = G.length
  rounds : ∀ i p, b.byRound[i]? = some p →
    p = (val (base ++ (inUse gomory (G.take i) (V.take i)).filter keep),
      wantedBounds val keep base gomory (G.take (i + 1)) (V.take (i + 1)))
  bound : b.bound = if G = [] then {} else wantedBounds val keep base gomory G V

theorem interleave_snoc (G V : List (List RowCut)) (g v : List RowCut) (h : V.length = G.length) :
    interleave (G ++ [g]) (V ++ [v]) = interleave G V ++ (g ++ v) := by
  unfold interleave
  rw [List.zipWith_append (by omega)]
  simp

theorem interleave_noG : ∀ (G V : List (List RowCut)), V.length = G.length → (∀ g ∈ G, g = []) →
    interleave G V = V.flatten
  | [], [], _, _ => rfl
  | g :: G, v :: V, h, hg => by
    have : interleave (g :: G) (v :: V) = (g ++ v) ++ interleave G V := by simp [interleave]
    rw [this, interleave_noG G V (by simpa using h) (fun x hx => hg x (by simp [hx])), hg g (by simp)]
    simp

theorem gomoryPart_ok {keep : RowCut → Bool} (hI : Coherent I) (hR : RowLaws I keep) (hD : Dependable I)
    {gomory : ℤ} {cs : List RowCut} {l l' : Lps σ} {v : ℚ} {r0 r1 r2 : List RowCut} {sg sa : σ}
    (h0 : Holds I r0 l.solver) (hg : l.gmic = some sg) (h1 : Holds I r1 sg) (ha : l.all = some sa)
    (h2 : Holds I r2 sa) (h : gomoryPart I gomory cs l = .ok (l', v)) :
    ∃ sg' sa', Holds I (r0 ++ if gomory > 0 then cs.filter keep else []) l'.solver ∧
      l'.gmic = some sg' ∧ Holds I (r1 ++ cs.filter keep) sg' ∧ l'.all = some sa' ∧
      Holds I (r2 ++ cs.filter keep) sa' ∧ l'.vpc = l.vpc ∧ v = I.objValue sg' := by
  unfold gomoryPart at h
  rw [hg, ha] at h
  obtain ⟨g, e1, h⟩ := Res.bind_ok h
  obtain ⟨s, e2, h⟩ := Res.bind_ok h
  obtain ⟨a, e3, h⟩ := Res.bind_ok h
  cases h
  obtain ⟨g1, g2⟩ := applyAll_ok I hI hR hD cs sg g h1.1 e1
  obtain ⟨a1, a2⟩ := applyAll_ok I hI hR hD cs sa a h2.1 e3
  refine ⟨g, a, ?_, rfl, ⟨g1, by rw [g2, h1.2]⟩, rfl, ⟨a1, by rw [a2, h2.2]⟩, rfl, rfl⟩
  split at e2
  · rename_i hp
    obtain ⟨s1, s2⟩ := applyAll_ok I hI hR hD cs l.solver s h0.1 e2
    exact ⟨s1, by rw [s2, h0.2, if_pos hp]⟩
  · rename_i hp
    cases e2
    exact ⟨h0.1, by rw [h0.2, if_neg hp, List.append_nil]⟩

theorem vpcApply_ok {keep : RowCut → Bool} (hI : Coherent I) (hR : RowLaws I keep) (hD : Dependable I)
    {gomory : ℤ} {cs : List RowCut} {l l' : Lps σ} {r0 r1 r2 : List RowCut}
    (h0 : Holds I r0 l.solver) (h1 : gomory ≠ 0 → ∃ s, l.vpc = some s ∧ Holds I r1 s)
    (h2 : gomory ≠ 0 → ∃ s, l.all = some s ∧ Holds I r2 s) (h : vpcApply I gomory cs l = .ok l') :
    Holds I (r0 ++ cs.filter keep) l'.solver ∧
      (gomory ≠ 0 → ∃ s, l'.vpc = some s ∧ Holds I (r1 ++ cs.filter keep) s) ∧
      (gomory ≠ 0 → ∃ s, l'.all = some s ∧ Holds I (r2 ++ cs.filter keep) s) ∧ l'.gmic = l.gmic := by
  unfold vpcApply at h
  split at h
  · split at h
    · rename_i hg
      obtain ⟨sv, ev, hv⟩ := h1 hg
      obtain ⟨sa, ea, ha⟩ := h2 hg
      rw [ev, ea] at h
      obtain ⟨v, e1, h⟩ := Res.bind_ok h
      obtain ⟨s, e2, h⟩ := Res.bind_ok h
      obtain ⟨a, e3, h⟩ := Res.bind_ok h
      cases h
      obtain ⟨v1, v2⟩ := applyAll_ok I hI hR hD cs sv v hv.1 e1
      obtain ⟨s1, s2⟩ := applyAll_ok I hI hR hD cs l.solver s h0.1 e2
      obtain ⟨a1, a2⟩ := applyAll_ok I hI hR hD cs sa a ha.1 e3
      exact ⟨⟨s1, by rw [s2, h0.2]⟩, fun _ => ⟨v, rfl, v1, by rw [v2, hv.2]⟩,
        fun _ => ⟨a, rfl, a1, by rw [a2, ha.2]⟩, rfl⟩
    · rename_i hg
      obtain ⟨s, e2, h⟩ := Res.bind_ok h
      cases h
      obtain ⟨s1, s2⟩ := applyAll_ok I hI hR hD cs l.solver s h0.1 e2
      exact ⟨⟨s1, by rw [s2, h0.2]⟩, fun e => absurd e hg, fun e => absurd e hg, rfl⟩
  · rename_i hc
    cases h
    have : cs = [] := List.length_eq_zero_iff.1 (by omega)
    subst this
    simpa using ⟨h0, h1, h2⟩

/-- One round keeps the invariant; the cuts added to the lists are those generated for the LP in use. -/
theorem boundRound_inv {val : List RowCut → ℚ} {keep : RowCut → Bool} (hI : Coherent I)
    (hR : RowLaws I keep) (hD : Dependable I) (hval : ∀ s, I.isOptimal s = true → I.objValue s = val (I.rows s))
    {base : List RowCut} {gomory : ℤ} (hg : gomory = -1 ∨ gomory = 0 ∨ gomory = 1)
    {G V : List (List RowCut)} {b b' : BState σ} (inv : BInv I val keep base gomory G V b) (w : BWorld σ)
    (h : boundRound I gomory w b = .ok b') :
    ∃ s1 s2, Holds I (base ++ (inUse gomory G V).filter keep) s1 ∧
      let g := if gomory ≠ 0 then w.gomoryCuts s1 else []
      Holds I (base ++ (inUse gomory G V).filter keep ++ if gomory = 1 then g.filter keep else []) s2 ∧
      BInv I val keep base gomory (G ++ [g]) (V ++ [w.disjCuts s2]) b' := by
  unfold boundRound at h
  obtain ⟨⟨l1, go, gc⟩, e1, h⟩ := Res.bind_ok h
  obtain ⟨l2, e2, h⟩ := Res.bind_ok h
  obtain ⟨va, e3, h⟩ := Res.bind_ok h
  refine ⟨b.lps.solver, l1.solver, inv.solver, ?_⟩
  dsimp only
  -- after the Gomory part
  have st1 : gc = (if gomory ≠ 0 then w.gomoryCuts b.lps.solver else []) ∧
      Holds I (base ++ (inUse gomory G V).filter keep ++ if gomory = 1 then gc.filter keep else [])
        l1.solver ∧
      (gomory ≠ 0 → ∃ s, l1.gmic = some s ∧ Holds I (base ++ G.flatten.filter keep ++ gc.filter keep) s ∧
        go = some (I.objValue s)) ∧
      (gomory ≠ 0 → ∃ s, l1.vpc = some s ∧ Holds I (base ++ V.flatten.filter keep) s) ∧
      (gomory ≠ 0 → ∃ s, l1.all = some s ∧
        Holds I (base ++ (interleave G V).filter keep ++ gc.filter keep) s) ∧
      (gomory = 0 → go = none) := by
    unfold gomoryRound at e1
    by_cases h0 : gomory = 0
    · rw [if_neg (by omega)] at e1
      cases e1
      refine ⟨by simp [h0], ?_, fun e => absurd h0 e, fun e => absurd h0 e, fun e => absurd h0 e, fun _ => rfl⟩
      rw [if_neg (by omega), List.append_nil]
      exact inv.solver
    · rw [if_pos (by omega)] at e1
      obtain ⟨⟨l', v⟩, e4, e1⟩ := Res.bind_ok e1
      cases e1
      obtain ⟨sg, eg, hsg⟩ := inv.gmic h0
      obtain ⟨sa, ea, hsa⟩ := inv.all h0
      obtain ⟨sg', sa', k1, k2, k3, k4, k5, k6, k7⟩ :=
        gomoryPart_ok I hI hR hD inv.solver eg hsg ea hsa e4
      refine ⟨by simp [h0], ?_, fun _ => ⟨sg', k2, k3, by rw [k7]⟩, ?_, fun _ => ⟨sa', k4, k5⟩,
        fun e => absurd e h0⟩
      · have : (gomory > 0) = (gomory = 1) := by apply propext; omega
        simpa only [this] using k1
      · intro _
        obtain ⟨sv, ev, hv⟩ := inv.vpc h0
        exact ⟨sv, by rw [k6, ev], hv⟩
  obtain ⟨q1, q2, q3, q4, q5, q6⟩ := st1
  rw [← q1]
  refine ⟨q2, ?_⟩
  obtain ⟨p1, p2, p3, p4⟩ := vpcApply_ok I hI hR hD q2 q4 q5 e2
  cases h
  have hint := interleave_snoc G V gc (w.disjCuts l1.solver) inv.len
  have hgc0 : gomory = 0 → gc = [] := by intro e; rw [q1]; simp [e]
  have hva : va = (val (base ++ (V ++ [w.disjCuts l1.solver]).flatten.filter keep),
      val (base ++ (interleave (G ++ [gc]) (V ++ [w.disjCuts l1.solver])).filter keep)) := by
    unfold roundVals at e3
    split at e3
    · rename_i h0
      obtain ⟨sv, ev, hv⟩ := p2 h0
      obtain ⟨sa, ea, ha⟩ := p3 h0
      rw [ev, ea] at e3
      simp only [objOf, Res.bind] at e3
      cases e3
      rw [hval sv hv.1, hval sa ha.1, hv.2, ha.2, hint]
      simp
    · rename_i h0
      simp only [ne_eq, not_not] at h0
      cases e3
      rw [hval _ p1.1, p1.2, hint, interleave_noG G V inv.len (inv.noG h0)]
      have hu : inUse gomory G V = V.flatten := by unfold inUse; rw [if_neg (by omega)]
      rw [hu, hgc0 h0, if_neg (by omega)]
      simp
  have hnew : newBound b.bound go va = wantedBounds val keep base gomory (G ++ [gc])
      (V ++ [w.disjCuts l1.solver]) ∧ newRoundBound go va = wantedBounds val keep base gomory (G ++ [gc])
      (V ++ [w.disjCuts l1.solver]) := by
    rw [hva]
    by_cases h0 : gomory = 0
    · have hgo := q6 h0
      subst hgo
      have hb : b.bound.gmic = dblMax := by
        rw [inv.bound]
        split
        · rfl
        · simp [wantedBounds, h0]
      simp only [newBound, newRoundBound, wantedBounds, Option.getD_none, hb, h0, ne_eq, not_true, if_false,
        and_self]
    · obtain ⟨sg, eg, hsg, hgo⟩ := q3 h0
      subst hgo
      simp only [newBound, newRoundBound, wantedBounds, Option.getD_some, h0, ne_eq, not_false_eq_true, if_true,
        and_self]
      rw [hval _ hsg.1, hsg.2]
      simp
  refine ⟨by simp [inv.len], ?_, ?_, ?_, ?_, ?_, by simp [inv.gs], by simp [inv.vs], by simp [inv.count], ?_, ?_⟩
  · intro h0 g hg'
    rcases List.mem_append.1 hg' with h1 | h1
    · exact inv.noG h0 g h1
    · rw [List.mem_singleton.1 h1]; exact hgc0 h0
  · refine ⟨p1.1, ?_⟩
    dsimp only
    rw [p1.2]
    unfold inUse
    by_cases h1 : gomory = 1
    · simp only [h1, if_true, hint, List.filter_append, List.append_assoc]
    · simp [h1]
  · intro h0
    obtain ⟨s, e, hs, -⟩ := q3 h0
    refine ⟨s, by rw [p4, e], hs.1, ?_⟩
    rw [hs.2]; simp
  · intro h0
    obtain ⟨s, e, hs⟩ := p2 h0
    refine ⟨s, e, hs.1, ?_⟩
    rw [hs.2]; simp
  · intro h0
    obtain ⟨s, e, hs⟩ := p3 h0
    refine ⟨s, e, hs.1, ?_⟩
    rw [hs.2, hint]; simp
  · intro i p hp
    by_cases hi : i < G.length
    · rw [List.getElem?_append_left (by rw [inv.count]; exact hi)] at hp
      have := inv.rounds i p hp
      rw [List.take_append_of_le_length (by omega), List.take_append_of_le_length (by have := inv.len; omega),
        List.take_append_of_le_length (by omega), List.take_append_of_le_length (by have := inv.len; omega)]
      exact this
    · have hlt : i < (b.byRound ++ [(I.objValue b.lps.solver, newRoundBound go va)]).length :=
        (List.getElem?_eq_some_iff.1 hp).1
      have hi2 : i = G.length := by simp [inv.count] at hlt; omega
      subst hi2
      rw [List.getElem?_append_right (by rw [inv.count])] at hp
      simp only [inv.count, Nat.sub_self, List.getElem?_cons_zero, Option.some.injEq] at hp
      subst hp
      have t1 : (G ++ [gc]).take G.length = G := by simp
      have t2 : (V ++ [w.disjCuts l1.solver]).take G.length = V := by rw [← inv.len]; simp
      have t3 : (G ++ [gc]).take (G.length + 1) = G ++ [gc] := by simp
      have t4 : (V ++ [w.disjCuts l1.solver]).take (G.length + 1) = V ++ [w.disjCuts l1.solver] := by
        rw [← inv.len]; simp
      rw [t1, t2, t3, t4, hnew.2, hval _ inv.solver.1, inv.solver.2]
  · dsimp only
    rw [if_neg (by simp)]
    exact hnew.1

/-- The rounds say for which LP each cut was generated. -/
def GeneratedFor (keep : RowCut → Bool) (base : List RowCut) (gomory : ℤ) (w : ℕ → BWorld σ)
    (G V : List (List RowCut)) (i : ℕ) : Prop :=
  ∃ s1 s2, Holds I (base ++ (inUse gomory (G.take i) (V.take i)).filter keep) s1 ∧
    G[i]? = some (if gomory ≠ 0 then (w i).gomoryCuts s1 else []) ∧
    Holds I (base ++ (inUse gomory (G.take i) (V.take i)).filter keep ++
      if gomory = 1 then (G[i]?.getD []).filter keep else []) s2 ∧
    V[i]? = some ((w i).disjCuts s2)

theorem boundLoop_inv {val : List RowCut → ℚ} {keep : RowCut → Bool} (hI : Coherent I)
    (hR : RowLaws I keep) (hD : Dependable I) (hval : ∀ s, I.isOptimal s = true → I.objValue s = val (I.rows s))
    {base : List RowCut} {gomory : ℤ} (hg : gomory = -1 ∨ gomory = 0 ∨ gomory = 1) (w : ℕ → BWorld σ) :
    ∀ (k : ℕ) (G V : List (List RowCut)) (b b' : BState σ), BInv I val keep base gomory G V b →
      (∀ i < G.length, GeneratedFor I keep base gomory w G V i) →
      boundLoop I gomory w k G.length b = .ok b' →
      ∃ G' V', BInv I val keep base gomory G' V' b' ∧ (∀ i < G'.length, GeneratedFor I keep base gomory w G' V' i) ∧
        G'.length ≤ G.length + k ∧ (0 < k → G.length < G'.length)
  | 0, G, V, b, b', inv, hf, h => by
    unfold boundLoop at h
    cases h
    exact ⟨G, V, inv, hf, by omega, by simp⟩
  | k + 1, G, V, b, b', inv, hf, h => by
    unfold boundLoop at h
    obtain ⟨b1, e1, h⟩ := Res.bind_ok h
    obtain ⟨s1, s2, a1, a2, a3⟩ := boundRound_inv I hI hR hD hval hg inv (w G.length) e1
    set g := (if gomory ≠ 0 then (w G.length).gomoryCuts s1 else []) with hgdef
    have hf' : ∀ i < (G ++ [g]).length,
        GeneratedFor I keep base gomory w (G ++ [g]) (V ++ [(w G.length).disjCuts s2]) i := by
      intro i hi
      by_cases hlt : i < G.length
      · obtain ⟨x1, x2, y1, y2, y3, y4⟩ := hf i hlt
        have hlv : i < V.length := by have := inv.len; omega
        refine ⟨x1, x2, ?_, ?_, ?_, ?_⟩
        · rw [List.take_append_of_le_length (by omega), List.take_append_of_le_length (by omega)]
          exact y1
        · rw [List.getElem?_append_left hlt]; exact y2
        · rw [List.take_append_of_le_length (by omega), List.take_append_of_le_length (by omega),
            List.getElem?_append_left hlt]
          exact y3
        · rw [List.getElem?_append_left hlv]; exact y4
      · have hi2 : i = G.length := by simp at hi; omega
        subst hi2
        have t2 : (V ++ [(w G.length).disjCuts s2]).take G.length = V := by rw [← inv.len]; simp
        refine ⟨s1, s2, ?_, by simp [hgdef], ?_, ?_⟩
        · rw [t2]; simpa using a1
        · rw [t2]; simpa using a2
        · rw [← inv.len]; simp
    split at h
    · cases h
      exact ⟨_, _, a3, hf', by simp, by simp⟩
    · obtain ⟨G', V', c1, c2, c3, c4⟩ := boundLoop_inv hI hR hD hval hg w k (G ++ [g])
        (V ++ [(w G.length).disjCuts s2]) b1 b' a3 hf' (by simpa using h)
      refine ⟨G', V', c1, c2, by simp at c3; omega, fun _ => ?_⟩
      rcases Nat.eq_zero_or_pos k with hk | hk
      · subst hk
        unfold boundLoop at h
        cases h
        have := c1.count
        have h2 := a3.count
        simp at h2
        omega
      · have := c4 hk
        simp at this
        omega

/-- **C111.** For every solver that is dependable and truthful, every value of GOMORY, every way the
cuts are generated and every number of rounds: if the rounds are completed, there are lists `G` and `V` of the
Gomory and disjunctive cuts of each round performed such that
* the bounds reported after round `i`, in total and by round, are the values of the LP with exactly the Gomory cuts
  so far, exactly the disjunctive cuts so far, and exactly all cuts so far; the initial value of a round is
  that of the LP in use;
* the Gomory cuts of round `i` were generated for the LP in use (with all the cuts so far if GOMORY is 1,
  with the disjunctive ones otherwise), the disjunctive cuts for this LP with the new Gomory cuts
  added if GOMORY is 1;
* the LPs given to the final analysis hold exactly the Gomory cuts, the disjunctive cuts, all cuts. -/
theorem reported_bounds {val : List RowCut → ℚ} {keep : RowCut → Bool} (hI : Coherent I)
    (hR : RowLaws I keep) (hD : Dependable I) (hval : ∀ s, I.isOptimal s = true → I.objValue s = val (I.rows s))
    (gomory : ℤ) (hg : gomory = -1 ∨ gomory = 0 ∨ gomory = 1) (w : ℕ → BWorld σ) (rounds : ℕ) (s : σ)
    (hs : I.isOptimal s = true) (b : BState σ) (h : boundRun I gomory w rounds s = .ok b) :
    ∃ G V : List (List RowCut), V.length = G.length ∧ G.length ≤ rounds ∧ (0 < rounds → 0 < G.length) ∧
      b.gmics = G.flatten ∧ b.vpcs = V.flatten ∧ (gomory = 0 → b.gmics = []) ∧
      b.byRound.length = G.length ∧
      (∀ i p, b.byRound[i]? = some p →
        p.1 = val (I.rows s ++ (inUse gomory (G.take i) (V.take i)).filter keep) ∧
        p.2 = wantedBounds val keep (I.rows s) gomory (G.take (i + 1)) (V.take (i + 1))) ∧
      (0 < rounds → b.bound = wantedBounds val keep (I.rows s) gomory G V) ∧
      (∀ i < G.length, GeneratedFor I keep (I.rows s) gomory w G V i) ∧
      (∃ x, (analysed gomory b.lps).2.1 = some x ∧ I.rows x = I.rows s ++ V.flatten.filter keep) ∧
      (∃ x, (analysed gomory b.lps).2.2 = some x ∧ I.rows x = I.rows s ++ (interleave G V).filter keep) ∧
      (gomory ≠ 0 → ∃ x, (analysed gomory b.lps).1 = some x ∧ I.rows x = I.rows s ++ G.flatten.filter keep) := by
  have hinit : BInv I val keep (I.rows s) gomory [] [] { lps := startLps gomory s } := by
    have hh : Holds I (I.rows s ++ ([] : List RowCut)) s := ⟨hs, by simp⟩
    refine ⟨rfl, by simp, ?_, ?_, ?_, ?_, rfl, rfl, rfl, by simp, rfl⟩
    · have : (startLps gomory s).solver = s := by unfold startLps; split <;> rfl
      simp only [this]
      simpa [inUse, interleave] using hh
    all_goals
      intro h0
      refine ⟨s, by simp [startLps, h0], by simpa [interleave] using hh⟩
  unfold boundRun at h
  obtain ⟨G, V, inv, hf, h1, h2⟩ := boundLoop_inv I hI hR hD hval hg w rounds [] [] _ b hinit (by simp) h
  refine ⟨G, V, inv.len, by simpa using h1, by simpa using h2, inv.gs, inv.vs, ?_, inv.count, ?_, ?_, hf, ?_, ?_, ?_⟩
  · intro h0
    rw [inv.gs]
    exact List.flatten_eq_nil_iff.2 (inv.noG h0)
  · intro i p hp
    have := inv.rounds i p hp
    rw [this]
    exact ⟨rfl, rfl⟩
  · intro hr
    rw [inv.bound, if_neg]
    intro e
    have := h2 hr
    simp [e] at this
  · unfold analysed
    dsimp only
    by_cases h0 : gomory ≤ 0
    · rw [if_pos h0]
      refine ⟨_, rfl, ?_⟩
      rw [inv.solver.2]
      unfold inUse
      rw [if_neg (by omega)]
    · rw [if_neg h0]
      obtain ⟨x, e, hx⟩ := inv.vpc (by omega)
      exact ⟨x, e, hx.2⟩
  · unfold analysed
    dsimp only
    by_cases h0 : gomory ≥ 0
    · rw [if_pos h0]
      refine ⟨_, rfl, ?_⟩
      rw [inv.solver.2]
      unfold inUse
      by_cases h1 : gomory = 1
      · rw [if_pos h1]
      · rw [if_neg h1, interleave_noG G V inv.len (inv.noG (by omega))]
    · rw [if_neg h0]
      obtain ⟨x, e, hx⟩ := inv.all (by omega)
      exact ⟨x, e, hx.2⟩
  · intro h0
    unfold analysed
    dsimp only
    rw [if_neg h0]
    obtain ⟨x, e, hx⟩ := inv.gmic h0
    exact ⟨x, e, hx.2⟩

/-- **C111.** If adding rows cannot lower the value of an LP, the bounds get no worse from round to
round, are not worse than that of the LP relaxation, and all cuts together are not worse than either kind
alone. -/
theorem bounds_monotone {val : List RowCut → ℚ} (hmono : ∀ l l', l ⊆ l' → val l ≤ val l')
    (keep : RowCut → Bool) (base : List RowCut) (gomory : ℤ) (G V : List (List RowCut))
    (hl : V.length = G.length) (i j : ℕ) (hij : i ≤ j) :
    let a := wantedBounds val keep base gomory (G.take i) (V.take i)
    let b := wantedBounds val keep base gomory (G.take j) (V.take j)
    a.gmic ≤ b.gmic ∧ a.vpc ≤ b.vpc ∧ a.all ≤ b.all ∧ val base ≤ a.vpc ∧ a.vpc ≤ a.all ∧
      (gomory ≠ 0 → val base ≤ a.gmic ∧ a.gmic ≤ a.all) := by
  have hsub : ∀ (L : List (List RowCut)), (L.take i).flatten ⊆ (L.take j).flatten := by
    intro L x hx
    obtain ⟨l, hl, hx⟩ := List.mem_flatten.1 hx
    have : L.take i <+: L.take j := List.take_prefix_take_left hij
    exact List.mem_flatten.2 ⟨l, this.subset hl, hx⟩
  have key : ∀ l l' : List RowCut, l ⊆ l' → val (base ++ l.filter keep) ≤ val (base ++ l'.filter keep) := by
    intro l l' h
    apply hmono
    intro x hx
    rcases List.mem_append.1 hx with hx | hx
    · exact List.mem_append.2 (Or.inl hx)
    · rw [List.mem_filter] at hx
      exact List.mem_append.2 (Or.inr (List.mem_filter.2 ⟨h hx.1, hx.2⟩))
  have base_le : ∀ l : List RowCut, val base ≤ val (base ++ l.filter keep) :=
    fun l => hmono _ _ (List.subset_append_left _ _)
  have hzip : ∀ k, List.zipWith (· ++ ·) (G.take k) (V.take k) = (List.zipWith (· ++ ·) G V).take k := by
    intro k; rw [List.take_zipWith]
  have hV : ∀ k, (V.take k).flatten ⊆ interleave (G.take k) (V.take k) := by
    intro k x hx
    obtain ⟨l, hl', hx⟩ := List.mem_flatten.1 hx
    obtain ⟨n, hn⟩ := List.getElem?_of_mem hl'
    have hnlt := (List.getElem?_eq_some_iff.1 hn).1
    have hgl : n < (G.take k).length := by simp only [List.length_take] at hnlt ⊢; omega
    refine List.mem_flatten.2 ⟨(G.take k)[n] ++ l, ?_, by simp [hx]⟩
    apply List.mem_of_getElem? (i := n)
    rw [List.getElem?_zipWith_eq_some]
    exact ⟨_, _, List.getElem?_eq_getElem hgl, hn, rfl⟩
  have hG : ∀ k, (G.take k).flatten ⊆ interleave (G.take k) (V.take k) := by
    intro k x hx
    obtain ⟨l, hl', hx⟩ := List.mem_flatten.1 hx
    obtain ⟨n, hn⟩ := List.getElem?_of_mem hl'
    have hnlt := (List.getElem?_eq_some_iff.1 hn).1
    have hvl : n < (V.take k).length := by simp only [List.length_take] at hnlt ⊢; omega
    refine List.mem_flatten.2 ⟨l ++ (V.take k)[n], ?_, by simp [hx]⟩
    apply List.mem_of_getElem? (i := n)
    rw [List.getElem?_zipWith_eq_some]
    exact ⟨_, _, hn, List.getElem?_eq_getElem hvl, rfl⟩
  refine ⟨?_, key _ _ (hsub V), ?_, base_le _, key _ _ (hV i), fun h0 => ?_⟩
  · simp only [wantedBounds]
    split
    · exact key _ _ (hsub G)
    · exact le_refl _
  · simp only [wantedBounds, interleave]
    apply key
    rw [hzip, hzip]
    exact hsub _
  · simp only [wantedBounds, if_pos h0]
    exact ⟨base_le _, key _ _ (hG i)⟩

/-! ## A concrete run, and what goes wrong otherwise -/

/-- Value of a toy LP in one variable: the largest right-hand side, at least 0. -/
def lineVal (rows : List RowCut) : ℚ := rows.foldr (fun c v => max c.lb v) 0

/-- A toy solver whose state is the list of rows and the number of rows at which it last hit the time
limit; `lim` is the number of rows that make it hit the limit. -/
def lineSolver (lim : ℕ) : SolverImpl (List RowCut) where
  isClp := true
  isOptimal s := decide (s.length ≠ lim)
  isPrimalInf _ := false
  isDualInf _ := false
  isIterLimit _ := false
  hitTime s := decide (s.length = lim)
  objValue s := lineVal s
  secondary _ := 0
  sumPrimal _ := 0
  sumDual _ := 0
  timed := id
  resolve := id
  initialSolve := id
  cleanup _ := id
  dualValuesPass := id
  setStatus2 := id
  enableFact := id
  disableFact := id
  marked _ := true
  markHot := id
  unmarkHot := id
  solveHot := id
  colLower _ _ := 0
  colUpper _ _ := 0
  setColLower _ _ := id
  setColUpper _ _ := id
  rows := id
  applyCuts l s := s ++ l
  applyRowCuts l s := s ++ l
  restoreBase n s := s.take n

/-- The same with no limit at all. -/
def freeSolver : SolverImpl (List RowCut) :=
  { lineSolver 0 with isOptimal := fun _ => true, hitTime := fun _ => false }

theorem freeSolver_coherent : Coherent freeSolver := by
  constructor <;> intro s h <;> rfl

theorem freeSolver_rows : RowLaws freeSolver (fun _ => true) where
  stable r := ⟨fun _ h => h, fun _ h => h, fun _ h => h, fun _ _ h => h, fun _ h => h, fun _ h => h,
    fun _ h => h, fun _ h => h⟩
  applyRowCuts _ _ := rfl
  applyCuts l s := by simp [freeSolver, lineSolver]
  restoreBase _ _ := rfl

theorem freeSolver_dependable : Dependable freeSolver := ⟨fun _ => rfl, fun _ => rfl, fun _ _ _ _ => rfl⟩

theorem lineVal_mono : ∀ l l' : List RowCut, l ⊆ l' → lineVal l ≤ lineVal l' := by
  have h0 : ∀ l : List RowCut, 0 ≤ lineVal l := by
    intro l
    induction l with
    | nil => exact le_refl _
    | cons c l ih => exact le_trans ih (le_max_right _ _)
  have hm : ∀ (l : List RowCut), ∀ c ∈ l, c.lb ≤ lineVal l := by
    intro l
    induction l with
    | nil => simp
    | cons d l ih =>
      intro c hc
      rcases List.mem_cons.1 hc with rfl | hc
      · exact le_max_left _ _
      · exact le_trans (ih c hc) (le_max_right _ _)
  intro l l' h
  induction l with
  | nil => exact h0 l'
  | cons c l ih =>
    refine max_le (hm l' c (h (by simp))) (ih (fun x hx => h (by simp [hx])))

/-- Rounds for the example: in round `r` the Gomory cut x ≥ 2r + 1 and the disjunctive cut x ≥ 3r + 2
above the value of the LP. -/
def lineWorld : ℕ → BWorld (List RowCut) := fun r =>
  { gomoryCuts := fun s => [⟨[(0, 1)], lineVal s + 1⟩]
    disjCuts := fun s => [⟨[(0, 1)], lineVal s + 2⟩]
    last := decide (2 ≤ r) }

/-- A run of three rounds that meets the hypotheses of `reported_bounds`, with GOMORY = −1: the Gomory cuts
are generated for the LP with disjunctive cuts only. -/
example : Coherent freeSolver ∧ RowLaws freeSolver (fun _ => true) ∧ Dependable freeSolver ∧
    (∀ s, freeSolver.isOptimal s = true → freeSolver.objValue s = lineVal (freeSolver.rows s)) ∧
    (boundRun freeSolver (-1) lineWorld 5 []).bind (fun b => .ok (b.bound, b.byRound.map (·.1),
      b.byRound.map (·.2.gmic), b.byRound.map (·.2.vpc))) =
      .ok (⟨5, 6, 6, 6⟩, [0, 2, 4], [1, 3, 5], [2, 4, 6]) :=
  ⟨freeSolver_coherent, freeSolver_rows, freeSolver_dependable, fun _ _ => rfl, by decide +kernel⟩

/-- With GOMORY = 1 the disjunctive cuts are generated for the LP with the Gomory cuts. -/
example : (boundRun freeSolver 1 lineWorld 5 []).bind (fun b => .ok (b.bound, b.byRound.map (·.1),
      b.byRound.map (·.2.gmic), b.byRound.map (·.2.vpc))) =
      .ok (⟨7, 9, 9, 9⟩, [0, 3, 6], [1, 4, 7], [3, 6, 9]) := by decide +kernel

/-- **C111 (negation).** If GOMORY is 0 the bound reported for Gomory cuts is infinite in every round, as if
they had shown that there is no solution, although there were none. -/
theorem gmic_bound_without_gmics (w : ℕ → BWorld σ) (rounds : ℕ) (s : σ) (b : BState σ)
    (h : boundRun I 0 w rounds s = .ok b) : b.bound.gmic = dblMax ∧ ∀ p ∈ b.byRound, p.2.gmic = dblMax := by
  have key : ∀ (k r : ℕ) (b b' : BState σ), b.bound.gmic = dblMax → (∀ p ∈ b.byRound, p.2.gmic = dblMax) →
      boundLoop I 0 w k r b = .ok b' → b'.bound.gmic = dblMax ∧ ∀ p ∈ b'.byRound, p.2.gmic = dblMax := by
    intro k
    induction k with
    | zero =>
      intro r b b' h1 h2 h
      unfold boundLoop at h
      cases h
      exact ⟨h1, h2⟩
    | succ k ih =>
      intro r b b' h1 h2 h
      unfold boundLoop at h
      obtain ⟨b1, e1, h⟩ := Res.bind_ok h
      have hb1 : b1.bound.gmic = dblMax ∧ ∀ p ∈ b1.byRound, p.2.gmic = dblMax := by
        unfold boundRound at e1
        obtain ⟨⟨l1, go, gc⟩, x1, e1⟩ := Res.bind_ok e1
        obtain ⟨l2, x2, e1⟩ := Res.bind_ok e1
        obtain ⟨va, x3, e1⟩ := Res.bind_ok e1
        unfold gomoryRound at x1
        rw [if_neg (by decide)] at x1
        cases x1
        cases e1
        refine ⟨by simpa [newBound] using h1, ?_⟩
        intro p hp
        rcases List.mem_append.1 hp with hp | hp
        · exact h2 p hp
        · rw [List.mem_singleton.1 hp]
          simp [newRoundBound, newBound]
      split at h
      · cases h; exact hb1
      · exact ih (r + 1) b1 b' hb1.1 hb1.2 h
  exact key rounds 0 _ b rfl (by simp) h

/-- **C111 (negation).** If no rounds are requested all bounds reported are infinite, although the LP has
a finite value. -/
theorem no_rounds_infinite (gomory : ℤ) (w : ℕ → BWorld σ) (s : σ) :
    ∃ b, boundRun I gomory w 0 s = .ok b ∧ b.bound = ⟨dblMax, dblMax, dblMax, dblMax⟩ :=
  ⟨_, rfl, rfl⟩

/-- **C111 (negation for a solver that hits a limit).** An LP that was left at a limit and still cannot be
solved gets no further cuts, but its value is reported: here the Gomory LP stops at its second
row (x ≥ 1 and x ≥ 3), and the bound reported for the Gomory cuts in round 3 is 3 although the
third cut is x ≥ 5. -/
theorem limit_loses_cuts : ∃ b, boundRun (lineSolver 2) (-1)
      (fun r => { gomoryCuts := fun _ => [⟨[(0, 1)], 2 * r + 1⟩]
                  disjCuts := fun _ => [⟨[(0, 1)], 0⟩, ⟨[(0, 1)], 0⟩, ⟨[(0, 1)], 0⟩]
                  last := false }) 3 [] = .ok b ∧
    lineVal b.gmics = 5 ∧ b.bound.gmic = 3 ∧ b.byRound.length = 3 := by
  refine ⟨(match boundRun (lineSolver 2) (-1)
      (fun r => { gomoryCuts := fun _ => [⟨[(0, 1)], 2 * r + 1⟩]
                  disjCuts := fun _ => [⟨[(0, 1)], 0⟩, ⟨[(0, 1)], 0⟩, ⟨[(0, 1)], 0⟩]
                  last := false }) 3 [] with
    | .ok b => b
    | _ => { lps := ⟨[], none, none, none⟩ }), ?_, ?_, ?_, ?_⟩
  · have hok : (boundRun (lineSolver 2) (-1)
      (fun r => { gomoryCuts := fun _ => [⟨[(0, 1)], 2 * r + 1⟩]
                  disjCuts := fun _ => [⟨[(0, 1)], 0⟩, ⟨[(0, 1)], 0⟩, ⟨[(0, 1)], 0⟩]
                  last := false }) 3 []).bind (fun _ => .ok ()) = .ok () := by decide +kernel
    obtain ⟨b, hb, -⟩ := Res.bind_ok hok
    rw [hb]
  · decide +kernel
  · decide +kernel
  · decide +kernel

end VPC
