import Verif.Props.BB

/-!
# Coverage and counting for the saved partial tree (C05, C34)
-/
namespace VPC

/-- `x` lies in an open branch of a node: in its bounds and, once the first branch has been taken,
outside of that branch. -/
def OpenAt (n : CNode) (x : Vec) : Prop :=
  InBnds n.lo n.hi x ∧ (n.branchIndex = 0 ∨ ¬ ({ n with branchIndex := 0 } : CNode).Branch x)

/-- `x` lies in an open branch of the tree. -/
def Open (s : BB) (x : Vec) : Prop := ∃ n ∈ s.tree, OpenAt n x

/-- What a statistics entry says about the branch it will take next. -/
def NStat.Branch (st : NStat) (x : Vec) : Prop :=
  (st.way = 1 ∧ st.lb ≤ x st.bvar) ∨ (st.way ≤ 0 ∧ x st.bvar ≤ st.ub)

/-- `x` lies in the region recorded for a dropped node. -/
def InPruned (s : BB) (x : Vec) : Prop :=
  ∃ q ∈ s.pruned, ∃ st cs, 0 ≤ q.parent ∧ s.stats[q.parent.toNat]? = some st ∧
    origChanges s.stats st.orig = some cs ∧ (∀ c ∈ cs, c.Sat x) ∧ st.Branch x

theorem nodeStat_branch (n : CNode) (id orig : ℕ) (par : ℤ) (cs : List BChange) (x : Vec) :
    (nodeStat n id orig par cs).Branch x ↔ n.Branch x := by
  unfold NStat.Branch CNode.Branch nodeStat CNode.way
  cases h : n.nextUp
  · cases h2 : n.osi <;> simp
  · simp

/-- Branching on an integral variable leaves no gap. -/
theorem branch_or (p : CNode) (h0 : p.branchIndex = 0) (x : Vec) {k : ℤ} (hx : x p.var = k)
    (h : ¬ p.Branch x) (m : ℕ) : ({ p with branchIndex := 1, number := m } : CNode).Branch x := by
  unfold CNode.Branch CNode.nextUp at *
  simp only [h0] at h
  rw [hx] at h ⊢
  have h1 : ((0 : ℕ) == 1) = false := rfl
  have h2 : ((1 : ℕ) == 1) = true := rfl
  rw [h1] at h
  simp only [h2]
  cases hu : p.firstUp
  · rw [hu] at h
    simp only [bne_self_eq_false, Bool.false_eq_true, if_false, not_le] at h
    simp only [show (false != true) = true from rfl, if_true]
    norm_cast at h ⊢
    exact Int.ceil_le_floor_add_one _ |>.trans (by omega)
  · rw [hu] at h
    simp only [show (true != false) = true from rfl, if_true, not_le] at h
    simp only [bne_self_eq_false, Bool.false_eq_true, if_false]
    norm_cast at h ⊢
    have := Int.ceil_le_floor_add_one p.value
    omega

theorem OpenAt.branch {n : CNode} {x : Vec} (h : OpenAt n x) (hi : n.branchIndex ≤ 1)
    (hint : ∃ k : ℤ, x n.var = k) (hnb : n.branchIndex = 0 → n.Branch x) : n.Branch x := by
  rcases h.2 with h0 | h0
  · exact hnb h0
  · obtain ⟨k, hk⟩ := hint
    by_cases h1 : n.branchIndex = 0
    · exact hnb h1
    · have h2 : n.branchIndex = 1 := by omega
      have := branch_or { n with branchIndex := 0 } rfl x hk h0 n.number
      have he : n = { n with branchIndex := 1 } := by cases n; simp_all
      rw [he]; exact this

theorem origChanges_mono {l m : List NStat} {o : ℕ} {cs : List BChange}
    (h : origChanges l o = some cs) : origChanges (l ++ m) o = some cs := by
  unfold origChanges at *
  split at h
  · rename_i h0; rw [if_pos h0]; exact h
  · rename_i h0
    rw [if_neg h0]
    cases hl : l[o]? with
    | none => rw [hl] at h; simp at h
    | some a => rw [hl] at h; rw [getElem?_append_some hl]; exact h

theorem InPruned.mono {s t : BB} {x : Vec} (h : InPruned s x)
    (hs : ∃ m, t.stats = s.stats ++ m) (hp : ∃ m, t.pruned = s.pruned ++ m) : InPruned t x := by
  obtain ⟨q, hq, st, cs, h1, h2, h3, h4, h5⟩ := h
  obtain ⟨m, hm⟩ := hs
  obtain ⟨m', hm'⟩ := hp
  refine ⟨q, by rw [hm']; simp [hq], st, cs, h1, ?_, ?_, h4, h5⟩
  · rw [hm]; exact getElem?_append_some h2
  · rw [hm]; exact origChanges_mono h3

/-- The recorded changes of a node hold for the points within its bounds. -/
theorem origChanges_sat {P : Relax} {root : NewNode} {s : BB} {n : CNode} (hinv : BBInv P root s)
    (hr : TighterBox root.lo root.hi P.lo P.hi) (hn : Synced s root n) :
    ∃ cs, origChanges s.stats n.first = some cs ∧
      ∀ x, InBnds n.lo n.hi x → ∀ c ∈ cs, c.Sat x := by
  obtain ⟨par, cs, ho, hc⟩ := hn.orig
  unfold origChanges
  by_cases h0 : n.first = 0
  · exact ⟨[], by rw [if_pos h0], fun x _ c hc => by simp at hc⟩
  · refine ⟨cs, by rw [if_neg h0, ho]; rfl, fun x hx => ?_⟩
    have := hc h0
    subst this
    apply changed_sat _ hx
    rw [hinv.oLo, hinv.oHi]
    exact finite_ref hr hn.fin

theorem parentAgain_open {P : Relax} {root : NewNode} {s s' : BB} {p : CNode} {rest : List CNode}
    (hinv : BBInv P root s) (h : parentAgain s p rest = .ok s') :
    (∃ m, s'.stats = s.stats ++ m) ∧ s'.pruned = s.pruned ∧
    (∀ n ∈ rest, n ∈ s'.tree) ∧
    (p.branchIndex = 0 → ({ p with branchIndex := 1, number := s.count2 } : CNode) ∈ s'.tree) := by
  rw [parentAgain_eq hinv] at h
  split at h
  · simp only [Res.ok.injEq] at h; subst h
    exact ⟨⟨_, rfl⟩, rfl, fun n hn => by simp [hn], fun _ => by simp⟩
  · rename_i h0
    simp only [Res.ok.injEq] at h; subst h
    exact ⟨⟨[], by simp⟩, rfl, fun n hn => hn, fun h => absurd h h0⟩

theorem mem_eraseIdx_of_ne {α : Type} {l : List α} {i : ℕ} {a p : α} (hp : l[i]? = some p)
    (ha : a ∈ l) : a = p ∨ a ∈ l.eraseIdx i := by
  induction l generalizing i with
  | nil => simp at ha
  | cons b l ih =>
    cases i with
    | zero =>
      simp only [List.getElem?_cons_zero, Option.some.injEq] at hp
      subst hp
      simp only [List.mem_cons] at ha
      rcases ha with rfl | ha
      · exact Or.inl rfl
      · exact Or.inr (by simpa using ha)
    | succ i =>
      simp only [List.getElem?_cons_succ] at hp
      simp only [List.mem_cons] at ha
      rcases ha with rfl | ha
      · exact Or.inr (by simp)
      · rcases ih hp ha with h | h
        · exact Or.inl h
        · exact Or.inr (by simp [h])

/-- One step: an open or recorded point stays open or recorded, unless it is lost. -/
theorem bbStep_cover {P : Relax} {root : NewNode} {s s' : BB} {e : BBStep} (keep : Bool)
    (hinv : BBInv P root s) (hr : TighterBox root.lo root.hi P.lo P.hi)
    (ht : ∀ n, e.out = .created n → FiniteWhere n.lo n.hi root.lo root.hi)
    (h : bbStep s e = .ok s') {x : Vec} (hint : ∀ n ∈ s.tree, ∃ k : ℤ, x n.var = k)
    (hx : Open s x ∨ (keep = true ∧ InPruned s x)) :
    LostAt keep s e x ∨ Open s' x ∨ (keep = true ∧ InPruned s' x) := by
  cases hp : s.tree[e.pick]? with
  | none => simp [bbStep, hp] at h
  | some p =>
    have hpm := List.mem_of_getElem? hp
    have hps := hinv.synced p hpm
    cases ho : e.out with
    | created n =>
      rw [bbStep_created hinv hp ho] at h
      obtain ⟨hinv1, _⟩ := midCreated_inv hinv hps (ht n ho)
      obtain ⟨⟨m, hm⟩, hpr, hrest, hagain⟩ := parentAgain_open hinv1 h
      rcases hx with ⟨n', hn', hop⟩ | ⟨hk, hx⟩
      · have hbox := hop.1
        have hbr := hop.2
        rcases mem_eraseIdx_of_ne hp hn' with rfl | hne
        · by_cases hb : n'.Branch x
          · by_cases hbn : InBnds n.lo n.hi x
            · exact Or.inr (Or.inl ⟨n.node s.count2 (some n'.first), hrest _ (by simp), hbn, Or.inl rfl⟩)
            · left
              refine ⟨n', hp, hbox, hb, ?_⟩
              rw [ho]; exact hbn
          · have h0 : n'.branchIndex = 0 := by
              by_contra h0
              exact hb (hop.branch hps.idx (hint n' hpm) (fun h => absurd h h0))
            refine Or.inr (Or.inl ⟨_, hagain h0, hbox, Or.inr ?_⟩)
            have he : ({ n' with branchIndex := 0 } : CNode) = n' := by cases n'; simp_all
            rw [← he] at hb; exact hb
        · exact Or.inr (Or.inl ⟨n', hrest _ (by simp [hne]), hbox, hbr⟩)
      · have he : ∃ m', s'.stats = s.stats ++ m' :=
          ⟨_, by rw [hm]; simp only [midCreated, List.append_assoc]; rfl⟩
        exact Or.inr (Or.inr ⟨hk, hx.mono he ⟨[], by rw [hpr]; simp [midCreated]⟩⟩)
    | dropped o =>
      rw [bbStep_dropped hp ho] at h
      have hinv1 := prunedAdd_inv (o := o) hinv hps
      obtain ⟨⟨m, hm⟩, hpr, hrest, hagain⟩ := parentAgain_open hinv1 h
      rcases hx with ⟨n', hn', hop⟩ | ⟨hk, hx⟩
      · have hbox := hop.1
        have hbr := hop.2
        rcases mem_eraseIdx_of_ne hp hn' with rfl | hne
        · by_cases hb : n'.Branch x
          · cases hk : keep with
            | false =>
              left
              refine ⟨n', hp, hbox, hb, ?_⟩
              rw [ho]
            | true =>
              right; right
              refine ⟨rfl, ?_⟩
              obtain ⟨par, cs0, hlast⟩ := hps.last
              obtain ⟨cs, hcs, hsat⟩ := origChanges_sat hinv hr hps
              refine ⟨prunedStat s n' o, by rw [hpr]; simp, _, cs, by simp [prunedStat], ?_, ?_,
                hsat x hbox, (nodeStat_branch n' n'.number n'.first par cs0 x).mpr hb⟩
              · rw [hm]; simp only [prunedStat, Int.toNat_natCast]
                exact getElem?_append_some hlast
              · rw [hm]; exact origChanges_mono hcs
          · have h0 : n'.branchIndex = 0 := by
              by_contra h0
              exact hb (hop.branch hps.idx (hint n' hpm) (fun h => absurd h h0))
            refine Or.inr (Or.inl ⟨_, hagain h0, hbox, Or.inr ?_⟩)
            have he : ({ n' with branchIndex := 0 } : CNode) = n' := by cases n'; simp_all
            rw [← he] at hb; exact hb
        · exact Or.inr (Or.inl ⟨n', hrest _ hne, hbox, hbr⟩)
      · exact Or.inr (Or.inr ⟨hk, hx.mono ⟨m, hm⟩ ⟨[_], hpr⟩⟩)

theorem tree_vars_step {P : Relax} {root : NewNode} {s s' : BB} {e : BBStep} {x : Vec}
    (hinv : BBInv P root s)
    (ht : ∀ n, e.out = .created n → FiniteWhere n.lo n.hi root.lo root.hi)
    (h : bbStep s e = .ok s') (hint : ∀ n ∈ s.tree, ∃ k : ℤ, x n.var = k)
    (he : ∀ n, e.out = .created n → ∃ k : ℤ, x n.var = k) : ∀ n ∈ s'.tree, ∃ k : ℤ, x n.var = k := by
  have key : ∀ {t : BB} {p : CNode} {rest : List CNode}, BBInv P root t →
      parentAgain t p rest = .ok s' → (∃ k : ℤ, x p.var = k) →
      (∀ n ∈ rest, ∃ k : ℤ, x n.var = k) → ∀ n ∈ s'.tree, ∃ k : ℤ, x n.var = k := by
    intro t p rest hi h hp hr n hn
    rw [parentAgain_eq hi] at h
    split at h
    · simp only [Res.ok.injEq] at h; subst h
      simp only [List.mem_append, List.mem_singleton] at hn
      rcases hn with hn | rfl
      · exact hr n hn
      · exact hp
    · simp only [Res.ok.injEq] at h; subst h
      exact hr n hn
  cases hp : s.tree[e.pick]? with
  | none => simp [bbStep, hp] at h
  | some p =>
    have hpm := List.mem_of_getElem? hp
    have hps := hinv.synced p hpm
    cases ho : e.out with
    | created n =>
      rw [bbStep_created hinv hp ho] at h
      obtain ⟨hinv1, _⟩ := midCreated_inv hinv hps (ht n ho)
      refine key hinv1 h (hint p hpm) ?_
      intro m hm
      simp only [List.mem_append, List.mem_singleton] at hm
      rcases hm with hm | rfl
      · exact hint m (mem_eraseIdx_mem hm)
      · exact he n ho
    | dropped o =>
      rw [bbStep_dropped hp ho] at h
      exact key (prunedAdd_inv (o := o) hinv hps) h (hint p hpm)
        (fun m hm => hint m (mem_eraseIdx_mem hm))

theorem bbRun_cover {P : Relax} {root : NewNode} (keep : Bool) {es : List BBStep} {s s' : BB}
    (hinv : BBInv P root s) (hr : TighterBox root.lo root.hi P.lo P.hi)
    (ht : ∀ e ∈ es, ∀ n, e.out = .created n → FiniteWhere n.lo n.hi root.lo root.hi)
    (h : bbRun s es = .ok s') {x : Vec} (hint : ∀ n ∈ s.tree, ∃ k : ℤ, x n.var = k)
    (he : ∀ e ∈ es, ∀ n, e.out = .created n → ∃ k : ℤ, x n.var = k)
    (hx : Open s x ∨ (keep = true ∧ InPruned s x)) :
    LostIn keep s es x ∨ Open s' x ∨ (keep = true ∧ InPruned s' x) := by
  induction es generalizing s with
  | nil => simp only [bbRun, Res.ok.injEq] at h; subst h; exact Or.inr hx
  | cons e es ih =>
    simp only [bbRun] at h
    cases hs : bbStep s e with
    | ok s1 =>
      rw [hs] at h
      have hinv1 := bbStep_inv hinv (ht e (by simp)) hs
      rcases bbStep_cover keep hinv hr (ht e (by simp)) hs hint hx with hl | hx1
      · exact Or.inl (Or.inl hl)
      · rcases ih hinv1 (fun e' he' => ht e' (by simp [he'])) h
          (tree_vars_step hinv (ht e (by simp)) hs hint (he e (by simp)))
          (fun e' he' => he e' (by simp [he'])) hx1 with hl | hr
        · exact Or.inl (Or.inr ⟨s1, hs, hl⟩)
        · exact Or.inr hr
    | exit => rw [hs] at h; simp [Res.bind] at h
    | undef => rw [hs] at h; simp [Res.bind] at h

theorem bbRun_vars {P : Relax} {root : NewNode} {es : List BBStep} {s s' : BB} {x : Vec}
    (hinv : BBInv P root s)
    (ht : ∀ e ∈ es, ∀ n, e.out = .created n → FiniteWhere n.lo n.hi root.lo root.hi)
    (h : bbRun s es = .ok s') (hint : ∀ n ∈ s.tree, ∃ k : ℤ, x n.var = k)
    (he : ∀ e ∈ es, ∀ n, e.out = .created n → ∃ k : ℤ, x n.var = k) :
    ∀ n ∈ s'.tree, ∃ k : ℤ, x n.var = k := by
  induction es generalizing s with
  | nil => simp only [bbRun, Res.ok.injEq] at h; subst h; exact hint
  | cons e es ih =>
    simp only [bbRun] at h
    cases hs : bbStep s e with
    | ok s1 =>
      rw [hs] at h
      exact ih (bbStep_inv hinv (ht e (by simp)) hs) (fun e' he' => ht e' (by simp [he'])) h
        (tree_vars_step hinv (ht e (by simp)) hs hint (he e (by simp)))
        (fun e' he' => he e' (by simp [he']))
    | exit => rw [hs] at h; simp [Res.bind] at h
    | undef => rw [hs] at h; simp [Res.bind] at h

/-! ## Saving -/

/-- What setting up one term does. -/
theorem setupTerm_spec {keep : Bool} {stats : List NStat} {orig var : ℕ} {way : ℤ} {value : ℚ}
    {ans : Option ℚ} {s s' : SaveSt} (h : setupTerm keep stats orig var way value ans s = .ok s') :
    s'.D.common = s.D.common ∧ s'.D.intSol = s.D.intSol ∧
    ((ans.isSome || keep) = true → ∃ t, bbTerm stats orig var way value ans = some t ∧
      s'.D.terms = s.D.terms ++ [t] ∧ s'.D.numTerms = s.D.numTerms + 1 ∧ s'.numLeaf = s.numLeaf) ∧
    ((ans.isSome || keep) = false → s'.D = s.D ∧ s'.numLeaf = s.numLeaf - 1) := by
  unfold setupTerm at h
  split at h
  · rename_i hk
    split at h
    · rename_i t r f ht hr hf
      dsimp only at h
      have key : s'.D = { s.D with terms := s.D.terms ++ [t], numTerms := s.D.numTerms + 1 } ∧
          s'.numLeaf = s.numLeaf := by
        generalize (if f = true then decide (r.way ≤ 0) else !decide (r.way ≤ 0)) = dn at h
        cases dn
        · simp only [Bool.false_eq_true, if_false, Res.ok.injEq] at h
          subst h; split <;> exact ⟨rfl, rfl⟩
        · simp only [if_true, Res.ok.injEq] at h
          subst h; split <;> exact ⟨rfl, rfl⟩
      rw [key.1, key.2]
      exact ⟨rfl, rfl, fun _ => ⟨t, ht, rfl, rfl, rfl⟩, fun hk' => by rw [hk] at hk'; cases hk'⟩
    · cases h
  · rename_i hk
    simp only [Res.ok.injEq] at h
    subst h
    refine ⟨rfl, rfl, fun hk' => absurd hk' hk, fun _ => ⟨rfl, rfl⟩⟩

/-- A point satisfies the changes of a term. -/
theorem bbTerm_sat {stats : List NStat} {orig var : ℕ} {way : ℤ} {value : ℚ} {ans : Option ℚ}
    {t : Term} (h : bbTerm stats orig var way value ans = some t) {cs : List BChange}
    (hcs : origChanges stats orig = some cs) {x : Vec} (hsat : ∀ c ∈ cs, c.Sat x)
    (hb : (way = 1 ∧ value ≤ x var) ∨ (way ≤ 0 ∧ x var ≤ value)) :
    (∀ c ∈ t.changes, c.Sat x) ∧ t.ineqs = [] := by
  unfold bbTerm at h
  rw [hcs] at h
  split at h
  · rename_i cs' st0 h1 h2
    cases h1
    simp only [Option.some.injEq] at h; subst h
    refine ⟨fun c hc => ?_, rfl⟩
    simp only [List.mem_append, List.mem_singleton] at hc
    rcases hc with hc | rfl
    · exact hsat c hc
    · simp only [BChange.Sat]
      rcases hb with ⟨hw, hv⟩ | ⟨hw, hv⟩
      · rw [if_pos hw, if_pos le_rfl]; exact hv
      · rw [if_neg (show ¬ way = 1 by omega)]
        simpa using hv
  · cases h

theorem childLP_keeps {base q : Relax} {var : ℕ} {way : ℤ} {value : ℚ}
    (h : childLP base var way value = .ok q) {x : Vec} (hx : base.Feas x)
    (hb : (way = 1 ∧ value ≤ x var) ∨ (way ≤ 0 ∧ x var ≤ value)) : q.Feas x := by
  refine applyChange_keeps h hx ?_
  simp only [BChange.Sat]
  rcases hb with ⟨hw, hv⟩ | ⟨hw, hv⟩
  · rw [if_neg (show ¬ way ≤ 0 by omega), if_pos le_rfl]; exact hv
  · rw [if_pos hw]; simpa using hv

theorem nodeLP_keeps {P Q : Relax} {common cs : List BChange} (h : nodeLP P common cs = .ok Q)
    {x : Vec} (hx : P.Feas x) (h1 : ∀ c ∈ common, c.Sat x) (h2 : ∀ c ∈ cs, c.Sat x) : Q.Feas x := by
  obtain ⟨Q1, hQ1, hQ⟩ := Res.bind_ok h
  exact applyChanges_keeps hQ (applyChanges_keeps hQ1 hx h1) h2

/-- Count of terms, count of leaves and the other fields along a save: nothing already saved is
changed, and the difference of the two counters is. -/
structure Grows (s s' : SaveSt) (k : ℤ) : Prop where
  common : s'.D.common = s.D.common
  intSol : s'.D.intSol = s.D.intSol
  terms : ∃ m, s'.D.terms = s.D.terms ++ m
  extra : s'.D.numTerms - s'.D.terms.length = s.D.numTerms - s.D.terms.length
  leaf : s'.numLeaf - s'.D.numTerms = s.numLeaf - s.D.numTerms - k
  le : s.D.numTerms ≤ s'.D.numTerms

theorem Grows.refl (s : SaveSt) : Grows s s 0 := ⟨rfl, rfl, ⟨[], by simp⟩, rfl, by omega, le_rfl⟩

theorem Grows.trans {a b c : SaveSt} {k l : ℤ} (h : Grows a b k) (h' : Grows b c l) :
    Grows a c (k + l) where
  common := h'.common.trans h.common
  intSol := h'.intSol.trans h.intSol
  terms := by
    obtain ⟨m, hm⟩ := h.terms
    obtain ⟨m', hm'⟩ := h'.terms
    exact ⟨m ++ m', by rw [hm', hm, List.append_assoc]⟩
  extra := h'.extra.trans h.extra
  leaf := by have := h.leaf; have := h'.leaf; omega
  le := h.le.trans h'.le

theorem setupTerm_grows {keep : Bool} {stats : List NStat} {orig var : ℕ} {way : ℤ} {value : ℚ}
    {ans : Option ℚ} {s s' : SaveSt} (h : setupTerm keep stats orig var way value ans s = .ok s') :
    Grows s s' 1 := by
  obtain ⟨h1, h2, h3, h4⟩ := setupTerm_spec h
  cases hk : (ans.isSome || keep) with
  | true =>
    obtain ⟨t, _, ht, hn, hl⟩ := h3 hk
    exact ⟨h1, h2, ⟨_, ht⟩, by rw [ht, hn, List.length_append]; simp, by rw [hn, hl]; omega,
      by rw [hn]; omega⟩
  | false =>
    obtain ⟨hD, hl⟩ := h4 hk
    exact ⟨h1, h2, ⟨[], by rw [hD]; simp⟩, by rw [hD], by rw [hD, hl]; omega, by rw [hD]⟩

/-- A term that holds at `x` is among the saved ones. -/
def Covers (D : Disj) (x : Vec) : Prop :=
  ∃ t ∈ D.terms, (∀ c ∈ t.changes, c.Sat x) ∧ t.ineqs = []

theorem Covers.mono {s s' : SaveSt} {k : ℤ} (h : Grows s s' k) {x : Vec} (hc : Covers s.D x) :
    Covers s'.D x := by
  obtain ⟨t, ht, hh⟩ := hc
  obtain ⟨m, hm⟩ := h.terms
  exact ⟨t, by rw [hm]; simp [ht], hh⟩

theorem setupTerm_covers {keep : Bool} {stats : List NStat} {orig var : ℕ} {way : ℤ} {value : ℚ}
    {ans : Option ℚ} {s s' : SaveSt} (h : setupTerm keep stats orig var way value ans s = .ok s')
    {cs : List BChange} (hcs : origChanges stats orig = some cs) {x : Vec}
    (hsat : ∀ c ∈ cs, c.Sat x)
    (hb : (way = 1 ∧ value ≤ x var) ∨ (way ≤ 0 ∧ x var ≤ value))
    (hk : (ans.isSome || keep) = true) : Covers s'.D x := by
  obtain ⟨_, _, h3, _⟩ := setupTerm_spec h
  obtain ⟨t, ht, hts, _⟩ := h3 hk
  exact ⟨t, by rw [hts]; simp, bbTerm_sat ht hcs hsat hb⟩

/-- The terms saved for one node. -/
theorem saveNode_spec {P : Relax} {maxLeaf : ℤ} {root : NewNode} {b : BB} {env : SaveEnv} {ind : ℕ}
    {rem : ℤ} {nd : CNode} {st0 : Bool} {s : SaveSt} {r : Bool × SaveSt} (hinv : BBInv P root b)
    (hn : Synced b root nd)
    (h : saveNode P maxLeaf b.stats env ind rem nd st0 s = .ok r) :
    (st0 = true → r.1 = true) ∧
    (∃ k, Grows s r.2 k ∧ 1 ≤ k ∧ k ≤ nd.branchesLeft ∧ (r.1 = false → k = nd.branchesLeft) ∧
      (st0 = false → r.1 = true → env.hitTime = false ∧
        2 * (r.2.D.numTerms + 2 * rem - 1) ≤ maxLeaf ∧ k = 1)) ∧
    (∀ x, P.Feas x → (∀ c ∈ s.D.common, c.Sat x) → (∃ k : ℤ, x nd.var = k) →
      (∀ i j Q, env.lp i j Q = none → ¬ Q.Feas x) →
      TighterBox root.lo root.hi P.lo P.hi → r.1 = false → OpenAt nd x → Covers r.2.D x) := by
  obtain ⟨par, cs0, hlast⟩ := hn.last
  unfold saveNode at h
  rw [hlast] at h
  simp only [show (nodeStat nd nd.number nd.first par cs0).id = nd.number from rfl, hlast] at h
  set st := nodeStat nd nd.number nd.first par cs0 with hst
  have horig : st.orig = nd.first := rfl
  have hbv : st.bvar = nd.var := rfl
  have hbi : st.branchIndex = nd.branchIndex := rfl
  rw [horig] at h
  cases hcs : origChanges b.stats nd.first with
  | none => rw [hcs] at h; simp at h
  | some cs =>
    rw [hcs] at h
    simp only at h
    obtain ⟨base, hbase, h⟩ := Res.bind_ok h
    split at h
    · cases h
    split at h
    · cases h
    obtain ⟨q1, hq1, h⟩ := Res.bind_ok h
    obtain ⟨s1, hs1, h⟩ := Res.bind_ok h
    have hg1 := setupTerm_grows hs1
    have hwaycase : (st.way = 1 ∧ nd.nextUp = true) ∨ (st.way ≤ 0 ∧ nd.nextUp = false) := by
      rw [hst]; simp only [nodeStat, CNode.way]
      cases nd.nextUp
      · right; cases nd.osi <;> simp
      · left; simp
    have hfirst : ∀ x, P.Feas x → (∀ c ∈ s.D.common, c.Sat x) →
        (∀ i j Q, env.lp i j Q = none → ¬ Q.Feas x) →
        TighterBox root.lo root.hi P.lo P.hi → InBnds nd.lo nd.hi x → nd.Branch x →
        Covers s1.D x := by
      intro x hP hc hlp hr hbox hbr
      obtain ⟨cs', hcs', hsat⟩ := origChanges_sat hinv hr hn
      rw [hcs] at hcs'; cases hcs'
      have hb : (st.way = 1 ∧ (if st.way ≤ 0 then st.ub else st.lb) ≤ x st.bvar) ∨
          (st.way ≤ 0 ∧ x st.bvar ≤ if st.way ≤ 0 then st.ub else st.lb) := by
        have := (nodeStat_branch nd nd.number nd.first par cs0 x).mpr hbr
        rcases this with ⟨hw, hv⟩ | ⟨hw, hv⟩
        · left; refine ⟨hw, ?_⟩; rw [if_neg (by rw [← hst] at hw; omega)]; exact hv
        · right; refine ⟨hw, ?_⟩; rw [if_pos (by rw [← hst] at hw; omega)]; exact hv
      refine setupTerm_covers hs1 hcs (hsat x hbox) hb ?_
      cases ha : env.lp ind 0 q1 with
      | some a => rfl
      | none =>
        exact absurd (childLP_keeps hq1 (nodeLP_keeps hbase hP hc (hsat x hbox)) hb)
          (hlp _ _ _ ha)
    split at h
    · rename_i hcond
      obtain ⟨q2, hq2, h⟩ := Res.bind_ok h
      obtain ⟨s2, hs2, h⟩ := Res.bind_ok h
      simp only [Res.ok.injEq] at h
      have hg2 := setupTerm_grows hs2
      simp only [Bool.and_eq_true, beq_iff_eq, hbi] at hcond
      have hsf := hcond.1
      rw [Bool.not_eq_true'] at hsf
      subst h
      refine ⟨fun h0 => ?_, ⟨1 + 1, hg1.trans hg2, by norm_num, ?_, ?_, ?_⟩, ?_⟩
      · rw [h0] at hsf; simp at hsf
      · simp [CNode.branchesLeft, hcond.2]
      · intro _; simp [CNode.branchesLeft, hcond.2]
      · intro _ ht; simp only at ht; rw [hsf] at ht; cases ht
      · intro x hP hc hint hlp hr _ hop
        obtain ⟨hbox, hbr⟩ := hop
        by_cases hb1 : nd.Branch x
        · exact (hfirst x hP hc hlp hr hbox hb1).mono hg2
        · obtain ⟨k, hk⟩ := hint
          obtain ⟨cs', hcs', hsat⟩ := origChanges_sat hinv hr hn
          rw [hcs] at hcs'; cases hcs'
          have hb : ((if st.way ≤ 0 then (1 : ℤ) else 0) = 1 ∧
              (if (if st.way ≤ 0 then (1 : ℤ) else 0) ≤ 0 then
                (if st.way ≤ 0 then st.ub else st.lb) - 1
                else (if st.way ≤ 0 then st.ub else st.lb) + 1) ≤ x st.bvar) ∨
              ((if st.way ≤ 0 then (1 : ℤ) else 0) ≤ 0 ∧ x st.bvar ≤
              (if (if st.way ≤ 0 then (1 : ℤ) else 0) ≤ 0 then
                (if st.way ≤ 0 then st.ub else st.lb) - 1
                else (if st.way ≤ 0 then st.ub else st.lb) + 1)) := by
            unfold CNode.Branch at hb1
            rcases hwaycase with ⟨hw, hu⟩ | ⟨hw, hu⟩
            · right
              have h0 : ¬ st.way ≤ 0 := by omega
              simp only [if_neg h0, le_refl, if_true, true_and]
              have hlb : st.lb = ((⌈nd.value⌉ : ℤ) : ℚ) := by
                rw [hst] at hw ⊢
                simp only [nodeStat] at hw ⊢
                rw [if_pos (by omega)]
              rw [hlb, hbv, hk]
              rw [hu, if_pos rfl, hk, not_le] at hb1
              norm_cast at hb1 ⊢
              omega
            · left
              have hub : st.ub = ((⌊nd.value⌋ : ℤ) : ℚ) := by
                rw [hst] at hw ⊢
                simp only [nodeStat] at hw ⊢
                rw [if_neg (by omega)]
              simp only [if_pos hw, true_and]
              rw [if_neg (by norm_num), hub, hbv, hk]
              rw [hu, if_neg (by simp), hk, not_le] at hb1
              norm_cast at hb1 ⊢
          refine setupTerm_covers hs2 hcs (hsat x hbox) hb ?_
          cases ha : env.lp ind 1 q2 with
          | some a => rfl
          | none =>
            exact absurd (childLP_keeps hq2 (nodeLP_keeps hbase hP hc (hsat x hbox)) hb)
              (hlp _ _ _ ha)
    · rename_i hcond
      simp only [Res.ok.injEq] at h
      subst h
      refine ⟨fun h0 => by simp [h0], ⟨1, hg1, le_rfl, ?_, ?_, ?_⟩, ?_⟩
      · have := hn.idx
        simp only [CNode.branchesLeft]; omega
      · intro hf
        simp only [Bool.and_eq_true, beq_iff_eq, hbi] at hcond
        simp only at hf
        rw [hf] at hcond
        have := hn.idx
        simp only [Bool.not_false, true_and] at hcond
        simp only [CNode.branchesLeft]; omega
      · intro h0 ht
        simp only [h0, Bool.false_or, Bool.and_eq_true, decide_eq_true_eq, Bool.not_eq_true'] at ht
        exact ⟨ht.1, ht.2, rfl⟩
      · intro x hP hc hint hlp hr hf hop
        have hbox := hop.1
        simp only [Bool.and_eq_true, beq_iff_eq, hbi] at hcond
        simp only at hf
        rw [hf] at hcond
        simp only [Bool.not_false, true_and] at hcond
        exact hfirst x hP hc hlp hr hbox
          (hop.branch hn.idx hint (fun h => absurd h hcond))


/-- Sum of the open branches of a list of nodes. -/
def leftSum (nodes : List CNode) : ℤ := (nodes.map CNode.branchesLeft).sum

theorem saveLoop_true {P : Relax} {maxLeaf : ℤ} {root : NewNode} {b : BB} {env : SaveEnv}
    (hinv : BBInv P root b) {nodes : List CNode} (hn : ∀ n ∈ nodes, Synced b root n) {ind : ℕ}
    {s : SaveSt} {r : Bool × SaveSt}
    (h : saveLoop P maxLeaf b.stats env ind nodes true s = .ok r) : r.1 = true := by
  induction nodes generalizing ind s with
  | nil => simp only [saveLoop, Res.ok.injEq] at h; subst h; rfl
  | cons nd rest ih =>
    unfold saveLoop at h
    split at h
    · simp only [Res.ok.injEq] at h; subst h; rfl
    · obtain ⟨r1, h1, h⟩ := Res.bind_ok h
      have := (saveNode_spec hinv (hn nd (by simp)) h1).1 rfl
      rw [this] at h
      exact ih (fun n hn' => hn n (by simp [hn'])) h

/-- A loop that ends with status 0 has set up every open branch of every node. -/
theorem saveLoop_false {P : Relax} {maxLeaf : ℤ} {root : NewNode} {b : BB} {env : SaveEnv}
    (hinv : BBInv P root b) {nodes : List CNode} (hn : ∀ n ∈ nodes, Synced b root n) {ind : ℕ}
    {s : SaveSt} {r : Bool × SaveSt}
    (h : saveLoop P maxLeaf b.stats env ind nodes false s = .ok r) (hf : r.1 = false) :
    Grows s r.2 (leftSum nodes) ∧
    ∀ x, P.Feas x → (∀ c ∈ s.D.common, c.Sat x) → (∀ n ∈ nodes, ∃ k : ℤ, x n.var = k) →
      (∀ i j Q, env.lp i j Q = none → ¬ Q.Feas x) →
      TighterBox root.lo root.hi P.lo P.hi → (∃ n ∈ nodes, OpenAt n x) → Covers r.2.D x := by
  induction nodes generalizing ind s with
  | nil =>
    simp only [saveLoop, Res.ok.injEq] at h; subst h
    exact ⟨Grows.refl s, by rintro x - - - - - ⟨n, hn', -⟩; simp at hn'⟩
  | cons nd rest ih =>
    unfold saveLoop at h
    split at h
    · simp only [Res.ok.injEq] at h; subst h; cases hf
    · obtain ⟨r1, h1, h⟩ := Res.bind_ok h
      obtain ⟨_, ⟨k, hg, _, _, hk, _⟩, hc⟩ := saveNode_spec hinv (hn nd (by simp)) h1
      cases hr1 : r1.1 with
      | true =>
        rw [hr1] at h
        have := saveLoop_true hinv (fun n hn' => hn n (by simp [hn'])) h
        rw [this] at hf; cases hf
      | false =>
        rw [hr1] at h
        obtain ⟨hg2, hc2⟩ := ih (fun n hn' => hn n (by simp [hn'])) h
        refine ⟨?_, fun x hP hcm hint hlp hr ⟨n, hn', hop⟩ => ?_⟩
        · have := hg.trans hg2
          rw [hk hr1] at this
          simpa [leftSum] using this
        · simp only [List.mem_cons] at hn'
          rcases hn' with rfl | hn'
          · exact (hc x hP hcm (hint _ (by simp)) hlp hr hr1 hop).mono hg2
          · exact hc2 x hP (by rw [hg.common]; exact hcm) (fun n hn => hint n (by simp [hn])) hlp hr
              ⟨n, hn', hop⟩

/-- A loop that ends with status 1 leaves at most half of the allowed number of leaves. -/
theorem saveLoop_short {P : Relax} {maxLeaf : ℤ} {root : NewNode} {b : BB} {env : SaveEnv}
    (hinv : BBInv P root b) {nodes : List CNode} (hn : ∀ n ∈ nodes, Synced b root n) {ind : ℕ}
    {s : SaveSt} {r : Bool × SaveSt}
    (h : saveLoop P maxLeaf b.stats env ind nodes false s = .ok r) (hf : r.1 = true)
    (hs : s.numLeaf = s.D.numTerms + leftSum nodes) :
    env.hitTime = false ∧ 2 * r.2.numLeaf ≤ maxLeaf := by
  induction nodes generalizing ind s with
  | nil => simp only [saveLoop, Res.ok.injEq] at h; subst h; cases hf
  | cons nd rest ih =>
    have hle : ∀ l : List CNode, leftSum l ≤ 2 * l.length := by
      intro l
      induction l with
      | nil => simp [leftSum]
      | cons a l ihl =>
        simp only [leftSum, List.map_cons, List.sum_cons, List.length_cons, CNode.branchesLeft] at ihl ⊢
        push_cast; omega
    unfold saveLoop at h
    split at h
    · rename_i hc
      simp only [Bool.and_eq_true, decide_eq_true_eq, Bool.not_eq_true'] at hc
      simp only [Res.ok.injEq] at h; subst h
      refine ⟨hc.1, ?_⟩
      have h1 := hle (nd :: rest)
      simp only [List.length_cons] at h1
      push_cast at h1
      simp only [hs]
      have := hc.2
      omega
    · rename_i hnc
      obtain ⟨r1, h1, h⟩ := Res.bind_ok h
      obtain ⟨_, ⟨k, hg, hk1, hk2, hk, hst⟩, _⟩ := saveNode_spec hinv (hn nd (by simp)) h1
      have hl := hg.leaf
      have hnl : nd.branchesLeft ≤ 2 := by simp only [CNode.branchesLeft]; omega
      have hsum : leftSum (nd :: rest) = nd.branchesLeft + leftSum rest := by simp [leftSum]
      have hrl := hle rest
      cases hr1 : r1.1 with
      | true =>
        obtain ⟨ht, hb, hk1'⟩ := hst rfl hr1
        rw [hr1] at h
        -- the next iteration stops at once, or there is none
        cases rest with
        | nil =>
          simp only [saveLoop, Res.ok.injEq] at h; subst h
          refine ⟨ht, ?_⟩
          simp only [List.length_nil, Nat.cast_zero] at hb hrl
          simp only [leftSum, List.map_nil, List.sum_nil] at hsum
          simp only [leftSum] at hs
          have : leftSum [nd] = nd.branchesLeft := by simp [leftSum]
          simp only [leftSum] at this
          rw [this] at hs
          simp only
          omega
        | cons a rest' =>
          unfold saveLoop at h
          have hcond : (!env.hitTime && decide (2 * (r1.2.D.numTerms + 2 * ((rest'.length : ℤ) + 1)) ≤ maxLeaf)) = true := by
            simp only [ht, Bool.not_false, Bool.true_and, decide_eq_true_eq]
            simp only [List.length_cons] at hb
            push_cast at hb
            omega
          rw [if_pos hcond] at h
          simp only [Res.ok.injEq] at h; subst h
          refine ⟨ht, ?_⟩
          simp only [List.length_cons] at hb hrl
          push_cast at hb hrl
          simp only
          omega
      | false =>
        rw [hr1] at h
        refine ih (fun n hn' => hn n (by simp [hn'])) h ?_
        have := hk hr1
        omega

theorem saveStart_common {P : Relax} {root : NewNode} {b : BB} (hinv : BBInv P root b) (w : Bool) :
    (saveStart b.stats w).common = changedBounds root.lo root.hi P.lo P.hi ∧
    (saveStart b.stats w).numTerms = 0 ∧ (saveStart b.stats w).terms = [] ∧
    (saveStart b.stats w).intSol = [] := by
  unfold saveStart
  rw [hinv.stat0]
  exact ⟨rfl, rfl, rfl, rfl⟩

/-! ### Keeping pruned nodes -/

theorem keepBranches_spec {P : Relax} {root : NewNode} {b : BB} {nd : CNode} (hinv : BBInv P root b)
    (hr : TighterBox root.lo root.hi P.lo P.hi)
    (hn : Synced b root nd) {initWay : ℤ} {initVal : ℚ} {base : Relax}
    {lp : ℕ → Relax → Option ℚ} {bs : List ℕ} {s s' : SaveSt}
    (h : keepBranches b.stats nd.first nd.var initWay initVal base lp bs s = .ok s') :
    Grows s s' bs.length ∧ s'.numLeaf = s.numLeaf ∧
    ∀ x, InBnds nd.lo nd.hi x → (∃ j ∈ bs,
      let way := if j = 0 then initWay else 1 - initWay
      let value : ℚ := if j = 0 then initVal else if way ≤ 0 then initVal - 1 else initVal + 1
      (way = 1 ∧ value ≤ x nd.var) ∨ (way ≤ 0 ∧ x nd.var ≤ value)) → Covers s'.D x := by
  induction bs generalizing s with
  | nil =>
    simp only [keepBranches, Res.ok.injEq] at h; subst h
    exact ⟨Grows.refl s, rfl, by rintro x - ⟨j, hj, -⟩; simp at hj⟩
  | cons j bs ih =>
    unfold keepBranches at h
    obtain ⟨q, hq, h⟩ := Res.bind_ok h
    obtain ⟨s1, hs1, h⟩ := Res.bind_ok h
    have hg1 := setupTerm_grows hs1
    obtain ⟨hg2, hl2, hc2⟩ := ih h
    obtain ⟨_, _, h3, _⟩ := setupTerm_spec hs1
    obtain ⟨t, _, _, _, hl1⟩ := h3 (by simp)
    refine ⟨?_, hl2.trans hl1, fun x hx ⟨i, hi, hb⟩ => ?_⟩
    · have := hg1.trans hg2
      rw [List.length_cons]; push_cast
      rw [show ((bs.length : ℤ) + 1) = 1 + bs.length by omega]
      exact this
    · simp only [List.mem_cons] at hi
      rcases hi with rfl | hi
      · obtain ⟨cs, hcs, hsat⟩ := origChanges_sat hinv hr hn
        exact (setupTerm_covers hs1 hcs (hsat x hx) hb (by simp)).mono hg2
      · exact hc2 x hx ⟨i, hi, hb⟩

theorem keepNode_spec {P : Relax} {root : NewNode} {b : BB} {nd : CNode} (hinv : BBInv P root b)
    (hr : TighterBox root.lo root.hi P.lo P.hi)
    (hn : Synced b root nd) {env : SaveEnv} {ind : ℕ} {s s' : SaveSt}
    (h : keepNode P b.stats env ind nd s = .ok s') :
    Grows s s' nd.branchesLeft ∧ s'.numLeaf = s.numLeaf ∧
    ∀ x : Vec, (∃ k : ℤ, x nd.var = k) → OpenAt nd x → Covers s'.D x := by
  obtain ⟨par, cs0, hlast⟩ := hn.last
  obtain ⟨par1, cs1, horig, _⟩ := hn.orig
  unfold keepNode at h
  rw [hlast] at h
  simp only [show (nodeStat nd nd.number nd.first par cs0).id = nd.number from rfl, hlast,
    show (nodeStat nd nd.number nd.first par cs0).orig = nd.first from rfl, horig] at h
  obtain ⟨cs, hcs, _⟩ := origChanges_sat hinv hr hn
  rw [hcs] at h
  simp only at h
  obtain ⟨base, _, h⟩ := Res.bind_ok h
  split at h
  · cases h
  set o := nodeStat { nd with branchIndex := 0 } nd.first nd.first par1 cs1 with ho
  have hidx := hn.idx
  obtain ⟨hg, hl, hc⟩ := keepBranches_spec hinv hr hn h
  have hlen : (((List.range 2).drop (nodeStat nd nd.number nd.first par cs0).branchIndex).length : ℤ)
      = nd.branchesLeft := by
    simp only [nodeStat, List.length_drop, List.length_range, CNode.branchesLeft]
    omega
  refine ⟨by rw [← hlen]; exact hg, hl, fun x hint hop => hc x hop.1 ?_⟩
  obtain ⟨k, hk⟩ := hint
  obtain ⟨_, hbr⟩ := hop
  have how : (o.way = 1 ∧ nd.firstUp = true ∧ o.lb = ((⌈nd.value⌉ : ℤ) : ℚ)) ∨
      (o.way ≤ 0 ∧ nd.firstUp = false ∧ o.ub = ((⌊nd.value⌋ : ℤ) : ℚ)) := by
    rw [ho]; simp only [nodeStat, CNode.way, CNode.nextUp]
    cases nd.firstUp
    · right; cases nd.osi <;> simp
    · left; simp
  have hmem : ∀ j, nd.branchIndex ≤ j → j ≤ 1 →
      j ∈ (List.range 2).drop (nodeStat nd nd.number nd.first par cs0).branchIndex := by
    intro j h1 h2
    simp only [nodeStat]
    have : nd.branchIndex = 0 ∨ nd.branchIndex = 1 := by omega
    rcases this with h0 | h0 <;> rw [h0] at h1 ⊢
    · have : j = 0 ∨ j = 1 := by omega
      rcases this with rfl | rfl <;> decide
    · have : j = 1 := by omega
      subst this; decide
  -- the first branch holds, or the second does
  have hfb : ({ nd with branchIndex := 0 } : CNode).Branch x ↔
      (o.way = 1 ∧ o.lb ≤ x nd.var) ∨ (o.way ≤ 0 ∧ x nd.var ≤ o.ub) :=
    (nodeStat_branch { nd with branchIndex := 0 } nd.first nd.first par1 cs1 x).symm
  by_cases hfirst : ({ nd with branchIndex := 0 } : CNode).Branch x
  · have h0 : nd.branchIndex = 0 := by tauto
    rw [hfb] at hfirst
    refine ⟨0, hmem 0 (by omega) (by omega), ?_⟩
    rcases hfirst with ⟨hw, hv⟩ | ⟨hw, hv⟩
    · left; simp [hw, hv]
    · right
      rw [if_neg (show ¬ o.way = 1 by omega)]; simp [hv]
  · refine ⟨1, hmem 1 hidx le_rfl, ?_⟩
    rw [hfb] at hfirst
    rcases how with ⟨hw, hu, hlb⟩ | ⟨hw, hu, hub⟩
    · right
      have : ¬ o.lb ≤ x nd.var := fun h => hfirst (Or.inl ⟨hw, h⟩)
      rw [hlb, hk, not_le] at this
      simp only [hw, if_true]
      rw [hk, hlb]
      norm_num
      norm_cast at this ⊢
      omega
    · left
      have : ¬ x nd.var ≤ o.ub := fun h => hfirst (Or.inr ⟨hw, h⟩)
      rw [hub, hk, not_le] at this
      rw [if_neg (show ¬ o.way = 1 by omega)]
      rw [hk, hub]
      norm_num
      norm_cast at this ⊢


theorem keepActive_spec {P : Relax} {root : NewNode} {b : BB} (hinv : BBInv P root b)
    (hr : TighterBox root.lo root.hi P.lo P.hi) {env : SaveEnv} {nodes : List CNode}
    (hn : ∀ n ∈ nodes, Synced b root n) {ind : ℕ} {s s' : SaveSt}
    (h : keepActive P b.stats env ind nodes s = .ok s') :
    Grows s s' (leftSum nodes) ∧ s'.numLeaf = s.numLeaf ∧
    ∀ x : Vec, (∀ n ∈ nodes, ∃ k : ℤ, x n.var = k) → (∃ n ∈ nodes, OpenAt n x) → Covers s'.D x := by
  induction nodes generalizing ind s with
  | nil =>
    simp only [keepActive, Res.ok.injEq] at h; subst h
    exact ⟨Grows.refl s, rfl, by rintro x - ⟨n, hn', -⟩; simp at hn'⟩
  | cons nd rest ih =>
    unfold keepActive at h
    obtain ⟨s1, h1, h⟩ := Res.bind_ok h
    obtain ⟨hg1, hl1, hc1⟩ := keepNode_spec hinv hr (hn nd (by simp)) h1
    obtain ⟨hg2, hl2, hc2⟩ := ih (fun n hn' => hn n (by simp [hn'])) h
    refine ⟨by simpa [leftSum] using hg1.trans hg2, hl2.trans hl1, fun x hint ⟨n, hn', hop⟩ => ?_⟩
    simp only [List.mem_cons] at hn'
    rcases hn' with rfl | hn'
    · exact (hc1 x (hint _ (by simp)) hop).mono hg2
    · exact hc2 x (fun n hn => hint n (by simp [hn])) ⟨n, hn', hop⟩

theorem keepPruned_spec {stats pruned : List NStat} {s s' : SaveSt}
    (h : keepPruned stats pruned s = .ok s') :
    Grows s s' pruned.length ∧ s'.numLeaf = s.numLeaf ∧
    ∀ x : Vec, (∃ q ∈ pruned, ∃ st cs, 0 ≤ q.parent ∧ stats[q.parent.toNat]? = some st ∧
      origChanges stats st.orig = some cs ∧ (∀ c ∈ cs, c.Sat x) ∧ st.Branch x) → Covers s'.D x := by
  induction pruned generalizing s with
  | nil =>
    simp only [keepPruned, Res.ok.injEq] at h; subst h
    exact ⟨Grows.refl s, rfl, by rintro x ⟨n, hn', -⟩; simp at hn'⟩
  | cons q qs ih =>
    unfold keepPruned at h
    split at h
    · cases h
    cases hst : stats[q.parent.toNat]? with
    | none => rw [hst] at h; cases h
    | some st =>
      rw [hst] at h
      obtain ⟨s1, hs1, h⟩ := Res.bind_ok h
      obtain ⟨hg2, hl2, hc2⟩ := ih h
      have hg1 := setupTerm_grows hs1
      obtain ⟨_, _, h3, _⟩ := setupTerm_spec hs1
      obtain ⟨t, _, _, _, hl1⟩ := h3 (by simp)
      refine ⟨?_, hl2.trans hl1, fun x hx => ?_⟩
      · have := hg1.trans hg2
        rw [List.length_cons]; push_cast
        rw [show ((qs.length : ℤ) + 1) = 1 + qs.length by omega]
        exact this
      · obtain ⟨q', hq', st', cs, hp, hst', hcs, hsat, hb⟩ := hx
        simp only [List.mem_cons] at hq'
        rcases hq' with rfl | hq'
        · rw [hst] at hst'; cases hst'
          refine (setupTerm_covers hs1 hcs hsat ?_ (by simp)).mono hg2
          rcases hb with ⟨hw, hv⟩ | ⟨hw, hv⟩
          · left; simp [hw, hv]
          · right
            rw [if_neg (show ¬ st.way = 1 by omega)]; simp [hv]
        · exact hc2 x ⟨q', hq', st', cs, hp, hst', hcs, hsat, hb⟩

/-! ## C05: coverage -/

theorem root_sat {P : Relax} {root : NewNode} (hr : TighterBox root.lo root.hi P.lo P.hi) {x : Vec}
    (hx : InBnds root.lo root.hi x) : ∀ c ∈ changedBounds root.lo root.hi P.lo P.hi, c.Sat x :=
  changed_sat hr.finite hx

/-- **C05.** The terms saved from a partial tree (status 0) cover every point of the relaxation that
is integral on the branching variables, except the points that the solver itself discarded: outside
the bounds it gave to the root, in a dropped subtree, or outside the bounds it gave to a new node.

Missing for the full property: a child LP that the solver fails to solve must be infeasible (`hlp`);
see `bb_unsolved_child_dropped`. -/
theorem bb_covers_partial {P : Relax} {root : NewNode} {es : List BBStep} {s : BB}
    {nodes : List CNode} {intSol : List ℚ} {maxLeaf numLeaf : ℤ} {env : SaveEnv} {r : Bool × SaveSt}
    (ht : OnlyTightens P root es) (h : bbRun (bbInit P root) es = .ok s)
    (hperm : nodes.Perm s.tree)
    (hs : saveInformation P maxLeaf s nodes intSol numLeaf env = .ok r) (hstat : r.1 = false)
    {x : Vec} (hx : P.Feas x) (hint : IntegralOn root es x)
    (hlp : ∀ i j Q, env.lp i j Q = none → ¬ Q.Feas x) :
    (∃ t ∈ r.2.D.terms, InTerm P r.2.D t x) ∨ ¬ InBnds root.lo root.hi x ∨
      LostIn false (bbInit P root) es x := by
  by_cases hroot : InBnds root.lo root.hi x
  swap
  · exact Or.inr (Or.inl hroot)
  have hfin : ∀ e ∈ es, ∀ n, e.out = .created n → FiniteWhere n.lo n.hi root.lo root.hi :=
    fun e he n hn => (ht.2 e he n hn).finite
  have hinv := bbRun_inv (bbInv_init P root) hfin h
  have hv0 : ∀ n ∈ (bbInit P root).tree, ∃ k : ℤ, x n.var = k := by
    intro n hn; simp only [bbInit, List.mem_singleton] at hn; subst hn; exact hint.1
  have hvars := bbRun_vars (bbInv_init P root) hfin h hv0 hint.2
  rcases bbRun_cover false (bbInv_init P root) ht.1 hfin h hv0 hint.2
    (Or.inl ⟨root.node 0 none, by simp [bbInit], hroot, Or.inl rfl⟩) with hl | ho | ⟨hk, _⟩
  · exact Or.inr (Or.inr hl)
  · left
    obtain ⟨n, hn, hop⟩ := ho
    unfold saveInformation at hs
    obtain ⟨r0, hr0, hs⟩ := Res.bind_ok hs
    simp only [Res.ok.injEq] at hs
    have hr0f : r0.1 = false ∧ r = r0 := by
      split at hs
      · subst hs; cases hstat
      · subst hs; exact ⟨hstat, rfl⟩
    obtain ⟨hc0, _, _, _⟩ := saveStart_common hinv true
    have hsy : ∀ n ∈ nodes, Synced s root n := fun n hn => hinv.synced n (hperm.mem_iff.mp hn)
    obtain ⟨hg, hc⟩ := saveLoop_false hinv hsy hr0 hr0f.1
    rw [hr0f.2]
    have hcom : ∀ (b : Prop) [Decidable b] (D : Disj), (if b then { D with numTerms := D.numTerms + 1, intSol := intSol } else D).common = D.common := by
      intro b _ D; split <;> rfl
    have hcommon : r0.2.D.common = changedBounds root.lo root.hi P.lo P.hi := by
      rw [hg.common]; simp only; rw [hcom, hc0]
    have hcs : ∀ c ∈ r0.2.D.common, c.Sat x := by rw [hcommon]; exact root_sat ht.1 hroot
    obtain ⟨t, htm, hsat, hine⟩ := hc x hx (by rw [← hg.common]; exact hcs)
      (fun n hn => hvars n (hperm.mem_iff.mp hn)) hlp ht.1 ⟨n, hperm.mem_iff.mpr hn, hop⟩
    exact ⟨t, htm, hx, hcs, hsat, by rw [hine]; simp⟩
  · cases hk

/-- **C05 (pruned nodes kept).** When pruned nodes are kept, the saved terms cover every such point,
except those outside the bounds the solver gave to the root or to a new node. -/
theorem bb_keep_covers {P : Relax} {root : NewNode} {es : List BBStep} {s : BB}
    {nodes : List CNode} {numLeaf : ℤ} {env : SaveEnv} {r : SaveSt}
    (ht : OnlyTightens P root es) (h : bbRun (bbInit P root) es = .ok s)
    (hperm : nodes.Perm s.tree) (hs : saveFromStats P s nodes numLeaf env = .ok r)
    {x : Vec} (hx : P.Feas x) (hint : IntegralOn root es x) :
    (∃ t ∈ r.D.terms, InTerm P r.D t x) ∨ ¬ InBnds root.lo root.hi x ∨
      LostIn true (bbInit P root) es x := by
  by_cases hroot : InBnds root.lo root.hi x
  swap
  · exact Or.inr (Or.inl hroot)
  have hfin : ∀ e ∈ es, ∀ n, e.out = .created n → FiniteWhere n.lo n.hi root.lo root.hi :=
    fun e he n hn => (ht.2 e he n hn).finite
  have hinv := bbRun_inv (bbInv_init P root) hfin h
  have hv0 : ∀ n ∈ (bbInit P root).tree, ∃ k : ℤ, x n.var = k := by
    intro n hn; simp only [bbInit, List.mem_singleton] at hn; subst hn; exact hint.1
  have hvars := bbRun_vars (bbInv_init P root) hfin h hv0 hint.2
  have hsy : ∀ n ∈ nodes, Synced s root n := fun n hn => hinv.synced n (hperm.mem_iff.mp hn)
  unfold saveFromStats at hs
  obtain ⟨s1, hs1, hs⟩ := Res.bind_ok hs
  obtain ⟨hg1, _, hc1⟩ := keepActive_spec hinv ht.1 hsy hs1
  obtain ⟨hg2, _, hc2⟩ := keepPruned_spec hs
  have hcommon : r.D.common = changedBounds root.lo root.hi P.lo P.hi := by
    rw [hg2.common, hg1.common]; exact (saveStart_common hinv false).1
  have hcs : ∀ c ∈ r.D.common, c.Sat x := by rw [hcommon]; exact root_sat ht.1 hroot
  have done : Covers r.D x → (∃ t ∈ r.D.terms, InTerm P r.D t x) := by
    rintro ⟨t, htm, hsat, hine⟩
    exact ⟨t, htm, hx, hcs, hsat, by rw [hine]; simp⟩
  rcases bbRun_cover true (bbInv_init P root) ht.1 hfin h hv0 hint.2
    (Or.inl ⟨root.node 0 none, by simp [bbInit], hroot, Or.inl rfl⟩) with hl | ho | ⟨_, hp⟩
  · exact Or.inr (Or.inr hl)
  · obtain ⟨n, hn, hop⟩ := ho
    exact Or.inl (done ((hc1 x (fun n hn => hvars n (hperm.mem_iff.mp hn))
      ⟨n, hperm.mem_iff.mpr hn, hop⟩).mono hg2))
  · exact Or.inl (done (hc2 x hp))

/-! ## C34: number of terms -/

/-- **C34.** When a `treeStatus` event stops the search, the number of terms equals the number of
leaf nodes, and the recorded terms together with the integer solution (unless pruned nodes are kept,
when there is no separate term for it) make up that number. -/
theorem saved_terms_eq_leaves {P : Relax} {root : NewNode} {es : List BBStep} {s : BB} {keep : Bool}
    {nodes : List CNode} {intSol : List ℚ} {maxLeaf n : ℤ} {timeUp : Bool} {env : SaveEnv}
    {o : Option SaveSt}
    (ht : OnlyTightens P root es) (h : bbRun (bbInit P root) es = .ok s)
    (hperm : nodes.Perm s.tree)
    (hs : treeStatus P keep maxLeaf s nodes intSol timeUp env = .ok (true, n, o)) :
    ∃ r, o = some r ∧ r.numLeaf = n ∧ r.D.numTerms = n ∧
      r.D.numTerms = r.D.terms.length + (if keep = false ∧ intSol ≠ [] then 1 else 0) ∧
      r.D.intSol = if keep then [] else intSol := by
  have hfin : ∀ e ∈ es, ∀ n, e.out = .created n → FiniteWhere n.lo n.hi root.lo root.hi :=
    fun e he n hn => (ht.2 e he n hn).finite
  have hinv := bbRun_inv (bbInv_init P root) hfin h
  have hsy : ∀ n ∈ nodes, Synced s root n := fun n hn => hinv.synced n (hperm.mem_iff.mp hn)
  unfold treeStatus at hs
  dsimp only at hs
  split at hs
  · cases keep with
    | true =>
      simp only [if_true] at hs
      obtain ⟨r, hr, hs⟩ := Res.bind_ok hs
      simp only [Res.ok.injEq, Prod.mk.injEq, true_and] at hs
      unfold saveFromStats at hr
      obtain ⟨s1, hs1, hr⟩ := Res.bind_ok hr
      obtain ⟨hg1, hl1, _⟩ := keepActive_spec hinv ht.1 hsy hs1
      obtain ⟨hg2, hl2, _⟩ := keepPruned_spec hr
      have hg := hg1.trans hg2
      obtain ⟨_, hn0, ht0, hi0⟩ := saveStart_common hinv false
      have h1 := hg.leaf
      have h2 := hg.extra
      simp only [hn0, ht0, List.length_nil] at h1 h2
      have hl : r.numLeaf = leafCount true s nodes intSol := hl2.trans hl1
      have hlc : leafCount true s nodes intSol = s.pruned.length + leftSum nodes := by
        simp [leafCount, leftSum]
      refine ⟨r, hs.2.symm, hs.1, ?_, ?_, ?_⟩
      · rw [← hs.1]
        rw [hl] at h1 ⊢
        omega
      · simp only [Bool.true_eq_false, false_and, if_false]
        push_cast at h2; omega
      · rw [hg.intSol]; simp only [hi0]; rfl
    | false =>
      simp only [Bool.false_eq_true, if_false] at hs
      obtain ⟨r, hr, hs⟩ := Res.bind_ok hs
      simp only [Res.ok.injEq, Prod.mk.injEq] at hs
      unfold saveInformation at hr
      obtain ⟨r0, hr0, hr⟩ := Res.bind_ok hr
      simp only [Res.ok.injEq] at hr
      have hr0f : r0.1 = false ∧ r = r0 := by
        have hrf : r.1 = false := by simpa using hs.1
        split at hr
        · subst hr; cases hrf
        · subst hr; exact ⟨hrf, rfl⟩
      obtain ⟨hg, _⟩ := saveLoop_false hinv hsy hr0 hr0f.1
      obtain ⟨_, hn0, ht0, hi0⟩ := saveStart_common hinv true
      have h1 := hg.leaf
      have h2 := hg.extra
      have h3 := hg.intSol
      refine ⟨r.2, hs.2.2.symm, hs.2.1, ?_⟩
      rw [← hs.2.1, hr0f.2]
      by_cases hi : intSol = []
      · simp only [hi, ne_eq, not_true_eq_false, if_false, hn0, ht0, List.length_nil, leafCount,
          Bool.false_eq_true, leftSum, hi0, and_false] at h1 h2 h3 ⊢
        refine ⟨by omega, by push_cast at h2; omega, h3⟩
      · simp only [hi, ne_eq, not_false_eq_true, if_true, hn0, ht0, List.length_nil, leafCount,
          Bool.false_eq_true, if_false, leftSum, and_self] at h1 h2 h3 ⊢
        refine ⟨by omega, by push_cast at h2; omega, h3⟩
  · simp at hs

/-- Consequently the consistency check at the end of the preparation of the disjunction never
terminates the process after a search stopped by the event handler. -/
theorem pbbFinish_no_exit {P : Relax} {root : NewNode} {es : List BBStep} {s : BB} {keep : Bool}
    {nodes : List CNode} {intSol : List ℚ} {maxLeaf n : ℤ} {timeUp : Bool} {env : SaveEnv}
    {r : SaveSt} (c : CbcEnd)
    (ht : OnlyTightens P root es) (h : bbRun (bbInit P root) es = .ok s)
    (hperm : nodes.Perm s.tree)
    (hs : treeStatus P keep maxLeaf s nodes intSol timeUp env = .ok (true, n, some r)) :
    pbbFinish keep r.D n (decide (intSol ≠ [])) c ≠ .exit ∧
    (c.status = 5 → 2 ≤ r.D.numTerms →
      pbbFinish keep r.D n (decide (intSol ≠ [])) c = .ok (.SUCCESS, r.D)) := by
  obtain ⟨r', hr', h1, h2, h3, _⟩ := saved_terms_eq_leaves ht h hperm hs
  cases hr'
  have hno : ¬ (r.D.numTerms ≠ n ∨ (keep = false ∧
      r.D.numTerms ≠ (r.D.terms.length : ℤ) + if (decide (intSol ≠ [])) = true then 1 else 0)) := by
    rintro (hh | ⟨hk, hh⟩)
    · exact hh h2
    · apply hh
      rw [h3]
      simp [hk]
  unfold pbbFinish
  constructor
  · split
    · split
      · simp
      · split <;> simp
    · simp
  · intro hst hn
    rw [if_neg (by omega), if_neg hno]

/-- **C34 (progress).** A save that fails leaves at most half of the allowed number of leaves, so that
the next events are not cut short; it never happens once the time limit is reached. -/
theorem failed_save_leaves_room {P : Relax} {root : NewNode} {es : List BBStep} {s : BB}
    {keep : Bool} {nodes : List CNode} {intSol : List ℚ} {maxLeaf n : ℤ} {timeUp : Bool}
    {env : SaveEnv} {r : SaveSt}
    (ht : OnlyTightens P root es) (h : bbRun (bbInit P root) es = .ok s)
    (hperm : nodes.Perm s.tree)
    (hs : treeStatus P keep maxLeaf s nodes intSol timeUp env = .ok (false, n, some r)) :
    env.hitTime = false ∧ 2 * n ≤ maxLeaf := by
  have hfin : ∀ e ∈ es, ∀ n, e.out = .created n → FiniteWhere n.lo n.hi root.lo root.hi :=
    fun e he n hn => (ht.2 e he n hn).finite
  have hinv := bbRun_inv (bbInv_init P root) hfin h
  have hsy : ∀ n ∈ nodes, Synced s root n := fun n hn => hinv.synced n (hperm.mem_iff.mp hn)
  unfold treeStatus at hs
  dsimp only at hs
  split at hs
  · cases keep with
    | true =>
      simp only [if_true] at hs
      obtain ⟨r', hr, hs⟩ := Res.bind_ok hs
      simp at hs
    | false =>
      simp only [Bool.false_eq_true, if_false] at hs
      obtain ⟨r', hr, hs⟩ := Res.bind_ok hs
      simp only [Res.ok.injEq, Prod.mk.injEq, Option.some.injEq] at hs
      have hrt : r'.1 = true := by simpa using hs.1
      rw [← hs.2.1]
      unfold saveInformation at hr
      obtain ⟨r0, hr0, hr⟩ := Res.bind_ok hr
      simp only [Res.ok.injEq] at hr
      obtain ⟨_, hn0, ht0, hi0⟩ := saveStart_common hinv true
      cases hr0t : r0.1 with
      | true =>
        rw [hr0t] at hr
        simp only [Bool.not_true, Bool.false_and, Bool.false_eq_true, if_false] at hr
        subst hr
        refine saveLoop_short hinv hsy hr0 hr0t ?_
        by_cases hi : intSol = []
        · simp only [hi, ne_eq, not_true_eq_false, if_false, hn0, leafCount, Bool.false_eq_true, leftSum]
        · simp only [hi, ne_eq, not_false_eq_true, if_true, hn0, leafCount, Bool.false_eq_true,
            if_false, leftSum]; omega
      | false =>
        split at hr
        · rename_i hc
          simp only [Bool.and_eq_true, decide_eq_true_eq, Bool.not_eq_true'] at hc
          subst hr
          refine ⟨hc.1.2, ?_⟩
          obtain ⟨hg, _⟩ := saveLoop_false hinv hsy hr0 hr0t
          have h1 := hg.leaf
          by_cases hi : intSol = []
          · simp only [hi, ne_eq, not_true_eq_false, if_false, hn0, leafCount, Bool.false_eq_true,
              leftSum] at h1
            have := hc.2
            simp only
            omega
          · simp only [hi, ne_eq, not_false_eq_true, if_true, hn0, leafCount, Bool.false_eq_true,
              if_false, leftSum] at h1
            have := hc.2
            simp only
            omega
        · subst hr; rw [hr0t] at hrt; cases hrt
  · simp at hs


/-! ## Examples -/

section Examples

/-- A computation succeeds with a result satisfying a test. -/
def Res.okAnd {α : Type} (r : Res α) (p : α → Bool) : Bool :=
  match r with
  | .ok a => p a
  | _ => false

theorem Res.okAnd_iff {α : Type} {r : Res α} {p : α → Bool} (h : r.okAnd p = true) :
    ∃ a, r = .ok a ∧ p a = true := by
  cases r with
  | ok a => exact ⟨a, rfl, h⟩
  | exit => cases h
  | undef => cases h

/-- Two columns in `[0, 5]`. -/
def bbP : Relax := { lo := [some 0, some 0], hi := [some 5, some 5], rows := [] }

/-- Root: `x0 = 5/2`, down first; the solver has tightened `x1 ≤ 4`. -/
def bbRoot : NewNode :=
  { var := 0, value := 5 / 2, firstUp := false, osi := true, prevLB := 0, prevUB := 5, obj := 1,
    lo := [some 0, some 0], hi := [some 5, some 4] }

/-- The down child of the root branches on `x1 = 1/2`, up first; its up child is dropped. -/
def bbHist : List BBStep :=
  [⟨0, .created
    { var := 1, value := 1 / 2, firstUp := true, osi := false, prevLB := 0, prevUB := 5, obj := 2,
      lo := [some 0, some 0], hi := [some 2, some 4] }⟩,
   ⟨0, .dropped 3⟩]

/-- All LPs are solved. -/
def bbEnv : SaveEnv :=
  { hitTime := false, warmOk := fun _ => true, parentOptimal := fun _ => true, lp := fun _ _ _ => some 7 }

/-- The state after this history. -/
def bbS : BB :=
  match bbRun (bbInit bbP bbRoot) bbHist with
  | .ok s => s
  | _ => bbInit bbP bbRoot

theorem bbS_run : bbRun (bbInit bbP bbRoot) bbHist = .ok bbS := by decide +kernel

theorem bbHist_ok : OnlyTightens bbP bbRoot bbHist := by
  refine ⟨⟨?_, ?_⟩, ?_⟩
  · intro i l h
    match i with
    | 0 => exact ⟨0, rfl, by simp [bbP] at h; linarith⟩
    | 1 => exact ⟨0, rfl, by simp [bbP] at h; linarith⟩
    | (i + 2) => simp [bbP] at h
  · intro i u h
    match i with
    | 0 => exact ⟨5, rfl, by simp [bbP] at h; linarith⟩
    | 1 => exact ⟨4, rfl, by simp [bbP] at h; linarith⟩
    | (i + 2) => simp [bbP] at h
  · intro e he n hn
    simp only [bbHist, List.mem_cons, List.not_mem_nil, or_false] at he
    rcases he with rfl | rfl
    · cases hn
      refine ⟨fun i l h => ?_, fun i u h => ?_⟩
      · match i with
        | 0 => exact ⟨0, rfl, by simp [bbRoot] at h; linarith⟩
        | 1 => exact ⟨0, rfl, by simp [bbRoot] at h; linarith⟩
        | (i + 2) => simp [bbRoot] at h
      · match i with
        | 0 => exact ⟨2, rfl, by simp [bbRoot] at h; linarith⟩
        | 1 => exact ⟨4, rfl, by simp [bbRoot] at h; linarith⟩
        | (i + 2) => simp [bbRoot] at h
    · cases hn

/-- Hypotheses of `bb_covers_partial`, `saved_terms_eq_leaves`: the history is valid, and the event
stops with two terms, one for each open branch. -/
example : OnlyTightens bbP bbRoot bbHist ∧ bbRun (bbInit bbP bbRoot) bbHist = .ok bbS ∧
    (∃ r, saveInformation bbP 3 bbS bbS.tree [] 2 bbEnv = .ok r ∧
      decide (r.1 = false ∧ r.2.D.common = [⟨1, 1, 4⟩] ∧
        r.2.D.terms.map (·.changes) = [[⟨0, 1, 2⟩, ⟨1, 1, 0⟩], [⟨0, 0, 3⟩]].reverse) = true) ∧
    (∃ r, treeStatus bbP false 2 bbS bbS.tree [] false bbEnv = .ok r ∧
      decide (r.1 = true ∧ r.2.1 = 2 ∧ r.2.2.isSome) = true) ∧
    IntegralOn bbRoot bbHist (fun _ => 0) :=
  ⟨bbHist_ok, bbS_run, Res.okAnd_iff (by decide +kernel), Res.okAnd_iff (by decide +kernel),
    ⟨0, by simp⟩, fun e _ n _ => ⟨0, by simp⟩⟩

/-- With pruned nodes kept there is a third term, for the dropped child. -/
example : ∃ r, saveFromStats bbP bbS bbS.tree 3 bbEnv = .ok r ∧
    decide (r.D.terms.map (·.changes) =
      [[⟨0, 0, 3⟩], [⟨0, 1, 2⟩, ⟨1, 1, 0⟩], [⟨0, 1, 2⟩, ⟨1, 0, 1⟩]]) = true :=
  Res.okAnd_iff (by decide +kernel)

/-- Hypotheses of `failed_save_leaves_room`: only one of two wanted leaves is feasible. -/
example : ∃ r, treeStatus bbP false 2 bbS bbS.tree [] false
    { bbEnv with lp := fun i _ _ => if i = 0 then some 7 else none } = .ok r ∧
    decide (r.1 = false ∧ r.2.2.isSome) = true :=
  Res.okAnd_iff (by decide +kernel)

/-- **C05 fails when a child LP is not solved**: the child is treated as infeasible and dropped, and
with it the integral points it contains. -/
theorem bb_unsolved_child_dropped : ∃ (P : Relax) (root : NewNode) (env : SaveEnv) (r : SaveSt) (x : Vec),
    OnlyTightens P root [] ∧ IntegralOn root [] x ∧ P.Feas x ∧ InBnds root.lo root.hi x ∧
    saveInformation P 4 (bbInit P root) (bbInit P root).tree [] 2 env = .ok (false, r) ∧
    ¬ ∃ t ∈ r.D.terms, InTerm P r.D t x := by
  refine ⟨bbP, bbRoot, { bbEnv with hitTime := true, lp := fun _ j _ => if j = 0 then some 7 else none },
    { D := { numTerms := 1, terms := [{ obj := 7, changes := [⟨0, 1, 2⟩], feasible := true }],
             common := [⟨1, 1, 4⟩], rootObj := 1 },
      numLeaf := 1, boundD := 7 }, fun i => if i = 0 then 3 else 0, ⟨bbHist_ok.1, by simp⟩,
      ⟨⟨3, by simp [bbRoot]⟩, by simp⟩, ?_, ?_, by decide +kernel, ?_⟩
  · refine ⟨fun i b h => ?_, fun i b h => ?_, by simp [bbP]⟩
    · match i with
      | 0 => simp only [bbP, List.getElem?_cons_zero, Option.some.injEq] at h; subst h
             intro l hl; cases hl; norm_num
      | 1 => simp only [bbP, List.getElem?_cons_succ, List.getElem?_cons_zero, Option.some.injEq] at h
             subst h; intro l hl; cases hl; norm_num
      | (i + 2) => simp [bbP] at h
    · match i with
      | 0 => simp only [bbP, List.getElem?_cons_zero, Option.some.injEq] at h; subst h
             intro l hl; cases hl; norm_num
      | 1 => simp only [bbP, List.getElem?_cons_succ, List.getElem?_cons_zero, Option.some.injEq] at h
             subst h; intro l hl; cases hl; norm_num
      | (i + 2) => simp [bbP] at h
  · refine ⟨fun i b h => ?_, fun i b h => ?_⟩
    · match i with
      | 0 => simp only [bbRoot, List.getElem?_cons_zero, Option.some.injEq] at h; subst h
             intro l hl; cases hl; norm_num
      | 1 => simp only [bbRoot, List.getElem?_cons_succ, List.getElem?_cons_zero, Option.some.injEq] at h
             subst h; intro l hl; cases hl; norm_num
      | (i + 2) => simp [bbRoot] at h
    · match i with
      | 0 => simp only [bbRoot, List.getElem?_cons_zero, Option.some.injEq] at h; subst h
             intro l hl; cases hl; norm_num
      | 1 => simp only [bbRoot, List.getElem?_cons_succ, List.getElem?_cons_zero, Option.some.injEq] at h
             subst h; intro l hl; cases hl; norm_num
      | (i + 2) => simp [bbRoot] at h
  · rintro ⟨t, ht, _, _, hs, _⟩
    simp only [List.mem_singleton] at ht
    subst ht
    have := hs ⟨0, 1, 2⟩ (by simp)
    norm_num [BChange.Sat] at this

end Examples

end VPC
