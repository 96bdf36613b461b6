import Verif.Props.BBTight

/-!
# The terms saved when pruned nodes are kept (C87)

With the option to keep pruned nodes every term is a branch of a node still on the tree, or the branch
of a node that the solver took and whose child it dropped; and every dropped child has its term.
-/
namespace VPC

/-! ## Specification -/

/-- In the history `es` from `s` the node `p` was taken and the child on its next branch dropped. -/
def DroppedIn : BB → List BBStep → CNode → Prop
  | _, [], _ => False
  | s, e :: es, p =>
    (s.tree[e.pick]? = some p ∧ ∃ o, e.out = .dropped o) ∨ ∃ s1, bbStep s e = .ok s1 ∧ DroppedIn s1 es p

/-! ## The recorded pruned nodes -/

/-- A pruned entry belongs to the branch of a node satisfying `Q`. -/
def PrunedOf (P : Relax) (root : NewNode) (s : BB) (Q : CNode → Prop) (q : NStat) : Prop :=
  ∃ p : CNode, Q p ∧ Synced s root p ∧ Boxed P root p ∧ q.parent = (p.number : ℤ)

theorem PrunedOf.mono {P : Relax} {root : NewNode} {s t : BB} {Q Q' : CNode → Prop} {q : NStat}
    (h : PrunedOf P root s Q q) (hq : ∀ p, Q p → Q' p)
    (hs : ∃ m, t.stats = s.stats ++ m) (hc : s.count2 ≤ t.count2)
    (h1 : t.oLo = s.oLo) (h2 : t.oHi = s.oHi) : PrunedOf P root t Q' q := by
  obtain ⟨p, a, b, c, d⟩ := h
  obtain ⟨m, hm⟩ := hs
  exact ⟨p, hq p a, b.mono (fun i a ha => by rw [hm]; exact getElem?_append_some ha) hc h1 h2, c, d⟩

/-- What one step does to the record of pruned nodes. -/
theorem bbStep_pruned {P : Relax} {root : NewNode} {s s' : BB} {e : BBStep} (hinv : BBInv P root s)
    (ht : ∀ n, e.out = .created n → FiniteWhere n.lo n.hi root.lo root.hi)
    (h : bbStep s e = .ok s') :
    (∃ m, s'.stats = s.stats ++ m) ∧ s.count2 ≤ s'.count2 ∧
    ((∃ n, e.out = .created n) ∧ s'.pruned = s.pruned ∨
      ∃ p o, s.tree[e.pick]? = some p ∧ e.out = .dropped o ∧
        s'.pruned = s.pruned ++ [prunedStat s p o]) := by
  have hinv' := bbStep_inv hinv ht h
  cases hp : s.tree[e.pick]? with
  | none => simp [bbStep, hp] at h
  | some p =>
    have hps := hinv.synced p (List.mem_of_getElem? hp)
    cases ho : e.out with
    | created n =>
      rw [bbStep_created hinv hp ho] at h
      obtain ⟨hinv1, _⟩ := midCreated_inv hinv hps (ht n ho)
      obtain ⟨⟨m, hm⟩, hpr, _, _⟩ := parentAgain_open hinv1 h
      have he : ∃ m', s'.stats = s.stats ++ m' :=
        ⟨_, by rw [hm]; simp only [midCreated, List.append_assoc]; rfl⟩
      refine ⟨he, ?_, Or.inl ⟨⟨n, rfl⟩, by rw [hpr]; rfl⟩⟩
      obtain ⟨m', hm'⟩ := he
      rw [← hinv.len, ← hinv'.len, hm']; simp
    | dropped o =>
      rw [bbStep_dropped hp ho] at h
      obtain ⟨⟨m, hm⟩, hpr, _, _⟩ := parentAgain_open (prunedAdd_inv (o := o) hinv hps) h
      refine ⟨⟨m, hm⟩, ?_, Or.inr ⟨p, o, rfl, rfl, hpr⟩⟩
      rw [← hinv.len, ← hinv'.len, hm]; simp

theorem bbRun_pruned {P : Relax} {root : NewNode} {es : List BBStep} {s s' : BB}
    (hinv : BBInv P root s) (hb : ∀ n ∈ s.tree, Boxed P root n)
    (ht : ∀ e ∈ es, ∀ n, e.out = .created n → FiniteWhere n.lo n.hi root.lo root.hi)
    (hl : ∀ e ∈ es, ∀ n, e.out = .created n →
      n.lo.length = P.lo.length ∧ n.hi.length = P.lo.length)
    (h : bbRun s es = .ok s') {Q : CNode → Prop} (hq : ∀ q ∈ s.pruned, PrunedOf P root s Q q) :
    ∀ q ∈ s'.pruned, PrunedOf P root s' (fun p => Q p ∨ DroppedIn s es p) q := by
  induction es generalizing s Q with
  | nil =>
    simp only [bbRun, Res.ok.injEq] at h; subst h
    intro q hqm
    exact (hq q hqm).mono (fun p hp => Or.inl hp) ⟨[], by simp⟩ le_rfl rfl rfl
  | cons e es ih =>
    simp only [bbRun] at h
    obtain ⟨s1, hs, h⟩ := Res.bind_ok h
    have hinv1 := bbStep_inv hinv (ht e (by simp)) hs
    obtain ⟨hst, hc, hpr⟩ := bbStep_pruned hinv (ht e (by simp)) hs
    have h1 : s1.oLo = s.oLo := by rw [hinv1.oLo, hinv.oLo]
    have h2 : s1.oHi = s.oHi := by rw [hinv1.oHi, hinv.oHi]
    have hq1 : ∀ q ∈ s1.pruned, PrunedOf P root s1
        (fun p => Q p ∨ (s.tree[e.pick]? = some p ∧ ∃ o, e.out = .dropped o)) q := by
      intro q hqm
      rcases hpr with ⟨_, hpr⟩ | ⟨p, o, hp, ho, hpr⟩
      · rw [hpr] at hqm
        exact (hq q hqm).mono (fun p hp => Or.inl hp) hst hc h1 h2
      · rw [hpr] at hqm
        simp only [List.mem_append, List.mem_singleton] at hqm
        rcases hqm with hqm | rfl
        · exact (hq q hqm).mono (fun p hp => Or.inl hp) hst hc h1 h2
        · have hpm := List.mem_of_getElem? hp
          exact (show PrunedOf P root s _ _ from ⟨p, Or.inr ⟨hp, o, ho⟩, hinv.synced p hpm,
            hb p hpm, rfl⟩).mono (fun p hp => hp) hst hc h1 h2
    intro q hqm
    have := ih hinv1 (bbStep_boxed hinv hb (ht e (by simp)) (hl e (by simp)) hs)
      (fun e' he' => ht e' (by simp [he'])) (fun e' he' => hl e' (by simp [he'])) h hq1 q hqm
    refine this.mono (fun p hp => ?_) ⟨[], by simp⟩ le_rfl rfl rfl
    rcases hp with (hp | hp) | hp
    · exact Or.inl hp
    · exact Or.inr (Or.inl hp)
    · exact Or.inr (Or.inr ⟨s1, hs, hp⟩)

/-! ## The saved terms -/

theorem keepBranches_termOf {stats : List NStat} {nd : CNode} {initWay : ℤ} {initVal : ℚ} {base : Relax}
    {lp : ℕ → Relax → Option ℚ} {bs : List ℕ} {s s' : SaveSt}
    (h : keepBranches stats nd.first nd.var initWay initVal base lp bs s = .ok s')
    {R : Vec → Prop}
    (hR : ∀ b ∈ bs, ∀ way value, way = (if b = 0 then initWay else 1 - initWay) →
      value = (if b = 0 then initVal else if way ≤ 0 then initVal - 1 else initVal + 1) →
      ∀ x : Vec, (⟨nd.var, if way = 1 then 0 else 1, value⟩ : BChange).Sat x → R x) :
    ∀ t ∈ s'.D.terms, t ∈ s.D.terms ∨ TermOn stats nd R t := by
  induction bs generalizing s with
  | nil => simp only [keepBranches, Res.ok.injEq] at h; subst h; exact fun t ht => Or.inl ht
  | cons b bs ih =>
    unfold keepBranches at h
    obtain ⟨q, _, h⟩ := Res.bind_ok h
    obtain ⟨s1, hs1, h⟩ := Res.bind_ok h
    intro t ht
    rcases ih h (fun b' hb' => hR b' (by simp [hb'])) t ht with ht | ht
    · rcases setupTerm_mem hs1 ht with ht | ht
      · exact Or.inl ht
      · exact Or.inr ⟨_, _, _, ht, hR b (by simp) _ _ rfl rfl⟩
    · exact Or.inr ht

theorem keepNode_termOf {P : Relax} {root : NewNode} {b : BB} {nd : CNode}
    (hn : Synced b root nd) {env : SaveEnv} {ind : ℕ} {s s' : SaveSt}
    (h : keepNode P b.stats env ind nd s = .ok s') :
    ∀ t ∈ s'.D.terms, t ∈ s.D.terms ∨ TermOf b.stats nd t := by
  obtain ⟨par, cs0, hlast⟩ := hn.last
  obtain ⟨par1, cs1, horig, _⟩ := hn.orig
  unfold keepNode at h
  rw [hlast] at h
  simp only [show (nodeStat nd nd.number nd.first par cs0).id = nd.number from rfl, hlast,
    show (nodeStat nd nd.number nd.first par cs0).orig = nd.first from rfl, horig] at h
  cases hcs : origChanges b.stats nd.first with
  | none => rw [hcs] at h; simp at h
  | some cs =>
    rw [hcs] at h
    simp only at h
    obtain ⟨base, _, h⟩ := Res.bind_ok h
    split at h
    · cases h
    set o := nodeStat { nd with branchIndex := 0 } nd.first nd.first par1 cs1 with ho
    have how : (o.way = 1 ∧ nd.firstUp = true ∧ o.lb = ((⌈nd.value⌉ : ℤ) : ℚ)) ∨
        (o.way ≤ 0 ∧ nd.firstUp = false ∧ o.ub = ((⌊nd.value⌋ : ℤ) : ℚ)) := by
      rw [ho]; simp only [nodeStat, CNode.way, CNode.nextUp]
      cases nd.firstUp
      · right; cases nd.osi <;> simp
      · left; simp
    refine keepBranches_termOf h (fun j hj way value hw hv x hx => ?_)
    have hj2 : nd.branchIndex ≤ j ∧ j ≤ 1 := by
      have hidx := hn.idx
      have h01 : nd.branchIndex = 0 ∨ nd.branchIndex = 1 := by omega
      simp only [nodeStat] at hj
      rcases h01 with h0 | h0 <;> rw [h0] at hj ⊢
      · have : j ∈ [0, 1] := hj
        simp at this; omega
      · have : j ∈ [1] := hj
        simp at this; omega
    subst hw
    unfold CNode.OnBranch CNode.Branch CNode.SecondBranch CNode.nextUp
    have h01 : j = 0 ∨ j = 1 := by omega
    rcases h01 with rfl | rfl
    · have h0 : nd.branchIndex = 0 := by omega
      rcases how with ⟨hw, hu, hlb⟩ | ⟨hw, hu, hub⟩
      · simp only [hw, if_true] at hv hx
        subst hv
        norm_num [BChange.Sat] at hx
        rw [hlb] at hx
        left; simp [hu, h0, hx]
      · rw [if_neg (show ¬ o.way = 1 by omega)] at hv hx
        simp only [if_true, le_refl] at hv hx
        subst hv
        norm_num [BChange.Sat] at hx
        rw [hub] at hx
        left; simp [hu, h0, hx]
    · have h0 : nd.branchIndex = 0 ∨ nd.branchIndex = 1 := by omega
      have hcf : ((⌈nd.value⌉ : ℤ) : ℚ) ≤ ((⌊nd.value⌋ : ℤ) : ℚ) + 1 := by
        exact_mod_cast Int.ceil_le_floor_add_one nd.value
      rcases how with ⟨hw, hu, hlb⟩ | ⟨hw, hu, hub⟩
      · simp only [hw, if_true] at hv hx
        norm_num at hv hx
        subst hv
        norm_num [BChange.Sat] at hx
        rw [hlb] at hx
        rcases h0 with h0 | h0
        · right; simp [hu, h0]; linarith
        · left; simp [hu, h0]; linarith
      · rw [if_neg (show ¬ o.way = 1 by omega)] at hv hx
        norm_num at hv hx
        subst hv
        norm_num [BChange.Sat] at hx
        rw [hub] at hx
        rcases h0 with h0 | h0
        · right; simp [hu, h0]; linarith
        · left; simp [hu, h0]; linarith

theorem keepActive_termOf {P : Relax} {root : NewNode} {b : BB} {env : SaveEnv} {nodes : List CNode}
    (hn : ∀ n ∈ nodes, Synced b root n) {ind : ℕ} {s s' : SaveSt}
    (h : keepActive P b.stats env ind nodes s = .ok s') :
    ∀ t ∈ s'.D.terms, t ∈ s.D.terms ∨ ∃ nd ∈ nodes, TermOf b.stats nd t := by
  induction nodes generalizing ind s with
  | nil => simp only [keepActive, Res.ok.injEq] at h; subst h; exact fun t ht => Or.inl ht
  | cons nd rest ih =>
    unfold keepActive at h
    obtain ⟨s1, h1, h⟩ := Res.bind_ok h
    intro t ht
    rcases ih (fun n hn' => hn n (by simp [hn'])) h t ht with ht | ⟨m, hm, ht⟩
    · rcases keepNode_termOf (hn nd (by simp)) h1 t ht with ht | ht
      · exact Or.inl ht
      · exact Or.inr ⟨nd, by simp, ht⟩
    · exact Or.inr ⟨m, by simp [hm], ht⟩

theorem keepPruned_termOf {P : Relax} {root : NewNode} {b : BB} {Q : CNode → Prop} {pruned : List NStat}
    (hq : ∀ q ∈ pruned, PrunedOf P root b Q q) {s s' : SaveSt}
    (h : keepPruned b.stats pruned s = .ok s') :
    ∀ t ∈ s'.D.terms, t ∈ s.D.terms ∨
      ∃ p, Q p ∧ Synced b root p ∧ Boxed P root p ∧ TermOn b.stats p p.Branch t := by
  induction pruned generalizing s with
  | nil => simp only [keepPruned, Res.ok.injEq] at h; subst h; exact fun t ht => Or.inl ht
  | cons q qs ih =>
    obtain ⟨p, hQ, hsy, hbx, hpar⟩ := hq q (by simp)
    obtain ⟨par, cs0, hlast⟩ := hsy.last
    unfold keepPruned at h
    split at h
    · cases h
    rw [hpar, Int.toNat_natCast, hlast] at h
    simp only at h
    obtain ⟨s1, hs1, h⟩ := Res.bind_ok h
    intro t ht
    rcases ih (fun q' hq' => hq q' (by simp [hq'])) h t ht with ht | ht
    · rcases setupTerm_mem hs1 ht with ht | ht
      · exact Or.inl ht
      · refine Or.inr ⟨p, hQ, hsy, hbx, _, _, _, ht, fun x hx => ?_⟩
        rw [← nodeStat_branch p p.number p.first par cs0 x]
        unfold NStat.Branch
        by_cases hw : (nodeStat p p.number p.first par cs0).way = 1
        · left
          refine ⟨hw, ?_⟩
          simp only [hw, if_true] at hx
          norm_num [BChange.Sat] at hx
          exact hx
        · right
          have hle : (nodeStat p p.number p.first par cs0).way ≤ 0 := by
            simp only [nodeStat, CNode.way] at hw ⊢
            split at hw
            · exact absurd rfl hw
            · rename_i hu; rw [if_neg hu]; split <;> norm_num
          refine ⟨hle, ?_⟩
          rw [if_neg hw] at hx
          norm_num [BChange.Sat] at hx
          exact hx
    · exact Or.inr ht

/-- **C87 (pruned nodes kept).** Every term saved is a branch that a node still on the tree has left, or
the branch of a node that the search took and whose child the solver dropped: all points of the term
satisfy, up to `1e-7`, the bounds the solver had at that node and exactly the inequality of the branch. -/
theorem bb_keep_terms_are_leaves {P : Relax} {root : NewNode} {es : List BBStep} {s : BB}
    {nodes : List CNode} {numLeaf : ℤ} {env : SaveEnv} {r : SaveSt}
    (ht : OnlyTightens P root es) (hcols : SameCols P root es)
    (h : bbRun (bbInit P root) es = .ok s) (hperm : nodes.Perm s.tree)
    (hs : saveFromStats P s nodes numLeaf env = .ok r) :
    ∀ t ∈ r.D.terms,
      (∃ n ∈ s.tree, ∀ x, InTerm P r.D t x → InBndsTol defEps n.lo n.hi x ∧ n.OnBranch x) ∨
      (∃ p, DroppedIn (bbInit P root) es p ∧
        ∀ x, InTerm P r.D t x → InBndsTol defEps p.lo p.hi x ∧ p.Branch x) := by
  have hfin : ∀ e ∈ es, ∀ n, e.out = .created n → FiniteWhere n.lo n.hi root.lo root.hi :=
    fun e he n hn => (ht.2 e he n hn).finite
  have hinv := bbRun_inv (bbInv_init P root) hfin h
  have hb0 : ∀ n ∈ (bbInit P root).tree, Boxed P root n := by
    intro n hn
    simp only [bbInit, List.mem_singleton] at hn
    subst hn
    exact ⟨fun _ => ⟨rfl, rfl⟩, le_of_eq hcols.2.1, le_of_eq hcols.2.2.1⟩
  have hbox := bbRun_boxed (bbInv_init P root) hb0 hfin hcols.2.2.2 h
  have hpru := bbRun_pruned (bbInv_init P root) hb0 hfin hcols.2.2.2 h (Q := fun _ => False)
    (by intro q hq; simp [bbInit] at hq)
  have hsy : ∀ n ∈ nodes, Synced s root n := fun n hn => hinv.synced n (hperm.mem_iff.mp hn)
  unfold saveFromStats at hs
  obtain ⟨s1, hs1, hs⟩ := Res.bind_ok hs
  obtain ⟨hg1, _, _⟩ := keepActive_spec hinv ht.1 hsy hs1
  obtain ⟨hg2, _, _⟩ := keepPruned_spec hs
  obtain ⟨hc0, _, ht0, _⟩ := saveStart_common hinv false
  have hcom : r.D.common = changedBounds root.lo root.hi P.lo P.hi := by
    rw [hg2.common, hg1.common]; exact hc0
  intro t htm
  rcases keepPruned_termOf hpru hs t htm with htm | ⟨p, hp, hps, hpb, hto⟩
  · rcases keepActive_termOf hsy hs1 t htm with htm | ⟨n, hn, hto⟩
    · exfalso; simp only [ht0, List.not_mem_nil] at htm
    · have hn' := hperm.mem_iff.mp hn
      exact Or.inl ⟨n, hn', fun x hx => termOn_leaf hinv (hinv.synced n hn') (hbox n hn')
        ⟨hcols.2.1, hcols.2.2.1⟩ hcom hto hx⟩
  · have hp' : DroppedIn (bbInit P root) es p := hp.resolve_left (fun h => h)
    exact Or.inr ⟨p, hp', fun x hx => termOn_leaf hinv hps hpb
      ⟨hcols.2.1, hcols.2.2.1⟩ hcom hto hx⟩

/-- Hypotheses of `bb_keep_terms_are_leaves`: the history of `bbHist` with one dropped child, three terms. -/
example : OnlyTightens bbP bbRoot bbHist ∧ SameCols bbP bbRoot bbHist ∧
    bbRun (bbInit bbP bbRoot) bbHist = .ok bbS ∧ (∃ p, DroppedIn (bbInit bbP bbRoot) bbHist p) ∧
    ∃ r, saveFromStats bbP bbS bbS.tree 3 bbEnv = .ok r ∧
      decide (r.D.terms.length = 3) = true := by
  refine ⟨bbHist_ok, ⟨rfl, rfl, rfl, ?_⟩, bbS_run, ?_, Res.okAnd_iff (by decide +kernel)⟩
  · intro e he n hn
    simp only [bbHist, List.mem_cons, List.not_mem_nil, or_false] at he
    rcases he with rfl | rfl
    · cases hn; exact ⟨rfl, rfl⟩
    · cases hn
  · obtain ⟨s1, hs1, h2⟩ : ∃ s1, bbStep (bbInit bbP bbRoot) (bbHist.headD ⟨0, .dropped 0⟩) = .ok s1 ∧
        (decide (s1.tree.length = 2)) = true := Res.okAnd_iff (by decide +kernel)
    simp only [decide_eq_true_eq] at h2
    obtain ⟨p, hp⟩ : ∃ p, s1.tree[(bbHist.getD 1 ⟨0, .dropped 0⟩).pick]? = some p :=
      ⟨_, List.getElem?_eq_getElem (by rw [h2]; decide)⟩
    exact ⟨p, Or.inr ⟨s1, hs1, Or.inl ⟨hp, _, rfl⟩⟩⟩

end VPC
