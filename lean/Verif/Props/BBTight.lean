import Verif.Props.BBCover

/-!
# The saved terms are the leaves (C87) and the outcome of the preparation (C88)

Coverage (C05) says that no leaf of the partial tree is forgotten.  Here: every saved term *is* a
leaf, up to the tolerance with which changed bounds are detected.
-/
namespace VPC

/-! ## Specification -/

/-- `x` satisfies the bounds up to `eps`. -/
def InBndsTol (eps : ℚ) (lo hi : List (Option ℚ)) (x : Vec) : Prop :=
  (∀ (i : ℕ) (l : ℚ), lo[i]? = some (some l) → l - eps ≤ x i) ∧
  ∀ (i : ℕ) (u : ℚ), hi[i]? = some (some u) → x i ≤ u + eps

/-- The inequality of the branch that a node takes after the next one. -/
def CNode.SecondBranch (n : CNode) (x : Vec) : Prop :=
  if n.nextUp then x n.var ≤ ((⌈n.value⌉ : ℤ) : ℚ) - 1 else ((⌊n.value⌋ : ℤ) : ℚ) + 1 ≤ x n.var

/-- `x` is on one of the branches a node has left. -/
def CNode.OnBranch (n : CNode) (x : Vec) : Prop :=
  n.Branch x ∨ (n.branchIndex = 0 ∧ n.SecondBranch x)

/-- All nodes have as many columns as the problem. -/
def SameCols (P : Relax) (root : NewNode) (es : List BBStep) : Prop :=
  P.hi.length = P.lo.length ∧ root.lo.length = P.lo.length ∧ root.hi.length = P.lo.length ∧
  ∀ e ∈ es, ∀ n, e.out = .created n → n.lo.length = P.lo.length ∧ n.hi.length = P.lo.length

/-- Two bounds that the event handler must tell apart: one infinite, or at least `1e-7` apart. -/
def Apart : Option ℚ → Option ℚ → Prop
  | none, none => False
  | some a, some b => defEps ≤ |a - b|
  | _, _ => True

theorem bndDiffers_iff (a b : Option ℚ) : bndDiffers a b = true ↔ Apart a b := by
  cases a <;> cases b <;> simp [bndDiffers, Apart, isVal]

/-! ## The recorded changes -/

/-- **C87 (which changes are recorded).** A bound change is recorded for a node exactly when that bound
of the node is apart from the reference bound, and the value recorded is the node's (`∓DBL_MAX` if
infinite). -/
theorem recorded_change_iff (lo hi oLo oHi : List (Option ℚ)) (c : BChange) :
    c ∈ changedBounds lo hi oLo oHi ↔ c.var < oLo.length ∧
      ((c.bound = 0 ∧ c.value = (lo.getD c.var none).getD (-dblMax) ∧
          Apart (lo.getD c.var none) (oLo.getD c.var none)) ∨
       (c.bound = 1 ∧ c.value = (hi.getD c.var none).getD dblMax ∧
          Apart (hi.getD c.var none) (oHi.getD c.var none))) := by
  simp only [changedBounds, List.mem_flatMap, List.mem_range, changedAt, List.mem_append]
  constructor
  · rintro ⟨i, hi', h | h⟩
    · split at h
      · rename_i hd
        simp only [List.mem_singleton] at h; subst h
        exact ⟨hi', Or.inl ⟨rfl, rfl, (bndDiffers_iff _ _).mp hd⟩⟩
      · simp at h
    · split at h
      · rename_i hd
        simp only [List.mem_singleton] at h; subst h
        exact ⟨hi', Or.inr ⟨rfl, rfl, (bndDiffers_iff _ _).mp hd⟩⟩
      · simp at h
  · rintro ⟨hlt, ⟨hb, hv, hd⟩ | ⟨hb, hv, hd⟩⟩
    · refine ⟨c.var, hlt, Or.inl ?_⟩
      rw [if_pos ((bndDiffers_iff _ _).mpr hd), List.mem_singleton]
      cases c; simp only at hb hv ⊢; subst hb hv; rfl
    · refine ⟨c.var, hlt, Or.inr ?_⟩
      rw [if_pos ((bndDiffers_iff _ _).mpr hd), List.mem_singleton]
      cases c; simp only at hb hv ⊢; subst hb hv; rfl

theorem getD_of_some {l : List (Option ℚ)} {i : ℕ} {b : Option ℚ} (h : l[i]? = some b) :
    l.getD i none = b := by
  rw [List.getD_eq_getElem?_getD, h]; rfl

/-- The reference bounds and the recorded changes imply the bounds of the node up to `1e-7`. -/
theorem changes_imply_box {lo hi oLo oHi : List (Option ℚ)} (h1 : lo.length ≤ oLo.length)
    (h2 : hi.length ≤ oLo.length) {x : Vec} (hx : InBndsTol 0 oLo oHi x)
    (hc : ∀ c ∈ changedBounds lo hi oLo oHi, c.Sat x) : InBndsTol defEps lo hi x := by
  have he : (0 : ℚ) < defEps := by norm_num [defEps]
  constructor
  · intro i l hl
    have hlt : i < oLo.length := lt_of_lt_of_le (List.getElem?_eq_some_iff.mp hl).1 h1
    by_cases ha : Apart (lo.getD i none) (oLo.getD i none)
    · have := hc ⟨i, 0, l⟩ ((recorded_change_iff _ _ _ _ _).mpr
        ⟨hlt, Or.inl ⟨rfl, by rw [getD_of_some hl]; rfl, ha⟩⟩)
      simp only [BChange.Sat, le_refl, if_true] at this
      linarith
    · rw [getD_of_some hl] at ha
      cases ho : oLo.getD i none with
      | none => rw [ho] at ha; simp [Apart] at ha
      | some o =>
        rw [ho] at ha
        simp only [Apart, not_le, abs_lt] at ha
        have := hx.1 i o (getD_none_some ho)
        linarith [ha.2]
  · intro i u hu
    have hlt : i < oLo.length := lt_of_lt_of_le (List.getElem?_eq_some_iff.mp hu).1 h2
    by_cases ha : Apart (hi.getD i none) (oHi.getD i none)
    · have := hc ⟨i, 1, u⟩ ((recorded_change_iff _ _ _ _ _).mpr
        ⟨hlt, Or.inr ⟨rfl, by rw [getD_of_some hu]; rfl, ha⟩⟩)
      simp only [BChange.Sat] at this
      norm_num at this
      linarith
    · rw [getD_of_some hu] at ha
      cases ho : oHi.getD i none with
      | none => rw [ho] at ha; simp [Apart] at ha
      | some o =>
        rw [ho] at ha
        simp only [Apart, not_le, abs_lt] at ha
        have := hx.2 i o (getD_none_some ho)
        linarith [ha.1]

theorem updOrig_length (cs : List BChange) (p : List (Option ℚ) × List (Option ℚ)) :
    (updOrig cs p).1.length = p.1.length ∧ (updOrig cs p).2.length = p.2.length := by
  induction cs generalizing p with
  | nil => exact ⟨rfl, rfl⟩
  | cons c cs ih =>
    obtain ⟨lo, hi⟩ := p
    unfold updOrig
    split
    · have := ih (lo.set c.var (some c.value), hi); simpa using this
    · have := ih (lo, hi.set c.var (some c.value)); simpa using this

theorem updOrig_sat {cs : List BChange} {p : List (Option ℚ) × List (Option ℚ)} {x : Vec}
    (hx : InBndsTol 0 p.1 p.2 x) (hc : ∀ c ∈ cs, c.Sat x) :
    InBndsTol 0 (updOrig cs p).1 (updOrig cs p).2 x := by
  induction cs generalizing p with
  | nil => exact hx
  | cons c cs ih =>
    obtain ⟨lo, hi⟩ := p
    have h0 := hc c (by simp)
    unfold BChange.Sat at h0
    unfold updOrig
    split
    · rename_i hb
      rw [if_pos hb] at h0
      refine ih ⟨fun i l hl => ?_, hx.2⟩ (fun d hd => hc d (by simp [hd]))
      simp only [List.getElem?_set] at hl
      split at hl
      · rename_i h; subst h
        split at hl
        · simp only [Option.some.injEq] at hl; subst hl; linarith
        · cases hl
      · exact hx.1 i l hl
    · rename_i hb
      rw [if_neg hb] at h0
      refine ih ⟨hx.1, fun i l hl => ?_⟩ (fun d hd => hc d (by simp [hd]))
      simp only [List.getElem?_set] at hl
      split at hl
      · rename_i h; subst h
        split at hl
        · simp only [Option.some.injEq] at hl; subst hl; linarith
        · cases hl
      · exact hx.2 i l hl

/-- The reference bounds after the first event are implied by the problem and the common changes. -/
theorem ref_sat {P : Relax} {root : NewNode} {x : Vec} (hx : InBnds P.lo P.hi x)
    (hc : ∀ c ∈ changedBounds root.lo root.hi P.lo P.hi, c.Sat x) :
    InBndsTol 0 (bbInit P root).oLo (bbInit P root).oHi x :=
  updOrig_sat ⟨fun i l hl => by have := hx.1 _ _ hl _ rfl; linarith,
    fun i l hl => by have := hx.2 _ _ hl _ rfl; linarith⟩ hc

/-! ## Every term is a leaf -/

/-- Invariant: the entry number 0 is the root, and all nodes have as many columns as the problem. -/
def Boxed (P : Relax) (root : NewNode) (n : CNode) : Prop :=
  (n.first = 0 → n.lo = root.lo ∧ n.hi = root.hi) ∧
  n.lo.length ≤ P.lo.length ∧ n.hi.length ≤ P.lo.length

theorem parentAgain_boxed {P : Relax} {root : NewNode} {s s' : BB} {p : CNode} {rest : List CNode}
    (hinv : BBInv P root s) (hp : Boxed P root p) (hrest : ∀ n ∈ rest, Boxed P root n)
    (h : parentAgain s p rest = .ok s') : ∀ n ∈ s'.tree, Boxed P root n := by
  rw [parentAgain_eq hinv] at h
  split at h
  · simp only [Res.ok.injEq] at h; subst h
    intro n hn
    simp only [List.mem_append, List.mem_singleton] at hn
    rcases hn with hn | rfl
    · exact hrest n hn
    · exact hp
  · simp only [Res.ok.injEq] at h; subst h
    exact hrest

theorem bbStep_boxed {P : Relax} {root : NewNode} {s s' : BB} {e : BBStep} (hinv : BBInv P root s)
    (hb : ∀ n ∈ s.tree, Boxed P root n)
    (ht : ∀ n, e.out = .created n → FiniteWhere n.lo n.hi root.lo root.hi)
    (hl : ∀ n, e.out = .created n → n.lo.length = P.lo.length ∧ n.hi.length = P.lo.length)
    (h : bbStep s e = .ok s') : ∀ n ∈ s'.tree, Boxed P root n := by
  cases hp : s.tree[e.pick]? with
  | none => simp [bbStep, hp] at h
  | some p =>
    have hpm := List.mem_of_getElem? hp
    have hps := hinv.synced p hpm
    have hpos : 0 < s.count2 := by
      have := lt_of_get hinv.stat0; rw [hinv.len] at this; exact this
    cases ho : e.out with
    | created n =>
      rw [bbStep_created hinv hp ho] at h
      obtain ⟨h1, h2⟩ := midCreated_inv hinv hps (ht n ho)
      refine parentAgain_boxed h1 (hb p hpm) ?_ h
      intro m hm
      simp only [List.mem_append, List.mem_singleton] at hm
      rcases hm with hm | rfl
      · exact hb m (mem_eraseIdx_mem hm)
      · obtain ⟨a, b⟩ := hl n ho
        exact ⟨fun h0 => by simp only [NewNode.node] at h0; omega, le_of_eq a, le_of_eq b⟩
    | dropped o =>
      rw [bbStep_dropped hp ho] at h
      exact parentAgain_boxed (prunedAdd_inv (o := o) hinv hps) (hb p hpm)
        (fun m hm => hb m (mem_eraseIdx_mem hm)) h

theorem bbRun_boxed {P : Relax} {root : NewNode} {es : List BBStep} {s s' : BB}
    (hinv : BBInv P root s) (hb : ∀ n ∈ s.tree, Boxed P root n)
    (ht : ∀ e ∈ es, ∀ n, e.out = .created n → FiniteWhere n.lo n.hi root.lo root.hi)
    (hl : ∀ e ∈ es, ∀ n, e.out = .created n →
      n.lo.length = P.lo.length ∧ n.hi.length = P.lo.length)
    (h : bbRun s es = .ok s') : ∀ n ∈ s'.tree, Boxed P root n := by
  induction es generalizing s with
  | nil => simp only [bbRun, Res.ok.injEq] at h; subst h; exact hb
  | cons e es ih =>
    simp only [bbRun] at h
    obtain ⟨s1, hs, h⟩ := Res.bind_ok h
    exact ih (bbStep_inv hinv (ht e (by simp)) hs)
      (bbStep_boxed hinv hb (ht e (by simp)) (hl e (by simp)) hs)
      (fun e' he' => ht e' (by simp [he'])) (fun e' he' => hl e' (by simp [he'])) h

/-- A term was set up for a node, with a branching bound that implies `R`. -/
def TermOn (stats : List NStat) (nd : CNode) (R : Vec → Prop) (t : Term) : Prop :=
  ∃ (way : ℤ) (v : ℚ) (ans : Option ℚ), bbTerm stats nd.first nd.var way v ans = some t ∧
    ∀ x : Vec, (⟨nd.var, if way = 1 then 0 else 1, v⟩ : BChange).Sat x → R x

/-- A term was set up for a branch of a node. -/
def TermOf (stats : List NStat) (nd : CNode) (t : Term) : Prop := TermOn stats nd nd.OnBranch t

theorem setupTerm_mem {keep : Bool} {stats : List NStat} {orig var : ℕ} {way : ℤ} {value : ℚ}
    {ans : Option ℚ} {s s' : SaveSt} (h : setupTerm keep stats orig var way value ans s = .ok s')
    {t : Term} (ht : t ∈ s'.D.terms) :
    t ∈ s.D.terms ∨ bbTerm stats orig var way value ans = some t := by
  obtain ⟨_, _, h3, h4⟩ := setupTerm_spec h
  cases hk : ans.isSome || keep with
  | true =>
    obtain ⟨t', ht', hts, _⟩ := h3 hk
    rw [hts] at ht
    simp only [List.mem_append, List.mem_singleton] at ht
    rcases ht with ht | rfl
    · exact Or.inl ht
    · exact Or.inr ht'
  | false => rw [(h4 hk).1] at ht; exact Or.inl ht

theorem saveNode_termOf {P : Relax} {maxLeaf : ℤ} {root : NewNode} {b : BB} {env : SaveEnv} {ind : ℕ}
    {rem : ℤ} {nd : CNode} {st0 : Bool} {s : SaveSt} {r : Bool × SaveSt}
    (hn : Synced b root nd) (h : saveNode P maxLeaf b.stats env ind rem nd st0 s = .ok r) :
    ∀ t ∈ r.2.D.terms, t ∈ s.D.terms ∨ TermOf b.stats nd t := by
  obtain ⟨par, cs0, hlast⟩ := hn.last
  unfold saveNode at h
  rw [hlast] at h
  simp only [show (nodeStat nd nd.number nd.first par cs0).id = nd.number from rfl, hlast] at h
  set st := nodeStat nd nd.number nd.first par cs0 with hst
  have horig : st.orig = nd.first := rfl
  have hbv : st.bvar = nd.var := rfl
  have hbi : st.branchIndex = nd.branchIndex := rfl
  rw [horig, hbv] at h
  have hway : (st.way = 1 ∧ nd.nextUp = true ∧ st.lb = ((⌈nd.value⌉ : ℤ) : ℚ)) ∨
      (st.way ≤ 0 ∧ nd.nextUp = false ∧ st.ub = ((⌊nd.value⌋ : ℤ) : ℚ)) := by
    rw [hst]; simp only [nodeStat, CNode.way]
    rcases Bool.eq_false_or_eq_true nd.nextUp with hu | hu
    · left; simp [hu]
    · right; rcases Bool.eq_false_or_eq_true nd.osi with ho | ho <;> simp [hu, ho]
  cases hcs : origChanges b.stats nd.first with
  | none => rw [hcs] at h; simp at h
  | some cs =>
    rw [hcs] at h
    simp only at h
    obtain ⟨base, hbase, h⟩ := Res.bind_ok h
    split at h
    · cases h
    split at h
    · cases h
    obtain ⟨q1, hq1, h⟩ := Res.bind_ok h
    obtain ⟨s1, hs1, h⟩ := Res.bind_ok h
    have hf : ∀ t ∈ s1.D.terms, t ∈ s.D.terms ∨ TermOf b.stats nd t := by
      intro t ht
      rcases setupTerm_mem hs1 ht with ht | ht
      · exact Or.inl ht
      · refine Or.inr ⟨_, _, _, ht, fun x hx => Or.inl ?_⟩
        unfold CNode.Branch
        rcases hway with ⟨hw, hu, hv⟩ | ⟨hw, hu, hv⟩
        · rw [hw] at hx
          simp only [BChange.Sat, if_true, le_refl] at hx
          rw [if_neg (by norm_num), hv] at hx
          rw [hu, if_pos rfl]; exact hx
        · rw [if_neg (show ¬ st.way = 1 by omega), if_pos hw] at hx
          simp only [BChange.Sat] at hx
          rw [if_neg (by norm_num), hv] at hx
          rw [hu, if_neg (by simp)]; exact hx
    split at h
    · rename_i hcond
      simp only [Bool.and_eq_true, beq_iff_eq, hbi] at hcond
      obtain ⟨q2, hq2, h⟩ := Res.bind_ok h
      obtain ⟨s2, hs2, h⟩ := Res.bind_ok h
      simp only [Res.ok.injEq] at h
      subst h
      intro t ht
      rcases setupTerm_mem hs2 ht with ht | ht
      · exact hf t ht
      · refine Or.inr ⟨_, _, _, ht, fun x hx => Or.inr ⟨hcond.2, ?_⟩⟩
        unfold CNode.SecondBranch
        rcases hway with ⟨hw, hu, hv⟩ | ⟨hw, hu, hv⟩
        · rw [hw] at hx
          norm_num [BChange.Sat] at hx
          rw [hv] at hx
          rw [hu, if_pos rfl]; exact hx
        · simp only [if_pos hw] at hx
          norm_num [BChange.Sat] at hx
          rw [hv] at hx
          rw [hu, if_neg (by simp)]; exact hx
    · simp only [Res.ok.injEq] at h
      subst h
      exact hf

theorem saveLoop_termOf {P : Relax} {maxLeaf : ℤ} {root : NewNode} {b : BB} {env : SaveEnv}
    {nodes : List CNode} (hn : ∀ n ∈ nodes, Synced b root n) {ind : ℕ} {st0 : Bool}
    {s : SaveSt} {r : Bool × SaveSt} (h : saveLoop P maxLeaf b.stats env ind nodes st0 s = .ok r) :
    ∀ t ∈ r.2.D.terms, t ∈ s.D.terms ∨ ∃ nd ∈ nodes, TermOf b.stats nd t := by
  induction nodes generalizing ind s st0 with
  | nil => simp only [saveLoop, Res.ok.injEq] at h; subst h; exact fun t ht => Or.inl ht
  | cons nd rest ih =>
    unfold saveLoop at h
    split at h
    · simp only [Res.ok.injEq] at h; subst h; exact fun t ht => Or.inl ht
    · obtain ⟨r1, h1, h⟩ := Res.bind_ok h
      intro t ht
      rcases ih (fun n hn' => hn n (by simp [hn'])) h t ht with ht | ⟨m, hm, ht⟩
      · rcases saveNode_termOf (hn nd (by simp)) h1 t ht with ht | ht
        · exact Or.inl ht
        · exact Or.inr ⟨nd, by simp, ht⟩
      · exact Or.inr ⟨m, by simp [hm], ht⟩

theorem saveLoop_common {P : Relax} {maxLeaf : ℤ} {root : NewNode} {b : BB} {env : SaveEnv}
    (hinv : BBInv P root b) {nodes : List CNode} (hn : ∀ n ∈ nodes, Synced b root n)
    {ind : ℕ} {st0 : Bool} {s : SaveSt} {r : Bool × SaveSt}
    (h : saveLoop P maxLeaf b.stats env ind nodes st0 s = .ok r) : r.2.D.common = s.D.common := by
  induction nodes generalizing ind s st0 with
  | nil => simp only [saveLoop, Res.ok.injEq] at h; subst h; rfl
  | cons nd rest ih =>
    unfold saveLoop at h
    split at h
    · simp only [Res.ok.injEq] at h; subst h; rfl
    · obtain ⟨r1, h1, h⟩ := Res.bind_ok h
      obtain ⟨_, ⟨k, hg, _⟩, _⟩ := saveNode_spec hinv (hn nd (by simp)) h1
      rw [ih (fun n hn' => hn n (by simp [hn'])) h, hg.common]

/-- A term set up for a branch of a node lies in that branch of that node. -/
theorem termOn_leaf {P : Relax} {root : NewNode} {s : BB} {nd : CNode} {D : Disj} {t : Term}
    {R : Vec → Prop}
    (hinv : BBInv P root s) (hn : Synced s root nd) (hb : Boxed P root nd)
    (hl : root.lo.length = P.lo.length ∧ root.hi.length = P.lo.length)
    (hcm : D.common = changedBounds root.lo root.hi P.lo P.hi) (h : TermOn s.stats nd R t)
    {x : Vec} (hx : InTerm P D t x) : InBndsTol defEps nd.lo nd.hi x ∧ R x := by
  obtain ⟨way, v, ans, ht, hbr⟩ := h
  obtain ⟨hP, hc, hsat, _⟩ := hx
  rw [hcm] at hc
  have href := ref_sat (root := root) ⟨hP.1, hP.2.1⟩ hc
  unfold bbTerm at ht
  split at ht
  · rename_i cs st1 h1 h2
    simp only [Option.some.injEq] at ht; subst ht
    refine ⟨?_, hbr x (hsat _ (by simp))⟩
    by_cases h0 : nd.first = 0
    · rw [(hb.1 h0).1, (hb.1 h0).2]
      refine changes_imply_box (le_of_eq hl.1) (le_of_eq hl.2)
        ⟨fun i l hl => by have := hP.1 _ _ hl _ rfl; linarith,
          fun i l hl => by have := hP.2.1 _ _ hl _ rfl; linarith⟩ hc
    · obtain ⟨par, cs', ho, hcs⟩ := hn.orig
      have h1' : cs = changedBounds nd.lo nd.hi s.oLo s.oHi := by
        unfold origChanges at h1
        rw [if_neg h0, ho] at h1
        simp only [Option.map_some, Option.some.injEq] at h1
        rw [← hcs h0, ← h1]; rfl
      have hlen : s.oLo.length = P.lo.length := by
        rw [hinv.oLo]; exact (updOrig_length _ _).1
      rw [hinv.oLo, hinv.oHi] at h1'
      rw [hinv.oLo] at hlen
      refine changes_imply_box (by rw [hlen]; exact hb.2.1) (by rw [hlen]; exact hb.2.2) href ?_
      intro c hc'
      exact hsat c (by rw [← h1'] at hc'; simp [hc'])
  · cases ht

/-- **C87.** Every term saved from a partial tree is a leaf of it: there is a node on the tree such that
all points of the term satisfy, up to `1e-7`, the bounds the solver had at that node, and exactly the
inequality of one of the branches the node had left. (Pruned nodes not kept.) -/
theorem bb_terms_are_leaves {P : Relax} {root : NewNode} {es : List BBStep} {s : BB}
    {nodes : List CNode} {intSol : List ℚ} {maxLeaf numLeaf : ℤ} {env : SaveEnv} {r : Bool × SaveSt}
    (ht : OnlyTightens P root es) (hcols : SameCols P root es)
    (h : bbRun (bbInit P root) es = .ok s) (hperm : nodes.Perm s.tree)
    (hs : saveInformation P maxLeaf s nodes intSol numLeaf env = .ok r) :
    ∀ t ∈ r.2.D.terms, ∃ n ∈ s.tree, ∀ x, InTerm P r.2.D t x →
      InBndsTol defEps n.lo n.hi x ∧ n.OnBranch x := by
  have hfin : ∀ e ∈ es, ∀ n, e.out = .created n → FiniteWhere n.lo n.hi root.lo root.hi :=
    fun e he n hn => (ht.2 e he n hn).finite
  have hinv := bbRun_inv (bbInv_init P root) hfin h
  have hbox := bbRun_boxed (bbInv_init P root) (by
    intro n hn
    simp only [bbInit, List.mem_singleton] at hn
    subst hn
    exact ⟨fun _ => ⟨rfl, rfl⟩, le_of_eq hcols.2.1, le_of_eq hcols.2.2.1⟩) hfin hcols.2.2.2 h
  have hsy : ∀ n ∈ nodes, Synced s root n := fun n hn => hinv.synced n (hperm.mem_iff.mp hn)
  unfold saveInformation at hs
  obtain ⟨r0, hr0, hs⟩ := Res.bind_ok hs
  simp only [Res.ok.injEq] at hs
  have hD : r.2 = r0.2 := by split at hs <;> rw [← hs]
  obtain ⟨hc0, _, ht0, _⟩ := saveStart_common hinv true
  have hcom : r0.2.D.common = changedBounds root.lo root.hi P.lo P.hi := by
    rw [saveLoop_common hinv hsy hr0, ← hc0]
    simp only
    split <;> rfl
  rw [hD]
  intro t htm
  rcases saveLoop_termOf hsy hr0 t htm with htm | ⟨n, hn, hto⟩
  · exfalso
    simp only at htm
    split at htm <;> · simp only [ht0, List.not_mem_nil] at htm
  · have hn' := hperm.mem_iff.mp hn
    exact ⟨n, hn', fun x hx => termOn_leaf hinv (hinv.synced n hn') (hbox n hn')
      ⟨hcols.2.1, hcols.2.2.1⟩ hcom hto hx⟩

/-- Hypotheses of `bb_terms_are_leaves`: the history of `bbHist`, two terms. -/
example : OnlyTightens bbP bbRoot bbHist ∧ SameCols bbP bbRoot bbHist ∧
    bbRun (bbInit bbP bbRoot) bbHist = .ok bbS ∧
    ∃ r, saveInformation bbP 3 bbS bbS.tree [] 2 bbEnv = .ok r ∧
      decide (r.2.D.terms.length = 2) = true := by
  refine ⟨bbHist_ok, ⟨rfl, rfl, rfl, ?_⟩, bbS_run, Res.okAnd_iff (by decide +kernel)⟩
  intro e he n hn
  simp only [bbHist, List.mem_cons, List.not_mem_nil, or_false] at he
  rcases he with rfl | rfl
  · cases hn; exact ⟨rfl, rfl⟩
  · cases hn

/-- The tolerance is real: a bound tightened by less than `1e-7` is not recorded, so that the term is
strictly larger than the leaf. -/
theorem small_change_not_recorded : ∃ (lo hi oLo oHi : List (Option ℚ)) (x : Vec),
    changedBounds lo hi oLo oHi = [] ∧ InBnds oLo oHi x ∧ ¬ InBnds lo hi x := by
  refine ⟨[some (1 / 10 ^ 8)], [some 1], [some 0], [some 1], fun _ => 0, by decide +kernel,
    ⟨fun i b h => ?_, fun i b h => ?_⟩, fun h => ?_⟩
  · match i with
    | 0 => simp at h; subst h; intro l hl; cases hl; norm_num
    | i + 1 => simp at h
  · match i with
    | 0 => simp at h; subst h; intro l hl; cases hl; norm_num
    | i + 1 => simp at h
  · have := h.1 0 (some (1 / 10 ^ 8)) rfl _ rfl
    norm_num at this

/-! ## C88: the outcome of the preparation -/

/-- **C88.** What each outcome of the preparation of a tree-based disjunction means. -/
theorem pbb_outcome {keep found : Bool} {D D' : Disj} {numLeaf : ℤ} {c : CbcEnd} {e : DisjExit}
    (h : pbbFinish keep D numLeaf found c = .ok (e, D')) :
    (e = .SUCCESS ∧ D' = D ∧ 2 ≤ D.numTerms ∧ D.numTerms = numLeaf ∧
      (c.status ≠ 0 ∧ c.status ≠ 1 ∧ c.status ≠ 2) ∧
      (keep = false → D.numTerms = (D.terms.length : ℤ) + if found then 1 else 0)) ∨
    (e = .OPTIMAL_SOLUTION_FOUND ∧ c.provenOptimal = true ∧
      D' = { D with bestObj := c.obj, worstObj := c.obj, intObj := c.obj, intSol := c.sol } ∧
      (c.status = 0 ∨ c.status = 1 ∨ c.status = 2 ∨ D.numTerms ≤ 1)) ∨
    (e = .TOO_FEW_TERMS ∧ c.provenOptimal = false ∧ D.numTerms ≤ 1 ∧ D' = D) ∨
    (e = .UNKNOWN ∧ c.provenOptimal = false ∧ 2 ≤ D.numTerms ∧ D' = D ∧
      (c.status = 0 ∨ c.status = 1 ∨ c.status = 2)) := by
  unfold pbbFinish at h
  generalize (if found = true then (1 : ℤ) else 0) = f at h ⊢
  split at h
  · rename_i hs
    split at h
    · rename_i ho
      simp only [Res.ok.injEq, Prod.mk.injEq] at h
      obtain ⟨rfl, rfl⟩ := h
      exact Or.inr (Or.inl ⟨rfl, ho, rfl, hs⟩)
    · rename_i ho
      rw [Bool.not_eq_true] at ho
      split at h
      · rename_i hn
        simp only [Res.ok.injEq, Prod.mk.injEq] at h
        obtain ⟨rfl, rfl⟩ := h
        exact Or.inr (Or.inr (Or.inl ⟨rfl, ho, hn, rfl⟩))
      · rename_i hn
        simp only [Res.ok.injEq, Prod.mk.injEq] at h
        obtain ⟨rfl, rfl⟩ := h
        refine Or.inr (Or.inr (Or.inr ⟨rfl, ho, by omega, rfl, ?_⟩))
        rcases hs with h | h | h | h
        · exact Or.inl h
        · exact Or.inr (Or.inl h)
        · exact Or.inr (Or.inr h)
        · exact absurd h hn
  · rename_i hs
    split at h
    · cases h
    · rename_i hc
      simp only [Res.ok.injEq, Prod.mk.injEq] at h
      obtain ⟨rfl, rfl⟩ := h
      push Not at hs hc
      exact Or.inl ⟨rfl, rfl, by omega, hc.1, ⟨hs.1, hs.2.1, hs.2.2.1⟩, hc.2⟩

/-- **C88 (no silent failure).** The preparation ends the process exactly when the search was stopped by
the event handler with at least two terms and the saved terms do not match the counted leaves. -/
theorem pbb_exit_iff (keep found : Bool) (D : Disj) (numLeaf : ℤ) (c : CbcEnd) :
    (pbbFinish keep D numLeaf found c = .exit ↔
      (c.status ≠ 0 ∧ c.status ≠ 1 ∧ c.status ≠ 2) ∧ 2 ≤ D.numTerms ∧
      (D.numTerms ≠ numLeaf ∨
        (keep = false ∧ D.numTerms ≠ (D.terms.length : ℤ) + if found then 1 else 0))) ∧
    pbbFinish keep D numLeaf found c ≠ .undef := by
  unfold pbbFinish
  generalize (if found = true then (1 : ℤ) else 0) = f
  constructor
  · constructor
    · intro h
      split at h
      · split at h
        · cases h
        · split at h <;> cases h
      · rename_i hs
        push Not at hs
        split at h
        · rename_i hc
          exact ⟨⟨hs.1, hs.2.1, hs.2.2.1⟩, by omega, hc⟩
        · cases h
    · rintro ⟨⟨h0, h1, h2⟩, hn, hc⟩
      rw [if_neg (by omega), if_pos hc]
  · split
    · split
      · simp
      · split <;> simp
    · split <;> simp

example : pbbFinish false { numTerms := 2, terms := [{}, {}] } 2 false ⟨5, false, 0, []⟩ =
      .ok (.SUCCESS, { numTerms := 2, terms := [{}, {}] }) ∧
    pbbFinish false { numTerms := 1, terms := [{}] } 1 false ⟨5, false, 0, []⟩ =
      .ok (.TOO_FEW_TERMS, { numTerms := 1, terms := [{}] }) ∧
    pbbFinish false {} 0 false ⟨0, true, 7, [1, 2]⟩ =
      .ok (.OPTIMAL_SOLUTION_FOUND, { bestObj := 7, worstObj := 7, intObj := 7, intSol := [1, 2] }) ∧
    pbbFinish false { numTerms := 2, terms := [{}] } 2 false ⟨5, false, 0, []⟩ = .exit := by
  decide +kernel

end VPC
