import Verif.Model.BB
import Verif.Props.Disj
import Mathlib.Tactic.Linarith
import Mathlib.Tactic.NormNum

/-!
# The saved partial branch-and-bound disjunction (C05, C34)

## Specification

A history of branchings is given by the steps of the (external) solver.  A point `x` is *lost* at a
step if it lies in the region of the child (bounds of the parent and the branching inequality) and
the child is dropped, or the bounds the solver gives to the child exclude it.
-/
namespace VPC

/-- `x` satisfies the column bounds. -/
def InBnds (lo hi : List (Option ℚ)) (x : Vec) : Prop :=
  (∀ i b, lo[i]? = some b → geLo b (x i)) ∧ ∀ i b, hi[i]? = some b → leHi b (x i)

/-- The inequality of the branch a node takes next: up is `x ≥ ⌈v⌉`, down is `x ≤ ⌊v⌋`. -/
def CNode.Branch (n : CNode) (x : Vec) : Prop :=
  if n.nextUp then ((⌈n.value⌉ : ℤ) : ℚ) ≤ x n.var else x n.var ≤ ((⌊n.value⌋ : ℤ) : ℚ)

/-- `x` is lost at a step: its subtree is dropped (unless dropped nodes are kept as terms), or the
bounds of the new node exclude it. -/
def LostAt (keep : Bool) (s : BB) (e : BBStep) (x : Vec) : Prop :=
  ∃ p, s.tree[e.pick]? = some p ∧ InBnds p.lo p.hi x ∧ p.Branch x ∧
    match e.out with
    | .created n => ¬ InBnds n.lo n.hi x
    | .dropped _ => keep = false

/-- `x` is lost somewhere in a history. -/
def LostIn (keep : Bool) : BB → List BBStep → Vec → Prop
  | _, [], _ => False
  | s, e :: es, x => LostAt keep s e x ∨ ∃ s', bbStep s e = .ok s' ∧ LostIn keep s' es x

/-- Bounds at least as tight as others. -/
def TighterBox (lo hi oLo oHi : List (Option ℚ)) : Prop :=
  (∀ (i : ℕ) (l : ℚ), oLo[i]? = some (some l) → ∃ l', lo[i]? = some (some l') ∧ l ≤ l') ∧
  (∀ (i : ℕ) (u : ℚ), oHi[i]? = some (some u) → ∃ u', hi[i]? = some (some u') ∧ u' ≤ u)

/-- The solver never loosens bounds: those at the root are at least as tight as the original ones and
those of every other node at least as tight as the root's. -/
def OnlyTightens (P : Relax) (root : NewNode) (es : List BBStep) : Prop :=
  TighterBox root.lo root.hi P.lo P.hi ∧
  ∀ e ∈ es, ∀ n, e.out = .created n → TighterBox n.lo n.hi root.lo root.hi

/-- `x` is integral on every variable that is branched on. -/
def IntegralOn (root : NewNode) (es : List BBStep) (x : Vec) : Prop :=
  (∃ k : ℤ, x root.var = k) ∧
  ∀ e ∈ es, ∀ n, e.out = .created n → ∃ k : ℤ, x n.var = k

/-! ## Changed bounds -/

theorem mem_changedBounds {lo hi oLo oHi : List (Option ℚ)} {c : BChange}
    (h : c ∈ changedBounds lo hi oLo oHi) : ∃ i, c.var = i ∧
      ((c.bound = 0 ∧ c.value = (lo.getD i none).getD (-dblMax) ∧
          bndDiffers (lo.getD i none) (oLo.getD i none) = true) ∨
       (c.bound = 1 ∧ c.value = (hi.getD i none).getD dblMax ∧
          bndDiffers (hi.getD i none) (oHi.getD i none) = true)) := by
  simp only [changedBounds, List.mem_flatMap, List.mem_range, changedAt, List.mem_append] at h
  obtain ⟨i, _, h | h⟩ := h
  · split at h
    · rename_i hd
      simp only [List.mem_singleton] at h; subst h
      exact ⟨i, rfl, Or.inl ⟨rfl, rfl, hd⟩⟩
    · simp at h
  · split at h
    · rename_i hd
      simp only [List.mem_singleton] at h; subst h
      exact ⟨i, rfl, Or.inr ⟨rfl, rfl, hd⟩⟩
    · simp at h

/-- Finite where the original bounds are finite. -/
def FiniteWhere (lo hi oLo oHi : List (Option ℚ)) : Prop :=
  (∀ (i : ℕ) (l : ℚ), oLo[i]? = some (some l) → ∃ l', lo[i]? = some (some l')) ∧
  (∀ (i : ℕ) (u : ℚ), oHi[i]? = some (some u) → ∃ u', hi[i]? = some (some u'))

theorem TighterBox.finite {lo hi oLo oHi : List (Option ℚ)} (h : TighterBox lo hi oLo oHi) :
    FiniteWhere lo hi oLo oHi :=
  ⟨fun i l hl => (h.1 i l hl).imp fun _ h => h.1, fun i u hu => (h.2 i u hu).imp fun _ h => h.1⟩

theorem getD_none_some {l : List (Option ℚ)} {i : ℕ} {v : ℚ} (h : l.getD i none = some v) :
    l[i]? = some (some v) := by
  rw [List.getD_eq_getElem?_getD] at h
  cases hl : l[i]? with
  | none => rw [hl] at h; simp at h
  | some b => rw [hl] at h; simp at h; rw [h]

theorem changed_finite {lo hi oLo oHi : List (Option ℚ)} (hf : FiniteWhere lo hi oLo oHi)
    {c : BChange} (h : c ∈ changedBounds lo hi oLo oHi) :
    (c.bound = 0 ∧ lo[c.var]? = some (some c.value)) ∨
    (c.bound = 1 ∧ hi[c.var]? = some (some c.value)) := by
  obtain ⟨i, rfl, ⟨hb, hv, hd⟩ | ⟨hb, hv, hd⟩⟩ := mem_changedBounds h
  · left
    refine ⟨hb, ?_⟩
    cases hl : lo.getD c.var none with
    | some v => rw [hl] at hv; simp only [Option.getD_some] at hv; rw [hv]; exact getD_none_some hl
    | none =>
      rw [hl] at hd
      cases ho : oLo.getD c.var none with
      | none => rw [ho] at hd; simp [bndDiffers] at hd
      | some o =>
        obtain ⟨l', hl'⟩ := hf.1 _ _ (getD_none_some ho)
        rw [List.getD_eq_getElem?_getD, hl'] at hl
        simp at hl
  · right
    refine ⟨hb, ?_⟩
    cases hl : hi.getD c.var none with
    | some v => rw [hl] at hv; simp only [Option.getD_some] at hv; rw [hv]; exact getD_none_some hl
    | none =>
      rw [hl] at hd
      cases ho : oHi.getD c.var none with
      | none => rw [ho] at hd; simp [bndDiffers] at hd
      | some o =>
        obtain ⟨l', hl'⟩ := hf.2 _ _ (getD_none_some ho)
        rw [List.getD_eq_getElem?_getD, hl'] at hl
        simp at hl

/-- Points within the bounds of a node satisfy the changes recorded for it. -/
theorem changed_sat {lo hi oLo oHi : List (Option ℚ)} (hf : FiniteWhere lo hi oLo oHi) {x : Vec}
    (hx : InBnds lo hi x) : ∀ c ∈ changedBounds lo hi oLo oHi, c.Sat x := by
  intro c hc
  rcases changed_finite hf hc with ⟨hb, hl⟩ | ⟨hb, hl⟩
  · simp only [BChange.Sat, hb, le_refl, if_true]
    exact hx.1 _ _ hl _ rfl
  · simp only [BChange.Sat, hb]
    exact hx.2 _ _ hl _ rfl

theorem updOrig_lo {cs : List BChange} {p : List (Option ℚ) × List (Option ℚ)} {i : ℕ} {l : ℚ}
    (h : (updOrig cs p).1[i]? = some (some l)) :
    p.1[i]? = some (some l) ∨ ∃ c ∈ cs, c.var = i ∧ c.bound ≤ 0 := by
  induction cs generalizing p with
  | nil => exact Or.inl h
  | cons c cs ih =>
    obtain ⟨lo, hi⟩ := p
    simp only [updOrig] at h
    split at h
    · rename_i hb
      rcases ih h with h | ⟨d, hd, h⟩
      · by_cases hi' : c.var = i
        · exact Or.inr ⟨c, by simp, hi', hb⟩
        · simp only at h
          rw [List.getElem?_set_ne hi'] at h
          exact Or.inl h
      · exact Or.inr ⟨d, by simp [hd], h⟩
    · rcases ih h with h | ⟨d, hd, h⟩
      · exact Or.inl h
      · exact Or.inr ⟨d, by simp [hd], h⟩

theorem updOrig_hi {cs : List BChange} {p : List (Option ℚ) × List (Option ℚ)} {i : ℕ} {l : ℚ}
    (h : (updOrig cs p).2[i]? = some (some l)) :
    p.2[i]? = some (some l) ∨ ∃ c ∈ cs, c.var = i ∧ ¬ c.bound ≤ 0 := by
  induction cs generalizing p with
  | nil => exact Or.inl h
  | cons c cs ih =>
    obtain ⟨lo, hi⟩ := p
    simp only [updOrig] at h
    split at h
    · rcases ih h with h | ⟨d, hd, h⟩
      · exact Or.inl h
      · exact Or.inr ⟨d, by simp [hd], h⟩
    · rename_i hb
      rcases ih h with h | ⟨d, hd, h⟩
      · by_cases hi' : c.var = i
        · exact Or.inr ⟨c, by simp, hi', hb⟩
        · simp only at h
          rw [List.getElem?_set_ne hi'] at h
          exact Or.inl h
      · exact Or.inr ⟨d, by simp [hd], h⟩

/-- Bounds finite where those of the root are, are finite where the handler's reference bounds
are. -/
theorem finite_ref {P : Relax} {root : NewNode} {lo hi : List (Option ℚ)}
    (hr : TighterBox root.lo root.hi P.lo P.hi) (h : FiniteWhere lo hi root.lo root.hi) :
    FiniteWhere lo hi (bbInit P root).oLo (bbInit P root).oHi := by
  constructor
  · intro i l hl
    rcases updOrig_lo hl with h0 | ⟨c, hc, rfl, hb⟩
    · obtain ⟨l', h', _⟩ := hr.1 _ _ h0
      exact h.1 _ _ h'
    · rcases changed_finite hr.finite hc with ⟨_, h'⟩ | ⟨h', _⟩
      · exact h.1 _ _ h'
      · omega
  · intro i l hl
    rcases updOrig_hi hl with h0 | ⟨c, hc, rfl, hb⟩
    · obtain ⟨l', h', _⟩ := hr.2 _ _ h0
      exact h.2 _ _ h'
    · rcases changed_finite hr.finite hc with ⟨h', _⟩ | ⟨_, h'⟩
      · omega
      · exact h.2 _ _ h'

/-! ## Invariant of the tree and the recorded statistics -/

/-- The entries recorded for a node on the tree. -/
structure Synced (s : BB) (root : NewNode) (n : CNode) : Prop where
  idx : n.branchIndex ≤ 1
  num : n.branchIndex = 0 → n.number = n.first
  last : ∃ par cs, s.stats[n.number]? = some (nodeStat n n.number n.first par cs)
  orig : ∃ par cs, s.stats[n.first]? =
      some (nodeStat { n with branchIndex := 0 } n.first n.first par cs) ∧
    (n.first ≠ 0 → cs = changedBounds n.lo n.hi s.oLo s.oHi)
  par : ∀ k, n.parentFirst = some k → k < s.count2
  fin : FiniteWhere n.lo n.hi root.lo root.hi

/-- Invariant. -/
structure BBInv (P : Relax) (root : NewNode) (s : BB) : Prop where
  synced : ∀ n ∈ s.tree, Synced s root n
  len : s.stats.length = s.count2
  ids : ∀ (i : ℕ) (st : NStat), s.stats[i]? = some st → st.id = i
  origs : ∀ st ∈ s.stats, st.orig < s.count2
  pars : ∀ (i : ℕ) (st : NStat), s.stats[i]? = some st → st.parent = -1 ∨ (0 ≤ st.parent ∧ st.parent < i)
  curLen : s.cur.length = s.count2
  curLt : ∀ v ∈ s.cur, v < s.count2
  pruned : ∀ q ∈ s.pruned, ∃ k : ℕ, q.parent = k ∧ k < s.count2
  oLo : s.oLo = (bbInit P root).oLo
  oHi : s.oHi = (bbInit P root).oHi
  stat0 : s.stats[0]? = some (nodeStat (root.node 0 none) 0 0 (-1)
    (changedBounds root.lo root.hi P.lo P.hi))

theorem FiniteWhere.refl (lo hi : List (Option ℚ)) : FiniteWhere lo hi lo hi :=
  ⟨fun _ l h => ⟨l, h⟩, fun _ u h => ⟨u, h⟩⟩

theorem bbInv_init (P : Relax) (root : NewNode) : BBInv P root (bbInit P root) where
  synced := by
    intro n hn
    simp only [bbInit, List.mem_singleton] at hn
    subst hn
    exact {
      idx := by simp [NewNode.node]
      num := by simp [NewNode.node]
      last := ⟨_, _, rfl⟩
      orig := ⟨-1, changedBounds root.lo root.hi P.lo P.hi, rfl, by simp [NewNode.node]⟩
      par := by simp [NewNode.node]
      fin := FiniteWhere.refl _ _ }
  len := rfl
  ids := by
    intro i st h
    simp only [bbInit] at h
    cases i with
    | zero => simp only [List.getElem?_cons_zero, Option.some.injEq] at h; subst h; rfl
    | succ i => simp at h
  origs := by
    intro st h
    simp only [bbInit, List.mem_singleton] at h
    subst h; simp [nodeStat, bbInit]
  pars := by
    intro i st h
    simp only [bbInit] at h
    cases i with
    | zero => simp only [List.getElem?_cons_zero, Option.some.injEq] at h; subst h; left; rfl
    | succ i => simp at h
  curLen := rfl
  curLt := by simp [bbInit]
  pruned := by simp [bbInit]
  oLo := rfl
  oHi := rfl
  stat0 := rfl

theorem pushStat_ok {stats : List NStat} {st : NStat}
    (hid : ∀ (i : ℕ) (t : NStat), stats[i]? = some t → t.id = i) (h : st.id = stats.length) :
    pushStat stats st = .ok (stats ++ [st]) := by
  unfold pushStat
  cases hl : stats.getLast? with
  | none => rfl
  | some l =>
    have hne : stats ≠ [] := by rintro rfl; simp at hl
    have hpos : 0 < stats.length := List.length_pos_iff.mpr hne
    have hl' : stats[stats.length - 1]? = some l := by
      rw [List.getLast?_eq_getElem?] at hl; exact hl
    have := hid _ _ hl'
    simp only [h, this]
    rw [if_pos (by omega)]

theorem getElem?_append_some {α : Type} {l m : List α} {i : ℕ} {a : α} (h : l[i]? = some a) :
    (l ++ m)[i]? = some a := by
  obtain ⟨hi, _⟩ := List.getElem?_eq_some_iff.mp h
  rw [List.getElem?_append_left hi]; exact h

/-- Extending the statistics keeps a node in step. -/
theorem Synced.mono {s t : BB} {root : NewNode} {n : CNode} (h : Synced s root n)
    (hs : ∀ (i : ℕ) (a : NStat), s.stats[i]? = some a → t.stats[i]? = some a) (hc : s.count2 ≤ t.count2)
    (h1 : t.oLo = s.oLo) (h2 : t.oHi = s.oHi) : Synced t root n where
  idx := h.idx
  num := h.num
  last := by obtain ⟨a, b, hh⟩ := h.last; exact ⟨a, b, hs _ _ hh⟩
  orig := by
    obtain ⟨a, b, hh, hb⟩ := h.orig
    exact ⟨a, b, hs _ _ hh, by rw [h1, h2]; exact hb⟩
  par := fun k hk => lt_of_lt_of_le (h.par k hk) hc
  fin := h.fin

theorem lt_of_get {α : Type} {l : List α} {i : ℕ} {a : α} (h : l[i]? = some a) : i < l.length :=
  (List.getElem?_eq_some_iff.mp h).1

/-- The state after the parent has been dealt with. -/
theorem parentAgain_eq {P : Relax} {root : NewNode} {s : BB} {p : CNode} {rest : List CNode}
    (hinv : BBInv P root s) : parentAgain s p rest =
      (if p.branchIndex = 0 then
        .ok { s with
          tree := rest ++ [{ p with branchIndex := 1, number := s.count2 }]
          stats := s.stats ++ [nodeStat { p with branchIndex := 1 } s.count2 p.number
            (parentNo s p) []]
          count2 := s.count2 + 1
          cur := (s.cur.set p.first s.count2) ++ [s.count2] }
      else .ok { s with tree := rest }) := by
  unfold parentAgain
  by_cases h : p.branchIndex = 0
  · rw [if_pos h]
    dsimp only
    rw [if_pos (by simp [CNode.branchesLeft, h])]
    rw [pushStat_ok hinv.ids (by simp [nodeStat, hinv.len])]
    simp [Res.bind, h]
  · rw [if_neg h]
    dsimp only
    rw [if_neg (by simp only [CNode.branchesLeft]; push_cast; omega)]

theorem parentAgain_inv {P : Relax} {root : NewNode} {s s' : BB} {p : CNode} {rest : List CNode}
    (hinv : BBInv P root s) (hp : Synced s root p) (hrest : ∀ n ∈ rest, Synced s root n)
    (h : parentAgain s p rest = .ok s') : BBInv P root s' := by
  rw [parentAgain_eq hinv] at h
  split at h
  · rename_i h0
    simp only [Res.ok.injEq] at h
    subst h
    have hnum := hp.num h0
    have hcur : ∀ k, s.cur.getD k 0 ≤ s.count2 - 1 ∨ s.count2 = 0 := by
      intro k
      by_cases hk : k < s.cur.length
      · left
        rw [List.getD_eq_getElem?_getD, List.getElem?_eq_getElem hk]
        simp only [Option.getD_some]
        have := hinv.curLt _ (List.getElem_mem hk); omega
      · rw [List.getD_eq_getElem?_getD, List.getElem?_eq_none (by omega)]; left; simp
    have hpos : 0 < s.count2 := by
      have := lt_of_get hinv.stat0; rw [hinv.len] at this; exact this
    constructor
    · intro n hn
      simp only [List.mem_append, List.mem_singleton] at hn
      rcases hn with hn | rfl
      · exact (hrest n hn).mono (fun i a h => getElem?_append_some h) (by simp) rfl rfl
      · obtain ⟨a, b, ho, hb⟩ := hp.orig
        exact {
          idx := by simp
          num := by simp
          last := by
            refine ⟨(parentNo s p), [], ?_⟩
            simp only
            rw [← hinv.len, List.getElem?_append_right (by simp), Nat.sub_self]
            simp [nodeStat, hnum, CNode.way, CNode.nextUp]
          orig := ⟨a, b, getElem?_append_some ho, hb⟩
          par := fun k hk => by have := hp.par k hk; simp only; omega
          fin := hp.fin }
    · simp [hinv.len]
    · intro i st hst
      rw [List.getElem?_append] at hst
      split at hst
      · exact hinv.ids _ _ hst
      · rename_i hge
        rw [hinv.len] at hge hst
        have := lt_of_get hst
        simp only [List.length_singleton] at this
        have hi : i - s.count2 = 0 := by omega
        rw [hi] at hst
        simp only [List.getElem?_cons_zero, Option.some.injEq] at hst
        subst hst
        simp only [nodeStat]; omega
    · intro st hst
      simp only [List.mem_append, List.mem_singleton] at hst
      rcases hst with hst | rfl
      · have := hinv.origs st hst; simp only; omega
      · obtain ⟨_, _, hl⟩ := hp.last
        have := lt_of_get hl; rw [hinv.len] at this
        simp only [nodeStat]; omega
    · intro i st hst
      rw [List.getElem?_append] at hst
      split at hst
      · exact hinv.pars _ _ hst
      · rename_i hge
        rw [hinv.len] at hge hst
        have := lt_of_get hst
        simp only [List.length_singleton] at this
        have hi : i - s.count2 = 0 := by omega
        rw [hi] at hst
        simp only [List.getElem?_cons_zero, Option.some.injEq] at hst
        subst hst
        simp only [nodeStat, parentNo]
        cases hpf : p.parentFirst with
        | none => left; rfl
        | some k =>
          right
          simp only
          have := hcur k
          omega
    · simp [hinv.curLen]
    · intro v hv
      simp only [List.mem_append, List.mem_singleton] at hv
      rcases hv with hv | rfl
      · rcases List.mem_or_eq_of_mem_set hv with hv | rfl
        · have := hinv.curLt v hv; simp only; omega
        · simp
      · simp
    · intro q hq
      obtain ⟨k, h1, h2⟩ := hinv.pruned q hq
      exact ⟨k, h1, by simp only; omega⟩
    · exact hinv.oLo
    · exact hinv.oHi
    · exact getElem?_append_some hinv.stat0
  · simp only [Res.ok.injEq] at h
    subst h
    exact { hinv with
      synced := fun n hn => (hrest n hn).mono (fun _ _ h => h) le_rfl rfl rfl }

theorem mem_eraseIdx_mem {α : Type} {l : List α} {i : ℕ} {a : α} (h : a ∈ l.eraseIdx i) : a ∈ l :=
  List.mem_of_mem_eraseIdx h

/-- State just before the parent is dealt with, when the child is kept. -/
def midCreated (s : BB) (p : CNode) (n : NewNode) : BB :=
  { s with
    stats := s.stats ++ [nodeStat (n.node s.count2 (some p.first)) s.count2 s.count2 p.number
      (changedBounds n.lo n.hi s.oLo s.oHi)]
    count2 := s.count2 + 1
    cur := s.cur ++ [s.count2] }

theorem midCreated_inv {P : Relax} {root : NewNode} {s : BB} {p : CNode} {n : NewNode}
    (hinv : BBInv P root s) (hp : Synced s root p) (hn : FiniteWhere n.lo n.hi root.lo root.hi) :
    BBInv P root (midCreated s p n) ∧ Synced (midCreated s p n) root (n.node s.count2 (some p.first)) := by
  have hpos : 0 < s.count2 := by
    have := lt_of_get hinv.stat0; rw [hinv.len] at this; exact this
  have hpn : p.number < s.count2 := by
    obtain ⟨_, _, hl⟩ := hp.last
    have := lt_of_get hl; rwa [hinv.len] at this
  have hpf : p.first < s.count2 := by
    obtain ⟨_, _, hl, _⟩ := hp.orig
    have := lt_of_get hl; rwa [hinv.len] at this
  have hlast : (midCreated s p n).stats[s.count2]? = some (nodeStat (n.node s.count2 (some p.first))
      s.count2 s.count2 p.number (changedBounds n.lo n.hi s.oLo s.oHi)) := by
    simp only [midCreated]
    rw [← hinv.len, List.getElem?_append_right (by simp), Nat.sub_self]; rfl
  refine ⟨?_, ?_⟩
  · constructor
    · intro m hm
      exact (hinv.synced m hm).mono (fun i a h => getElem?_append_some h) (by simp [midCreated]) rfl rfl
    · simp [midCreated, hinv.len]
    · intro i st hst
      simp only [midCreated] at hst
      rw [List.getElem?_append] at hst
      split at hst
      · exact hinv.ids _ _ hst
      · rename_i hge
        rw [hinv.len] at hge hst
        have := lt_of_get hst
        simp only [List.length_singleton] at this
        have hi : i - s.count2 = 0 := by omega
        rw [hi] at hst
        simp only [List.getElem?_cons_zero, Option.some.injEq] at hst
        subst hst
        simp only [nodeStat]; omega
    · intro st hst
      simp only [midCreated, List.mem_append, List.mem_singleton] at hst
      rcases hst with hst | rfl
      · have := hinv.origs st hst; simp only [midCreated]; omega
      · simp [nodeStat, midCreated]
    · intro i st hst
      simp only [midCreated] at hst
      rw [List.getElem?_append] at hst
      split at hst
      · exact hinv.pars _ _ hst
      · rename_i hge
        rw [hinv.len] at hge hst
        have := lt_of_get hst
        simp only [List.length_singleton] at this
        have hi : i - s.count2 = 0 := by omega
        rw [hi] at hst
        simp only [List.getElem?_cons_zero, Option.some.injEq] at hst
        subst hst
        right
        simp only [nodeStat]; omega
    · simp [midCreated, hinv.curLen]
    · intro v hv
      simp only [midCreated, List.mem_append, List.mem_singleton] at hv
      rcases hv with hv | rfl
      · have := hinv.curLt v hv; simp only [midCreated]; omega
      · simp [midCreated]
    · intro q hq
      obtain ⟨k, h1, h2⟩ := hinv.pruned q hq
      exact ⟨k, h1, by simp only [midCreated]; omega⟩
    · exact hinv.oLo
    · exact hinv.oHi
    · exact getElem?_append_some hinv.stat0
  · exact {
      idx := by simp [NewNode.node]
      num := by simp [NewNode.node]
      last := ⟨_, _, hlast⟩
      orig := ⟨_, _, hlast, fun _ => rfl⟩
      par := fun k hk => by
        simp only [NewNode.node, Option.some.injEq] at hk
        subst hk; simp only [midCreated]; omega
      fin := hn }

theorem bbStep_created {P : Relax} {root : NewNode} {s : BB} {e : BBStep} {p : CNode} {n : NewNode}
    (hinv : BBInv P root s) (hp : s.tree[e.pick]? = some p) (ho : e.out = .created n) :
    bbStep s e = parentAgain (midCreated s p n) p
      (s.tree.eraseIdx e.pick ++ [n.node s.count2 (some p.first)]) := by
  unfold bbStep
  simp only [hp, ho]
  rw [pushStat_ok hinv.ids (by simp [nodeStat, hinv.len])]
  rfl

theorem bbStep_dropped {s : BB} {e : BBStep} {p : CNode} {o : ℚ}
    (hp : s.tree[e.pick]? = some p) (ho : e.out = .dropped o) :
    bbStep s e = parentAgain { s with pruned := s.pruned ++ [prunedStat s p o] } p
      (s.tree.eraseIdx e.pick) := by
  unfold bbStep
  simp only [hp, ho]

theorem prunedAdd_inv {P : Relax} {root : NewNode} {s : BB} {p : CNode} {o : ℚ}
    (hinv : BBInv P root s) (hp : Synced s root p) :
    BBInv P root { s with pruned := s.pruned ++ [prunedStat s p o] } := by
  have hpn : p.number < s.count2 := by
    obtain ⟨_, _, hl⟩ := hp.last
    have := lt_of_get hl; rwa [hinv.len] at this
  exact { hinv with
    synced := fun n hn => (hinv.synced n hn).mono (fun _ _ h => h) le_rfl rfl rfl
    pruned := fun q hq => by
      simp only [List.mem_append, List.mem_singleton] at hq
      rcases hq with hq | rfl
      · exact hinv.pruned q hq
      · exact ⟨p.number, rfl, hpn⟩ }

theorem bbStep_inv {P : Relax} {root : NewNode} {s s' : BB} {e : BBStep} (hinv : BBInv P root s)
    (ht : ∀ n, e.out = .created n → FiniteWhere n.lo n.hi root.lo root.hi)
    (h : bbStep s e = .ok s') : BBInv P root s' := by
  cases hp : s.tree[e.pick]? with
  | none => simp [bbStep, hp] at h
  | some p =>
    have hps := hinv.synced p (List.mem_of_getElem? hp)
    cases ho : e.out with
    | created n =>
      rw [bbStep_created hinv hp ho] at h
      obtain ⟨h1, h2⟩ := midCreated_inv hinv hps (ht n ho)
      refine parentAgain_inv h1 (h1.synced p (List.mem_of_getElem? hp)) ?_ h
      intro m hm
      simp only [List.mem_append, List.mem_singleton] at hm
      rcases hm with hm | rfl
      · exact h1.synced m (mem_eraseIdx_mem hm)
      · exact h2
    | dropped o =>
      rw [bbStep_dropped hp ho] at h
      have h1 := prunedAdd_inv (o := o) hinv hps
      exact parentAgain_inv h1 (h1.synced p (List.mem_of_getElem? hp))
        (fun m hm => h1.synced m (mem_eraseIdx_mem hm)) h

theorem bbRun_inv {P : Relax} {root : NewNode} {es : List BBStep} {s s' : BB}
    (hinv : BBInv P root s)
    (ht : ∀ e ∈ es, ∀ n, e.out = .created n → FiniteWhere n.lo n.hi root.lo root.hi)
    (h : bbRun s es = .ok s') : BBInv P root s' := by
  induction es generalizing s with
  | nil => simp only [bbRun, Res.ok.injEq] at h; subst h; exact hinv
  | cons e es ih =>
    simp only [bbRun] at h
    cases hs : bbStep s e with
    | ok s1 =>
      rw [hs] at h
      exact ih (bbStep_inv hinv (ht e (by simp)) hs) (fun e' he' => ht e' (by simp [he'])) h
    | exit => rw [hs] at h; simp [Res.bind] at h
    | undef => rw [hs] at h; simp [Res.bind] at h

/-- The assertion on consecutive ids never fires: a step that takes a node of the tree succeeds. -/
theorem bb_step_succeeds {P : Relax} {root : NewNode} {es : List BBStep} {s : BB} {e : BBStep}
    (ht : OnlyTightens P root es) (h : bbRun (bbInit P root) es = .ok s)
    (he : e.pick < s.tree.length) : ∃ s', bbStep s e = .ok s' := by
  have hinv := bbRun_inv (bbInv_init P root) (fun e he n hn => (ht.2 e he n hn).finite) h
  obtain ⟨p, hp⟩ : ∃ p, s.tree[e.pick]? = some p := ⟨_, List.getElem?_eq_getElem he⟩
  have hps := hinv.synced p (List.mem_of_getElem? hp)
  have key : ∀ (t : BB) (rest : List CNode), (∀ (i : ℕ) (st : NStat), t.stats[i]? = some st → st.id = i) →
      t.stats.length = t.count2 → ∃ s', parentAgain t p rest = .ok s' := by
    intro t rest h1 h2
    unfold parentAgain
    dsimp only
    split
    · rw [pushStat_ok h1 (by simp [nodeStat, h2])]; exact ⟨_, rfl⟩
    · exact ⟨_, rfl⟩
  cases ho : e.out with
  | created n =>
    rw [bbStep_created hinv hp ho]
    apply key
    · intro i st hst
      simp only [midCreated] at hst
      rw [List.getElem?_append] at hst
      split at hst
      · exact hinv.ids _ _ hst
      · rename_i hge
        rw [hinv.len] at hge hst
        have := lt_of_get hst
        simp only [List.length_singleton] at this
        have hi : i - s.count2 = 0 := by omega
        rw [hi] at hst
        simp only [List.getElem?_cons_zero, Option.some.injEq] at hst
        subst hst
        simp only [nodeStat]; omega
    · simp [midCreated, hinv.len]
  | dropped o =>
    rw [bbStep_dropped hp ho]
    exact key _ _ hinv.ids hinv.len

end VPC
