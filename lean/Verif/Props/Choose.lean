import Verif.Model.Choose
import Mathlib.Data.List.Perm.Basic
import Mathlib.Data.List.Perm.Subperm
import Mathlib.Tactic.Linarith
import Mathlib.Tactic.NormNum
import Mathlib.Tactic.Ring
import Mathlib.Tactic.Positivity

/-!
# Node order and choice of the branching variable (C30, C32, C63)
-/
namespace VPC

/-! ## C32 -/

/-- **C32.** If ties are broken consistently, the comparison of nodes is a strict weak order. -/
theorem bfs_strict_weak {eq : CmpNode → CmpNode → Bool}
    (irr : ∀ x, eq x x = false) (trans : ∀ x y z, eq x y = true → eq y z = true → eq x z = true)
    (inc : ∀ x y z, eq x y = false → eq y z = false → eq x z = false) :
    (∀ x, bfsTest eq x x = false) ∧
    (∀ x y z, bfsTest eq x y = true → bfsTest eq y z = true → bfsTest eq x z = true) ∧
    (∀ x y z, bfsTest eq x y = false → bfsTest eq y z = false → bfsTest eq x z = false) := by
  refine ⟨fun x => by simp [bfsTest, irr], fun x y z h1 h2 => ?_, fun x y z h1 h2 => ?_⟩
  · unfold bfsTest at *
    split at h1 <;> split at h2
    · simp only [decide_eq_true_eq] at h1 h2
      rw [if_pos (by omega)]; simp only [decide_eq_true_eq]; omega
    · rename_i hn
      simp only [decide_eq_true_eq] at h1
      push Not at hn
      rw [if_pos (by omega)]; simp only [decide_eq_true_eq]; omega
    · rename_i hn _
      simp only [decide_eq_true_eq] at h2
      push Not at hn
      rw [if_pos (by omega)]; simp only [decide_eq_true_eq]; omega
    · rename_i hn hm
      push Not at hn hm
      rw [if_neg (by omega)]; exact trans _ _ _ h1 h2
  · unfold bfsTest at *
    split at h1 <;> split at h2
    · simp only [decide_eq_false_iff_not] at h1 h2
      rw [if_pos (by omega)]; simp only [decide_eq_false_iff_not]; omega
    · rename_i hn
      simp only [decide_eq_false_iff_not] at h1
      push Not at hn
      rw [if_pos (by omega)]; simp only [decide_eq_false_iff_not]; omega
    · rename_i hn _
      simp only [decide_eq_false_iff_not] at h2
      push Not at hn
      rw [if_pos (by omega)]; simp only [decide_eq_false_iff_not]; omega
    · rename_i hn hm
      push Not at hn hm
      rw [if_neg (by omega)]; exact inc _ _ _ h1 h2

/-- **C32.** A shallower node is better than a deeper one, whatever the tie breaking, and a deeper node
is never better. -/
theorem bfs_shallow_first (eq : CmpNode → CmpNode → Bool) {x y : CmpNode} (h : y.depth < x.depth) :
    bfsTest eq x y = true ∧ bfsTest eq y x = false := by
  unfold bfsTest
  constructor
  · rw [if_pos (by omega)]; simpa using h
  · rw [if_pos (by omega)]; simp only [decide_eq_false_iff_not]; omega

/-- **C32.** Consequently a node that no other node beats has minimal depth in the pool. -/
theorem bfs_best_is_shallowest (eq : CmpNode → CmpNode → Bool) {pool : List CmpNode} {b : CmpNode}
    (hb : ∀ y ∈ pool, bfsTest eq b y = false) : ∀ y ∈ pool, b.depth ≤ y.depth := by
  intro y hy
  by_contra h
  have := (bfs_shallow_first eq (not_le.mp h)).1
  rw [hb y hy] at this; cases this

example : (∀ x : CmpNode, decide (x.seq > x.seq) = false) ∧
    bfsTest (fun x y => decide (x.seq > y.seq)) ⟨2, 0⟩ ⟨1, 5⟩ = true ∧
    bfsTest (fun x y => decide (x.seq > y.seq)) ⟨1, 7⟩ ⟨1, 5⟩ = true := by
  refine ⟨by simp, by decide, by decide⟩

/-! ## `bestBranch` -/

/-- Score of a branching object: the smaller of the two changes. -/
def Change.score (c : Change) : ℚ := min c.up c.down

theorem bestBranchStep_eq (s : BestBr) (i : ℕ) (c : Change) :
    bestBranchStep s i c = if c.score > s.crit then
      { crit := c.score, which := i, way := if c.up ≤ c.down then 1 else -1 } else s := by
  unfold bestBranchStep Change.score
  dsimp only
  by_cases h : c.up ≤ c.down
  · rw [if_pos h, if_pos h, min_eq_left h]
    by_cases h2 : c.up > s.crit
    · rw [if_pos h2]; simp [h2]
    · rw [if_neg h2]; simp [h2]
  · rw [if_neg h, if_neg h, min_eq_right (not_le.mp h).le]
    by_cases h2 : c.down > s.crit
    · rw [if_pos h2]; simp [h2]
    · rw [if_neg h2]; simp [h2]

theorem bestBranchFrom_spec (i : ℕ) (cs : List Change) (s : BestBr) :
    let r := bestBranchFrom i cs s
    s.crit ≤ r.crit ∧ (∀ c ∈ cs, c.score ≤ r.crit) ∧
    (r = s ∨ ∃ j c, cs[j]? = some c ∧ r.which = ((i + j : ℕ) : ℤ) ∧ r.crit = c.score ∧
      s.crit < c.score ∧ r.way = (if c.up ≤ c.down then 1 else -1) ∧
      ∀ k d, k < j → cs[k]? = some d → d.score < c.score) := by
  induction cs generalizing i s with
  | nil => exact ⟨le_rfl, by simp, Or.inl rfl⟩
  | cons c cs ih =>
    intro r
    have hr : r = bestBranchFrom (i + 1) cs (bestBranchStep s i c) := rfl
    obtain ⟨h1, h2, h3⟩ := ih (i + 1) (bestBranchStep s i c)
    rw [← hr] at h1 h2 h3
    rw [bestBranchStep_eq] at h1 h3
    by_cases hc : c.score > s.crit
    · rw [if_pos hc] at h1 h3
      dsimp only at h1
      refine ⟨hc.le.trans h1, fun d hd => ?_, Or.inr ?_⟩
      · simp only [List.mem_cons] at hd
        rcases hd with rfl | hd
        · exact h1
        · exact h2 d hd
      · rcases h3 with h3 | ⟨j, d, e1, e2, e3, e4, e5, e6⟩
        · refine ⟨0, c, rfl, by rw [h3]; simp, by rw [h3], hc, by rw [h3], by simp⟩
        · dsimp only at e4
          refine ⟨j + 1, d, by simpa using e1, by rw [e2]; push_cast; ring, e3, hc.trans e4, e5, ?_⟩
          intro k f hk hf
          cases k with
          | zero => simp only [List.getElem?_cons_zero, Option.some.injEq] at hf; subst hf; exact e4
          | succ k => exact e6 k f (by omega) (by simpa using hf)
    · rw [if_neg hc] at h1 h3
      push Not at hc
      refine ⟨h1, fun d hd => ?_, ?_⟩
      · simp only [List.mem_cons] at hd
        rcases hd with rfl | hd
        · exact hc.trans h1
        · exact h2 d hd
      · rcases h3 with h3 | ⟨j, d, e1, e2, e3, e4, e5, e6⟩
        · exact Or.inl h3
        · right
          refine ⟨j + 1, d, by simpa using e1, by rw [e2]; push_cast; ring, e3, e4, e5, ?_⟩
          intro k f hk hf
          cases k with
          | zero =>
            simp only [List.getElem?_cons_zero, Option.some.injEq] at hf; subst hf
            exact lt_of_le_of_lt hc e4
          | succ k => exact e6 k f (by omega) (by simpa using hf)

/-- **C30 (`bestBranch`).** The chosen object is the first of those whose smaller change is largest, and
the way found is the one with the smaller change, provided some change exceeds `-1e50`. -/
theorem bestBranch_argmax {cs : List Change} (h : ∃ c ∈ cs, -(10 : ℚ) ^ 50 < c.score) :
    ∃ (j : ℕ) (c : Change), cs[j]? = some c ∧ (bestBranch cs).which = (j : ℤ) ∧ (∀ d ∈ cs, d.score ≤ c.score) ∧
      (∀ k d, k < j → cs[k]? = some d → d.score < c.score) ∧
      (bestBranch cs).way = (if c.up ≤ c.down then 1 else -1) := by
  obtain ⟨h1, h2, h3⟩ := bestBranchFrom_spec 0 cs {}
  rcases h3 with h3 | ⟨j, c, e1, e2, e3, e4, e5, e6⟩
  · exfalso
    obtain ⟨c, hc, hlt⟩ := h
    have := h2 c hc
    rw [h3] at this
    exact absurd this (not_le.mpr hlt)
  · refine ⟨j, c, e1, by simpa [bestBranch] using e2, fun d hd => e3 ▸ h2 d hd, e6, e5⟩

example : bestBranch [⟨1, 3⟩, ⟨4, 2⟩, ⟨2, 2⟩] = ⟨2, 1, -1⟩ := by decide +kernel

/-- **C30 (`bestBranch`, what is returned and written).** If some change exceeds `-1e50`, the first object
with the largest smaller change is returned, and only this object is written: its branch taken first is the
way its own object prefers, if it prefers one, otherwise the branch with the smaller change. If no change
exceeds `-1e50`, −1 is returned and nothing is written. -/
theorem bestBranch_written (cs : List Change) (pref : ℕ → ℤ) :
    ((∃ c ∈ cs, -(10 : ℚ) ^ 50 < min c.up c.down) → ∃ (j : ℕ) (c : Change), cs[j]? = some c ∧
      (∀ d ∈ cs, min d.up d.down ≤ min c.up c.down) ∧
      (∀ k d, k < j → cs[k]? = some d → min d.up d.down < min c.up c.down) ∧
      ∃ w, bestBranchEnd cs pref = ((j : ℤ), some (j, w)) ∧
        (pref j ≠ 0 → w = pref j) ∧
        (pref j = 0 → c.up ≤ c.down → w = 1) ∧ (pref j = 0 → c.down < c.up → w = -1)) ∧
    ((∀ c ∈ cs, min c.up c.down ≤ -(10 : ℚ) ^ 50) → bestBranchEnd cs pref = (-1, none)) := by
  constructor
  · intro h
    obtain ⟨j, c, h1, h2, h3, h4, h5⟩ := bestBranch_argmax h
    refine ⟨j, c, h1, h3, h4, if pref j ≠ 0 then pref j else (bestBranch cs).way, ?_, ?_, ?_, ?_⟩
    · simp [bestBranchEnd, h2]
    · intro h; rw [if_pos h]
    · intro h hle; rw [if_neg (not_not.mpr h), h5, if_pos hle]
    · intro h hlt; rw [if_neg (not_not.mpr h), h5, if_neg (not_le.mpr hlt)]
  · intro h
    obtain ⟨h1, h2, h3⟩ := bestBranchFrom_spec 0 cs {}
    rcases h3 with h3 | ⟨j, c, e1, e2, e3, e4, e5, e6⟩
    · have : bestBranch cs = {} := h3
      simp [bestBranchEnd, this]
    · exact absurd (h c (List.mem_of_getElem? e1)) (not_le.mpr e4)

example : bestBranchEnd [⟨1, 3⟩, ⟨4, 2⟩, ⟨2, 2⟩] (fun _ => 0) = (1, some (1, -1)) ∧
    bestBranchEnd [⟨1, 3⟩, ⟨4, 2⟩, ⟨2, 2⟩] (fun i => if i = 1 then 1 else 0) = (1, some (1, 1)) ∧
    bestBranchEnd [] (fun _ => 0) = (-1, none) := by decide +kernel

/-! ## `OsiChooseStrongCustom` -/

/-- First and second criterion of a candidate under a method. -/
def Cand.k1 (m : ℤ) (c : Cand) : ℚ := calcValue m c.col c.down c.up false
def Cand.k2 (m : ℤ) (c : Cand) : ℚ := calcValue m c.col c.down c.up true

/-- `d` is strictly better than `c`: larger first criterion or, except for method 0, equal first and
larger second criterion. -/
def Cand.Better (m : ℤ) (d c : Cand) : Prop :=
  c.k1 m < d.k1 m ∨ (m ≠ 0 ∧ d.k1 m = c.k1 m ∧ c.k2 m < d.k2 m)

/-- What the two criteria are: for the plain methods 2 and 4 the smaller change, ties broken by the
larger one; for method 5 the other way round; for 0, 1 and 3 a weighted sum of the two. -/
theorem criteria_meaning (c : Cand) :
    (c.k1 2 = min c.up c.down ∧ c.k2 2 = max c.up c.down) ∧
    (c.k1 4 = min c.up c.down ∧ c.k2 4 = max c.up c.down) ∧
    (c.k1 5 = max c.up c.down ∧ c.k2 5 = min c.up c.down) ∧
    (∀ m, m = 0 ∨ m = 1 ∨ m = 3 → c.k1 m = 85 / 100 * min c.up c.down + 15 / 100 * max c.up c.down) ∧
    c.k1 6 = -c.col ∧
    (∀ m, 0 ≤ m → m ≠ 6 → c.k1 (-(m + 1)) = -c.k1 m ∧ c.k2 (-(m + 1)) = -c.k2 m) := by
  refine ⟨by norm_num [Cand.k1, Cand.k2, calcValue], by norm_num [Cand.k1, Cand.k2, calcValue],
    by norm_num [Cand.k1, Cand.k2, calcValue], ?_, by norm_num [Cand.k1, calcValue], ?_⟩
  · rintro m (rfl | rfl | rfl) <;> norm_num [Cand.k1, calcValue, maxminCriterion]
  · intro m hm h6
    have h1 : -(m + 1) < 0 := by omega
    have h2 : ¬ m < 0 := by omega
    have h3 : -1 * (-(m + 1) + 1) = m := by ring
    have h4 : -(m + 1) ≠ 6 := by omega
    simp only [Cand.k1, Cand.k2, calcValue, if_neg h4, if_neg h6, if_pos h1, if_neg h2, h3]
    constructor <;> ring

/-- Every value of method 6 is minus the column, so larger means smaller index. -/
theorem Better.trans_not {m : ℤ} {a b c : Cand} (h1 : ¬ a.Better m b) (h2 : ¬ b.Better m c) :
    ¬ a.Better m c := by
  unfold Cand.Better at *
  push Not at *
  refine ⟨h1.1.trans h2.1, fun hm he => ?_⟩
  have e1 : a.k1 m = b.k1 m := le_antisymm h1.1 (he ▸ h2.1)
  have e2 : b.k1 m = c.k1 m := e1 ▸ he
  exact (h1.2 hm e1).trans (h2.2 hm e2)

theorem Better.asymm {m : ℤ} {a b : Cand} (h : a.Better m b) : ¬ b.Better m a := by
  unfold Cand.Better at *
  rintro (h2 | ⟨_, h2, h3⟩)
  · rcases h with h | ⟨_, h, _⟩
    · linarith
    · rw [h] at h2; exact absurd h2 (lt_irrefl _)
  · rcases h with h | ⟨_, h, h4⟩
    · linarith
    · linarith

/-- `c` is recorded as the best. -/
def ChSt.BestIs (m : ℤ) (s : ChSt) (c : Cand) : Prop :=
  s.best = c.k1 m ∧ s.best2 = c.k2 m ∧ s.idx = c.obj ∧ s.way = c.way

/-- `c` is recorded as the second best. -/
def ChSt.SecIs (m : ℤ) (s : ChSt) (c : Cand) : Prop :=
  s.sec = c.k1 m ∧ s.sec2 = c.k2 m ∧ s.secIdx = c.obj ∧ s.secWay = c.way

/-- The state is right for the candidates processed so far (in any order): the best one, and the best
of the others. Without candidates it is a given initial state. -/
def Right (m : ℤ) (s0 : ChSt) (l : List Cand) (s : ChSt) : Prop :=
  (l = [] → s = s0) ∧
  (l ≠ [] → ∃ b rest, l.Perm (b :: rest) ∧ s.BestIs m b ∧
    (∀ d ∈ rest, ¬ d.Better m b) ∧
    (rest = [] → s.sec = s0.best ∧ s.sec2 = s0.best2 ∧ s.secIdx = s0.idx ∧ s.secWay = s0.way) ∧
    (rest ≠ [] → ∃ e rest', rest.Perm (e :: rest') ∧ s.SecIs m e ∧ ∀ d ∈ rest', ¬ d.Better m e))

/-- Candidates that beat the initial value `-DBL_MAX`. -/
def Cand.Proper (m : ℤ) (c : Cand) : Prop := -dblMax < c.k1 m

theorem processObject_right {m : ℤ} {s0 : ChSt} (h0 : s0.best = -dblMax)
    {l : List Cand} {s : ChSt} (h : Right m s0 l s) (c : Cand) (hc : c.Proper m) (rc : ℤ) :
    Right m s0 (l ++ [c]) (processObject m c s rc).1 := by
  refine ⟨by simp, fun _ => ?_⟩
  have hk1 : calcValue m c.col c.down c.up false = c.k1 m := rfl
  have hk2 : calcValue m c.col c.down c.up true = c.k2 m := rfl
  unfold processObject
  dsimp only
  rw [hk1, hk2]
  cases l with
  | nil =>
    have hs := h.1 rfl
    subst hs
    rw [if_pos (by rw [h0]; exact hc)]
    exact ⟨c, [], by simp, ⟨rfl, rfl, rfl, rfl⟩, by simp, fun _ => ⟨rfl, rfl, rfl, rfl⟩, by simp⟩
  | cons a l =>
    obtain ⟨b, rest, hp, hb, hbest, hnil, hsec⟩ := h.2 (by simp)
    obtain ⟨b1, b2, b3, b4⟩ := hb
    have hp' : ((a :: l) ++ [c]).Perm (c :: b :: rest) :=
      (List.perm_append_comm).trans (List.Perm.cons c hp)
    have hp'' : ((a :: l) ++ [c]).Perm (b :: c :: rest) := hp'.trans (List.Perm.swap b c rest)
    have newbest : c.Better m b → ∀ d ∈ b :: rest, ¬ d.Better m c := by
      intro hcb d hd
      simp only [List.mem_cons] at hd
      rcases hd with rfl | hd
      · exact Better.asymm hcb
      · exact Better.trans_not (hbest d hd) (Better.asymm hcb)
    by_cases c1 : c.k1 m > s.best
    · rw [if_pos c1]
      rw [b1] at c1
      exact ⟨c, b :: rest, hp', ⟨rfl, rfl, rfl, rfl⟩, newbest (Or.inl c1), by simp,
        fun _ => ⟨b, rest, List.Perm.refl _, ⟨b1, b2, b3, b4⟩, hbest⟩⟩
    rw [if_neg c1]
    by_cases c2 : m ≠ 0 ∧ c.k1 m = s.best ∧ c.k2 m > s.best2
    · rw [if_pos c2]
      rw [b1, b2] at c2
      exact ⟨c, b :: rest, hp', ⟨rfl, rfl, rfl, rfl⟩, newbest (Or.inr c2), by simp,
        fun _ => ⟨b, rest, List.Perm.refl _, ⟨b1, b2, b3, b4⟩, hbest⟩⟩
    rw [if_neg c2]
    have hnb : ¬ c.Better m b := by
      rintro (h1 | ⟨h1, h2, h3⟩)
      · rw [b1] at c1; exact c1 h1
      · rw [b1, b2] at c2; exact c2 ⟨h1, h2, h3⟩
    have hbest' : ∀ d ∈ c :: rest, ¬ d.Better m b := by
      intro d hd
      simp only [List.mem_cons] at hd
      rcases hd with rfl | hd
      · exact hnb
      · exact hbest d hd
    by_cases hrest : rest = []
    · subst hrest
      obtain ⟨n1, n2, n3, n4⟩ := hnil rfl
      have c3 : c.k1 m > s.sec := by rw [n1, h0]; exact hc
      rw [if_pos c3]
      exact ⟨b, [c], hp'', ⟨b1, b2, b3, b4⟩, hbest', by simp,
        fun _ => ⟨c, [], List.Perm.refl _, ⟨rfl, rfl, rfl, rfl⟩, by simp⟩⟩
    · obtain ⟨e, rest', hpe, ⟨e1, e2, e3, e4⟩, hse⟩ := hsec hrest
      have hpc : (c :: rest).Perm (c :: e :: rest') := List.Perm.cons c hpe
      have hpc2 : (c :: rest).Perm (e :: c :: rest') := hpc.trans (List.Perm.swap e c rest')
      have newsec : c.Better m e → ∀ d ∈ e :: rest', ¬ d.Better m c := by
        intro hce d hd
        simp only [List.mem_cons] at hd
        rcases hd with rfl | hd
        · exact Better.asymm hce
        · exact Better.trans_not (hse d hd) (Better.asymm hce)
      by_cases c3 : c.k1 m > s.sec
      · rw [if_pos c3]
        rw [e1] at c3
        exact ⟨b, c :: rest, hp'', ⟨b1, b2, b3, b4⟩, hbest', by simp,
          fun _ => ⟨c, e :: rest', hpc, ⟨rfl, rfl, rfl, rfl⟩, newsec (Or.inl c3)⟩⟩
      rw [if_neg c3]
      by_cases c4 : m ≠ 0 ∧ c.k1 m = s.sec ∧ c.k2 m > s.sec2
      · rw [if_pos c4]
        rw [e1, e2] at c4
        exact ⟨b, c :: rest, hp'', ⟨b1, b2, b3, b4⟩, hbest', by simp,
          fun _ => ⟨c, e :: rest', hpc, ⟨rfl, rfl, rfl, rfl⟩, newsec (Or.inr c4)⟩⟩
      rw [if_neg c4]
      have hne : ¬ c.Better m e := by
        rintro (h1 | ⟨h1, h2, h3⟩)
        · rw [e1] at c3; exact c3 h1
        · rw [e1, e2] at c4; exact c4 ⟨h1, h2, h3⟩
      refine ⟨b, c :: rest, hp'', ⟨b1, b2, b3, b4⟩, hbest', by simp,
        fun _ => ⟨e, c :: rest', hpc2, ⟨e1, e2, e3, e4⟩, ?_⟩⟩
      intro d hd
      simp only [List.mem_cons] at hd
      rcases hd with rfl | hd
      · exact hne
      · exact hse d hd

theorem processAll_right {m : ℤ} {s0 : ChSt} (h0 : s0.best = -dblMax)
    (l : List Cand) (cs : List Cand) (s : ChSt) (rc : ℤ) (h : Right m s0 l s)
    (hc : ∀ c ∈ cs, c.Proper m) : Right m s0 (l ++ cs) (processAll m cs s rc).1 := by
  induction cs generalizing l s rc with
  | nil => simpa [processAll] using h
  | cons c cs ih =>
    have := ih (l ++ [c]) (processObject m c s rc).1 (processObject m c s rc).2
      (processObject_right h0 h c (hc c (by simp)) rc) fun d hd => hc d (by simp [hd])
    simpa [processAll] using this

/-- **C30 (selection loop).** After any number of candidates the best object is one that no other
candidate beats in the (primary, tie-break) order, the second best one is one that no candidate except
the best beats, and the recorded ways are theirs. -/
theorem selection_best (m : ℤ) (s0 : ChSt) (h0 : s0.best = -dblMax) (cs : List Cand) (rc : ℤ)
    (hne : cs ≠ []) (hc : ∀ c ∈ cs, c.Proper m) :
    let s := (processAll m cs s0 rc).1
    ∃ b rest, cs.Perm (b :: rest) ∧ s.idx = b.obj ∧ s.way = b.way ∧ (∀ d ∈ rest, ¬ d.Better m b) ∧
      (rest = [] → s.secIdx = s0.idx) ∧
      (rest ≠ [] → ∃ e rest', rest.Perm (e :: rest') ∧ s.secIdx = e.obj ∧ s.secWay = e.way ∧
        ∀ d ∈ rest', ¬ d.Better m e) := by
  intro s
  have hR : Right m s0 [] s0 := ⟨fun _ => rfl, fun h => absurd rfl h⟩
  have := processAll_right h0 [] cs s0 rc hR hc
  rw [List.nil_append] at this
  cases cs with
  | nil => exact absurd rfl hne
  | cons c cs =>
    obtain ⟨b, rest, h1, h2, h3, h4, h5⟩ := this.2 (by simp)
    refine ⟨b, rest, h1, h2.2.2.1, h2.2.2.2, h3, fun hr => (h4 hr).2.2.1, fun hr => ?_⟩
    obtain ⟨e, rest', g1, g2, g3⟩ := h5 hr
    exact ⟨e, rest', g1, g2.2.2.1, g2.2.2.2, g3⟩

/-- Three candidates, method 2. -/
def chEx : List Cand := [⟨0, 0, 1, 5, -1, true⟩, ⟨1, 1, 2, 2, -1, true⟩, ⟨2, 2, 4, 2, -1, true⟩]

example : chEx ≠ [] ∧ (∀ c ∈ chEx, c.Proper 2) ∧
    (processAll 2 chEx {} 0).1.idx = 2 ∧ (processAll 2 chEx {} 0).1.secIdx = 1 := by
  refine ⟨by decide, ?_, by decide +kernel, by decide +kernel⟩
  unfold Cand.Proper Cand.k1
  decide +kernel

/-! ### `doStrongBranching` and `chooseVariable` -/

/-- If strong branching reports 0, every candidate was tried, no side is infeasible and the index of
the best object has not been touched. -/
theorem doStrong_zero {rs : List SBOut} (h : (doStrong rs).1 = 0) :
    (doStrong rs).2.1 = rs.length ∧ (doStrong rs).2.2 = none ∧
    ∀ r ∈ rs, r.upInf = false ∧ r.downInf = false ∧ r.timeUp = false := by
  induction rs with
  | nil => exact ⟨rfl, rfl, by simp⟩
  | cons r rs ih =>
    unfold doStrong at h ⊢
    split at h
    · simp at h
    · rename_i h1
      rw [if_neg h1]
      split at h
      · simp at h
      · rename_i h2
        rw [if_neg h2]
        split at h
        · simp at h
        · rename_i h3
          rw [if_neg h3]
          obtain ⟨g1, g2, g3⟩ := ih h
          simp only [Bool.or_eq_true, not_or, Bool.not_eq_true] at h2
          refine ⟨by simp [g1], g2, fun q hq => ?_⟩
          simp only [List.mem_cons] at hq
          rcases hq with rfl | hq
          · exact ⟨h2.1, h2.2, by simpa using h3⟩
          · exact g3 q hq

/-- The return code of strong branching says what happened. -/
theorem doStrong_codes (rs : List SBOut) :
    (doStrong rs).1 = 0 ∨ (doStrong rs).1 = -1 ∨ (doStrong rs).1 = 2 ∨ (doStrong rs).1 = 3 := by
  induction rs with
  | nil => left; rfl
  | cons r rs ih =>
    unfold doStrong
    split
    · right; left; rfl
    · split
      · right; right; left; rfl
      · split
        · right; right; right; rfl
        · exact ih

theorem doStrong_minus_one {rs : List SBOut} (h : (doStrong rs).1 = -1) :
    ∃ r ∈ rs, r.upInf = true ∧ r.downInf = true ∧ (doStrong rs).2.2 = some ((r.cand.obj : ℤ), -1) := by
  induction rs with
  | nil => simp [doStrong] at h
  | cons r rs ih =>
    unfold doStrong at h ⊢
    split at h
    · rename_i h1
      rw [if_pos h1]
      simp only [Bool.and_eq_true] at h1
      exact ⟨r, by simp, h1.1, h1.2, rfl⟩
    · rename_i h1
      rw [if_neg h1]
      split at h
      · simp at h
      · rename_i h2
        rw [if_neg h2]
        split at h
        · simp at h
        · rename_i h3
          rw [if_neg h3]
          obtain ⟨q, hq, g⟩ := ih h
          exact ⟨q, by simp [hq], g⟩

theorem toCand_feasible {cutoff obj : ℚ} {r : SBOut} (h1 : r.upInf = false) (h2 : r.downInf = false) :
    r.toCand cutoff obj = r.cand := by
  simp [SBOut.toCand, h1, h2]

theorem chooseFinish_idx (m : ℤ) (s : ChSt) (rc f u : ℤ) :
    (chooseFinish m s rc f u).1.idx =
      (if ((if m < 0 then -1 * (m + 1) else m) = 3 ∨ (if m < 0 then -1 * (m + 1) else m) = 4) ∧
        s.secIdx ≥ 0 then s.secIdx else s.idx) := by
  unfold chooseFinish
  dsimp only
  generalize (if m < 0 then -1 * (m + 1) else m) = method
  by_cases h6 : m = 6 <;> by_cases h : (method = 3 ∨ method = 4) ∧ s.secIdx ≥ 0 <;>
    simp only [h6, h, and_self, if_true, if_false]

theorem chooseFinish_way (m : ℤ) (s : ChSt) (rc f u : ℤ) :
    (chooseFinish m s rc f u).1.way = if m = 6 then 0 else
      (if ((if m < 0 then -1 * (m + 1) else m) = 3 ∨ (if m < 0 then -1 * (m + 1) else m) = 4) ∧
        s.secIdx ≥ 0 then s.secWay else s.way) := by
  unfold chooseFinish
  dsimp only
  generalize (if m < 0 then -1 * (m + 1) else m) = method
  by_cases h6 : m = 6 <;> by_cases h : (method = 3 ∨ method = 4) ∧ s.secIdx ≥ 0 <;>
    simp only [h6, h, and_self, if_true, if_false]

/-- The candidates that were looked at, with their estimates. -/
def lookedAt (lst : List LItem) (left : ℕ) : List Cand :=
  trustedOf (lst.take left) ++ (todoOf (lst.take left)).map (·.cand)

/-- **C30 (`chooseVariable`, the part that holds).** If some candidate needs strong branching, and
strong branching neither finds an infeasible side nor runs out of time, the object that is chosen is
one that no other looked-at candidate beats (for the second-best methods 3 and 4, and their negations:
that no candidate but the best one beats, when there are at least two).
Missing: all candidates trusted (`all_trusted_ignores_scores`), an infeasible side
(`forced_object_overrides`), time limit (`stale_second_best`). -/
theorem choose_best_partial {m : ℤ} {lst : List LItem} {left onList : ℕ} {cutoff obj : ℚ} {s0 : ChSt}
    (htodo : todoOf (lst.take left) ≠ []) (hzero : (doStrong (todoOf (lst.take left))).1 = 0)
    (hprop : ∀ c ∈ lookedAt lst left, c.Proper m) :
    let r := chooseVariable m lst left onList cutoff obj s0
    let method := if m < 0 then -1 * (m + 1) else m
    r.2 = 0 ∧ ∃ b rest, (lookedAt lst left).Perm (b :: rest) ∧ (∀ d ∈ rest, ¬ d.Better m b) ∧
      (¬ (method = 3 ∨ method = 4) → r.1.idx = b.obj ∧ r.1.way = if m = 6 then 0 else b.way) ∧
      ((method = 3 ∨ method = 4) → (rest = [] → r.1.idx = b.obj) ∧
        (rest ≠ [] → ∃ e rest', rest.Perm (e :: rest') ∧ (∀ d ∈ rest', ¬ d.Better m e) ∧
          r.1.idx = e.obj ∧ r.1.way = if m = 6 then 0 else e.way)) := by
  intro r method
  obtain ⟨d1, d2, d3⟩ := doStrong_zero hzero
  set todo := todoOf (lst.take left) with htd
  have hlst : lst ≠ [] := by
    rintro rfl; exact htodo (by simp [htd, todoOf])
  set si : ChSt := { secIdx := s0.secIdx, secWay := s0.secWay } with hsi
  have hmap : todo.map (SBOut.toCand cutoff obj) = todo.map (·.cand) :=
    List.map_congr_left fun q hq => toCand_feasible (d3 q hq).1 (d3 q hq).2.1
  have hrc : ∀ (cs : List Cand) (s : ChSt), (processAll m cs s 0).2 = 0 := by
    intro cs
    induction cs with
    | nil => intro s; rfl
    | cons c cs ih =>
      intro s
      have : (processObject m c s 0).2 = 0 := by
        unfold processObject; dsimp only
        split
        · rfl
        split
        · rfl
        split
        · rfl
        split <;> rfl
      simp only [processAll, this]; exact ih _
  have happ : ∀ (as bs : List Cand) (s : ChSt),
      processAll m (as ++ bs) s 0 = processAll m bs (processAll m as s 0).1 0 := by
    intro as
    induction as with
    | nil => intro bs s; rfl
    | cons a as ih =>
      intro bs s
      have h2 := hrc [a] s
      simp only [processAll] at h2
      simp only [List.cons_append, processAll, h2]
      exact ih bs _
  have hfix : fixedSides todo = 0 := by
    unfold fixedSides
    apply List.sum_eq_zero
    intro x hx
    simp only [List.mem_map] at hx
    obtain ⟨q, hq, rfl⟩ := hx
    simp [d3 q hq]
  have hr : r = chooseFinish m (processAll m (lookedAt lst left) si 0).1 0 0 lst.length := by
    change chooseVariable m lst left onList cutoff obj s0 = _
    unfold chooseVariable
    rw [if_neg hlst]
    dsimp only
    rw [if_pos htodo, ← htd, d2, hzero, d1, List.take_length, hfix]
    simp only [ne_eq, not_true_eq_false, if_false, le_refl, true_and]
    rw [if_pos (by norm_num), hmap, ← hsi, hrc]
    unfold lookedAt
    rw [happ, ← htd]
  have hne : lookedAt lst left ≠ [] := by
    unfold lookedAt; rw [← htd]; simp [htodo]
  have hsel := selection_best m si rfl (lookedAt lst left) 0 hne hprop
  dsimp only at hsel
  obtain ⟨b, rest, g1, g2, g3, g4, g5, g6⟩ := hsel
  rw [hr]
  set s := (processAll m (lookedAt lst left) si 0).1 with hs
  refine ⟨by simp [chooseFinish], b, rest, g1, g4, fun hm => ?_, fun hm => ⟨fun hre => ?_, fun hre => ?_⟩⟩
  · have hc : ¬ (((if m < 0 then -1 * (m + 1) else m) = 3 ∨ (if m < 0 then -1 * (m + 1) else m) = 4) ∧
        s.secIdx ≥ 0) := fun h => hm h.1
    rw [chooseFinish_idx, chooseFinish_way, if_neg hc, if_neg hc, g2, g3]
    exact ⟨rfl, rfl⟩
  · have : s.secIdx = -1 := g5 hre
    rw [chooseFinish_idx, if_neg (by rw [this]; simp), g2]
  · obtain ⟨e, rest', k1, k2, k3, k4⟩ := g6 hre
    refine ⟨e, rest', k1, k4, ?_⟩
    have hc : ((if m < 0 then -1 * (m + 1) else m) = 3 ∨ (if m < 0 then -1 * (m + 1) else m) = 4) ∧
        s.secIdx ≥ 0 := ⟨hm, by rw [k2]; positivity⟩
    rw [chooseFinish_idx, chooseFinish_way, if_pos hc, if_pos hc, k2, k3]
    exact ⟨rfl, rfl⟩

/-- A list whose candidates are all to be strong branched on, one trusted. -/
def chLst : List LItem :=
  [.trusted ⟨0, 0, 1, 5, -1, true⟩, .todo ⟨⟨1, 1, 2, 2, -1, true⟩, false, false, false, false⟩,
   .todo ⟨⟨2, 2, 4, 3, -1, true⟩, false, false, false, false⟩]

example : todoOf (chLst.take 3) ≠ [] ∧ (doStrong (todoOf (chLst.take 3))).1 = 0 ∧
    (∀ c ∈ lookedAt chLst 3, c.Proper 4) ∧ (chooseVariable 4 chLst 3 3 100 0 {}).1.idx = 1 ∧
    (chooseVariable 2 chLst 3 3 100 0 {}).1.idx = 2 := by
  refine ⟨by decide +kernel, by decide +kernel, ?_, by decide +kernel, by decide +kernel⟩
  unfold Cand.Proper Cand.k1
  decide +kernel

/-- **C30 fails when every candidate is trusted**: the scores that were computed are thrown away and
the first object of the list is taken; here the second one is strictly better. -/
theorem all_trusted_ignores_scores : ∃ (lst : List LItem) (a b : Cand),
    lookedAt lst 2 = [a, b] ∧ b.Better 2 a ∧ (∀ c ∈ lookedAt lst 2, c.Proper 2) ∧
    (chooseVariable 2 lst 2 2 100 0 {}).1.idx = a.obj ∧ a.obj ≠ b.obj := by
  refine ⟨[.trusted ⟨0, 0, 1, 1, -1, true⟩, .trusted ⟨1, 1, 9, 9, -1, true⟩], ⟨0, 0, 1, 1, -1, true⟩,
    ⟨1, 1, 9, 9, -1, true⟩, rfl, Or.inl (by norm_num [Cand.k1, calcValue]), ?_, by decide +kernel,
    by decide⟩
  unfold Cand.Proper Cand.k1
  decide +kernel

/-- **C30 fails when strong branching finds an infeasible side**: the object that can be fixed
overwrites the index of the best candidate without overwriting its score, so that a trusted candidate
with a strictly better score is forgotten. -/
theorem forced_object_overrides : ∃ (lst : List LItem) (a b : Cand),
    trustedOf lst = [a] ∧ (todoOf lst).map (SBOut.toCand 1 0) = [b] ∧ a.Better 2 b ∧
    a.Proper 2 ∧ b.Proper 2 ∧
    (chooseVariable 2 lst 2 2 1 0 {}).1.idx = b.obj ∧ (chooseVariable 2 lst 2 2 1 0 {}).1.best = a.k1 2 ∧
    a.obj ≠ b.obj := by
  refine ⟨[.trusted ⟨0, 0, 9, 9, -1, true⟩, .todo ⟨⟨1, 1, 1, 1, -1, true⟩, true, false, true, false⟩],
    ⟨0, 0, 9, 9, -1, true⟩, ⟨1, 1, 1, 2, -1, true⟩, rfl, ?_, Or.inl (by norm_num [Cand.k1, calcValue]),
    ?_, ?_, by decide +kernel, by decide +kernel, by decide⟩
  · decide +kernel
  · unfold Cand.Proper Cand.k1; decide +kernel
  · unfold Cand.Proper Cand.k1; decide +kernel

/-- **C30 fails at the time limit for the second-best methods**: with a single candidate on the list,
the object recorded as second best at an earlier node is returned, although it is not on the list. -/
theorem stale_second_best : ∃ (lst : List LItem) (s0 : ChSt),
    lst.map LItem.obj = [4] ∧ s0.secIdx = 7 ∧ (chooseVariable 3 lst 1 1 100 0 s0).1.idx = 7 ∧
    (chooseVariable 3 lst 1 1 100 0 s0).2 = 0 :=
  ⟨[.todo ⟨⟨4, 4, 1, 1, -1, true⟩, false, false, false, true⟩], { secIdx := 7 }, rfl, rfl,
    by decide +kernel, by decide +kernel⟩

end VPC
