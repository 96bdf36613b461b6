import Verif.Model.BetterBranch
import Mathlib.Tactic.Linarith

/-!
# C118: the branching decision compares candidates as documented

"Compare based on infeasibility until a solution is found by search, then switch to change in
objective" (src/branch/CbcBranchStrongDecision.cpp:85-90).
-/
namespace VPC

/-! ## Specification -/

/-- The smaller change of the objective. -/
def BrCand.change (c : BrCand) : ℚ := min c.up c.down

/-- The smaller number of infeasibilities. -/
def BrCand.infeas (c : BrCand) : ℤ := min c.numUp c.numDown

/-- The cheaper way: 1 up, -1 down. -/
def BrCand.cheaper (c : BrCand) : ℤ := if c.up ≤ c.down then 1 else -1

/-- The way with fewer infeasibilities, the cheaper one if they are equally many. -/
def BrCand.fewer (c : BrCand) : ℤ :=
  if c.numUp < c.numDown then 1 else if c.numDown < c.numUp then -1 else c.cheaper

/-- The way that is announced: the one the user prefers, if any. -/
def BrCand.announced (c : BrCand) (w : ℤ) : ℤ := if c.preferred ≠ 0 then c.preferred else w

/-! ## After a solution -/

theorem wayAfter_eq (c : BrCand) (crit : ℚ) :
    wayAfter c crit = if crit < c.change then c.cheaper else 0 := by
  unfold wayAfter BrCand.change BrCand.cheaper
  by_cases h : c.up ≤ c.down
  · rw [if_pos h, if_pos h, min_eq_left h]
  · rw [if_neg h, if_neg h, min_eq_right (not_le.mp h).le]

theorem cheaper_ne (c : BrCand) : c.cheaper ≠ 0 := by
  unfold BrCand.cheaper; split <;> decide

theorem announced_ne (c : BrCand) (w : ℤ) (h : w ≠ 0) : c.announced w ≠ 0 := by
  unfold BrCand.announced; split <;> assumption

/-- The criterion a state stands for after a solution. -/
def BrState.bar (s : BrState) : ℚ := if s.best = none then -1 else s.crit

theorem betterBranch_after (s : BrState) (i : ℕ) (c : BrCand) :
    (betterBranch false s i c).1.bar = (if s.bar < c.change then c.change else s.bar) ∧
    (betterBranch false s i c).1.best = (if s.bar < c.change then some i else s.best) ∧
    (betterBranch false s i c).2 = (if s.bar < c.change then c.announced c.cheaper else 0) := by
  have hc : (s.start false).crit = s.bar := by
    unfold BrState.start BrState.bar; by_cases h : s.best = none <;> simp [h]
  have hb : (s.start false).best = s.best := by
    unfold BrState.start; by_cases h : s.best = none <;> simp [h]
  have hbar : (s.start false).bar = s.bar := by
    unfold BrState.bar; rw [hb]; split
    · rfl
    · rw [hc]; unfold BrState.bar; rw [if_neg ‹_›]
  unfold betterBranch
  dsimp only
  have hw : (s.start false).way false c = if s.bar < c.change then c.cheaper else 0 := by
    unfold BrState.way; rw [if_neg (by decide), wayAfter_eq, hc]
  rw [hw]
  by_cases h : s.bar < c.change
  · have e : (if s.bar < c.change then c.cheaper else 0) = c.cheaper := if_pos h
    rw [e, if_pos (cheaper_ne c), if_pos h, if_pos h, if_pos h]
    refine ⟨?_, rfl, rfl⟩
    show (if (some i : Option ℕ) = none then (-1 : ℚ) else min c.up c.down) = c.change
    rw [if_neg (by simp)]
    rfl
  · simp only [if_neg h]
    exact ⟨by simpa using hbar, by simpa using hb, by simp⟩

theorem betterFrom_after (cs : List BrCand) : ∀ (i : ℕ) (s : BrState × ℤ),
    let r := betterFrom false i cs s
    s.1.bar ≤ r.1.bar ∧ (∀ c ∈ cs, c.change ≤ r.1.bar) ∧
    ((r.1.best = s.1.best ∧ r.1.bar = s.1.bar ∧ r.2 = s.2) ∨
      ∃ j c, cs[j]? = some c ∧ r.1.best = some (i + j) ∧ r.1.bar = c.change ∧ s.1.bar < c.change ∧
      r.2 = c.announced c.cheaper ∧ ∀ k d, k < j → cs[k]? = some d → d.change < c.change) := by
  induction cs with
  | nil => intro i s; exact ⟨le_rfl, by simp, Or.inl ⟨rfl, rfl, rfl⟩⟩
  | cons c cs ih =>
    intro i s r
    obtain ⟨b1, b2, b3⟩ := betterBranch_after s.1 i c
    have hr : r = betterFrom false (i + 1) cs
      (if (betterBranch false s.1 i c).2 ≠ 0 then betterBranch false s.1 i c
        else ((betterBranch false s.1 i c).1, s.2)) := rfl
    by_cases hc : s.1.bar < c.change
    · rw [if_pos hc] at b1 b2 b3
      rw [if_pos (by rw [b3]; exact announced_ne _ _ (cheaper_ne c))] at hr
      obtain ⟨h1, h2, h3⟩ := ih (i + 1) (betterBranch false s.1 i c)
      rw [← hr] at h1 h2 h3
      rw [b1] at h1
      refine ⟨hc.le.trans h1, fun d hd => ?_, Or.inr ?_⟩
      · rcases List.mem_cons.mp hd with rfl | hd
        · exact h1
        · exact h2 d hd
      · rcases h3 with ⟨e1, e2, e3⟩ | ⟨j, d, e1, e2, e3, e4, e5, e6⟩
        · exact ⟨0, c, rfl, by rw [e1, b2]; simp, by rw [e2, b1], hc, by rw [e3, b3], by simp⟩
        · rw [b1] at e4
          refine ⟨j + 1, d, by simpa using e1, by rw [e2]; congr 1; omega, e3, hc.trans e4, e5, ?_⟩
          intro k f hk hf
          cases k with
          | zero => simp only [List.getElem?_cons_zero, Option.some.injEq] at hf; subst hf; exact e4
          | succ k => exact e6 k f (by omega) (by simpa using hf)
    · rw [if_neg hc] at b1 b2 b3
      rw [if_neg (by rw [b3]; simp)] at hr
      obtain ⟨h1, h2, h3⟩ := ih (i + 1) ((betterBranch false s.1 i c).1, s.2)
      rw [← hr] at h1 h2 h3
      dsimp only at h1 h3
      rw [b1] at h1
      have hc' := not_lt.mp hc
      refine ⟨h1, fun d hd => ?_, ?_⟩
      · rcases List.mem_cons.mp hd with rfl | hd
        · exact hc'.trans h1
        · exact h2 d hd
      · rcases h3 with ⟨e1, e2, e3⟩ | ⟨j, d, e1, e2, e3, e4, e5, e6⟩
        · exact Or.inl ⟨by rw [e1, b2], by rw [e2, b1], e3⟩
        · rw [b1] at e4
          refine Or.inr ⟨j + 1, d, by simpa using e1, by rw [e2]; congr 1; omega, e3, e4, e5, ?_⟩
          intro k f hk hf
          cases k with
          | zero =>
            simp only [List.getElem?_cons_zero, Option.some.injEq] at hf; subst hf
            exact lt_of_le_of_lt hc' e4
          | succ k => exact e6 k f (by omega) (by simpa using hf)

/-- C118, after a solution: the chosen candidate is the first of those whose smaller change is
largest; it is announced with the way the user prefers, otherwise the cheaper one. (Changes are
nonnegative, so that the condition holds as soon as there is a candidate.) -/
theorem better_after_solution (cs : List BrCand) (h : ∃ c ∈ cs, -1 < c.change) :
    ∃ (j : ℕ) (c : BrCand), cs[j]? = some c ∧ (betterAll false cs).1.best = some j ∧
      (∀ d ∈ cs, d.change ≤ c.change) ∧
      (∀ k d, k < j → cs[k]? = some d → d.change < c.change) ∧
      (betterAll false cs).2 = c.announced c.cheaper := by
  obtain ⟨_, h2, h3⟩ := betterFrom_after cs 0 (.init, 0)
  have hb : BrState.init.bar = -1 := by decide
  rcases h3 with ⟨_, e2, _⟩ | ⟨j, c, e1, e2, e3, _, e5, e6⟩
  · obtain ⟨c, hc, hlt⟩ := h
    have := h2 c hc
    rw [e2] at this
    rw [hb] at this
    linarith
  · exact ⟨j, c, e1, by simpa [betterAll] using e2, fun d hd => e3 ▸ h2 d hd, e6, e5⟩

example : betterAll false [⟨1, 0, 3, 0, 0⟩, ⟨4, 0, 2, 0, 0⟩, ⟨2, 0, 2, 0, 1⟩] =
    (⟨2, 0, 0, some 1⟩, -1) := by decide +kernel

/-! ## Before a solution -/

theorem wayBefore_sign (c : BrCand) (b : ℤ) (crit : ℚ) :
    wayBefore c b crit = 0 ∨ wayBefore c b crit = c.fewer := by
  unfold wayBefore BrCand.fewer BrCand.cheaper
  split_ifs <;> first | (left; rfl) | (right; rfl)

theorem wayBefore_lt (c : BrCand) (b : ℤ) (crit : ℚ) (h : c.infeas < b) :
    wayBefore c b crit = c.fewer := by
  unfold BrCand.infeas at h
  unfold wayBefore BrCand.fewer BrCand.cheaper
  split_ifs <;> first | rfl | (exfalso; omega)

theorem wayBefore_gt (c : BrCand) (b : ℤ) (crit : ℚ) (h : b < c.infeas) :
    wayBefore c b crit = 0 := by
  unfold BrCand.infeas at h
  unfold wayBefore
  split_ifs <;> first | rfl | (exfalso; omega)

theorem fewer_ne (c : BrCand) : c.fewer ≠ 0 := by
  unfold BrCand.fewer BrCand.cheaper; split_ifs <;> decide

/-- The number of infeasibilities a state stands for before a solution. -/
def BrState.num (s : BrState) : ℤ := if s.best = none then coinIntMax else min s.numUp s.numDown

theorem betterBranch_before (s : BrState) (i : ℕ) (c : BrCand) :
    ((betterBranch true s i c).2 = c.announced c.fewer ∧
      (betterBranch true s i c).1.best = some i ∧
      (betterBranch true s i c).1.num = c.infeas ∧ c.infeas ≤ s.num) ∨
    ((betterBranch true s i c).2 = 0 ∧ (betterBranch true s i c).1.best = s.best ∧
      (betterBranch true s i c).1.num = s.num ∧ s.num ≤ c.infeas) := by
  have hn : min (s.start true).numUp (s.start true).numDown = s.num := by
    unfold BrState.start BrState.num; by_cases h : s.best = none <;> simp [h]
  have hb : (s.start true).best = s.best := by
    unfold BrState.start; by_cases h : s.best = none <;> simp [h]
  have hnum : (s.start true).num = s.num := by
    unfold BrState.num; rw [hb]; split
    · rfl
    · rw [hn]; unfold BrState.num; rw [if_neg ‹_›]
  unfold betterBranch
  dsimp only
  have hw : (s.start true).way true c = wayBefore c s.num (s.start true).crit := by
    unfold BrState.way; rw [if_pos rfl, hn]
  rw [hw]
  by_cases h0 : wayBefore c s.num (s.start true).crit = 0
  · right
    rw [if_neg (by simp [h0])]
    refine ⟨rfl, hb, hnum, ?_⟩
    by_contra hlt
    rw [wayBefore_lt c _ _ (not_le.mp hlt)] at h0
    exact fewer_ne c h0
  · left
    rw [if_pos h0]
    have e := (wayBefore_sign c s.num (s.start true).crit).resolve_left h0
    refine ⟨by rw [e]; rfl, rfl, by simp [BrState.num, BrCand.infeas], ?_⟩
    by_contra hgt
    exact h0 (wayBefore_gt c _ _ (not_le.mp hgt))

theorem betterFrom_before (cs : List BrCand) : ∀ (i : ℕ) (s : BrState × ℤ),
    let r := betterFrom true i cs s
    r.1.num ≤ s.1.num ∧ (∀ c ∈ cs, r.1.num ≤ c.infeas) ∧
    ((r.1.best = s.1.best ∧ r.1.num = s.1.num ∧ r.2 = s.2) ∨
      ∃ j c, cs[j]? = some c ∧ r.1.best = some (i + j) ∧ r.1.num = c.infeas ∧
      r.2 = c.announced c.fewer) := by
  induction cs with
  | nil => intro i s; exact ⟨le_rfl, by simp, Or.inl ⟨rfl, rfl, rfl⟩⟩
  | cons c cs ih =>
    intro i s r
    have hr : r = betterFrom true (i + 1) cs
      (if (betterBranch true s.1 i c).2 ≠ 0 then betterBranch true s.1 i c
        else ((betterBranch true s.1 i c).1, s.2)) := rfl
    rcases betterBranch_before s.1 i c with ⟨b1, b2, b3, b4⟩ | ⟨b1, b2, b3, b4⟩
    · rw [if_pos (by rw [b1]; exact announced_ne _ _ (fewer_ne c))] at hr
      obtain ⟨h1, h2, h3⟩ := ih (i + 1) (betterBranch true s.1 i c)
      rw [← hr] at h1 h2 h3
      rw [b3] at h1
      refine ⟨h1.trans b4, fun d hd => ?_, Or.inr ?_⟩
      · rcases List.mem_cons.mp hd with rfl | hd
        · exact h1
        · exact h2 d hd
      · rcases h3 with ⟨e1, e2, e3⟩ | ⟨j, d, e1, e2, e3, e4⟩
        · exact ⟨0, c, rfl, by rw [e1, b2]; simp, by rw [e2, b3], by rw [e3, b1]⟩
        · exact ⟨j + 1, d, by simpa using e1, by rw [e2]; congr 1; omega, e3, e4⟩
    · rw [if_neg (by rw [b1]; simp)] at hr
      obtain ⟨h1, h2, h3⟩ := ih (i + 1) ((betterBranch true s.1 i c).1, s.2)
      rw [← hr] at h1 h2 h3
      dsimp only at h1 h3
      rw [b3] at h1
      refine ⟨h1, fun d hd => ?_, ?_⟩
      · rcases List.mem_cons.mp hd with rfl | hd
        · exact h1.trans b4
        · exact h2 d hd
      · rcases h3 with ⟨e1, e2, e3⟩ | ⟨j, d, e1, e2, e3, e4⟩
        · exact Or.inl ⟨by rw [e1, b2], by rw [e2, b3], e3⟩
        · exact Or.inr ⟨j + 1, d, by simpa using e1, by rw [e2]; congr 1; omega, e3, e4⟩

/-- C118, before a solution: the chosen candidate has the fewest infeasibilities on its better side
of all candidates, and is announced with that side (the cheaper one if they are equal) unless the user
prefers a way. What is missing: which of several such candidates is chosen, see
`better_before_tie_wrong`. -/
theorem better_before_solution_partial (cs : List BrCand) (hne : cs ≠ [])
    (h : ∀ c ∈ cs, c.infeas < coinIntMax) :
    ∃ (j : ℕ) (c : BrCand), cs[j]? = some c ∧ (betterAll true cs).1.best = some j ∧
      (∀ d ∈ cs, c.infeas ≤ d.infeas) ∧ (betterAll true cs).2 = c.announced c.fewer := by
  obtain ⟨_, h2, h3⟩ := betterFrom_before cs 0 (.init, 0)
  have hb : BrState.init.num = coinIntMax := by decide
  rcases h3 with ⟨_, e2, _⟩ | ⟨j, c, e1, e2, e3, e4⟩
  · obtain ⟨c, hc⟩ := List.exists_mem_of_ne_nil cs hne
    have h5 := h2 c hc
    have h6 := h c hc
    rw [e2] at h5
    rw [hb] at h5
    omega
  · exact ⟨j, c, e1, by simpa [betterAll] using e2, fun d hd => e3 ▸ h2 d hd, e4⟩

/-- The change on the side with fewer infeasibilities: what ties are decided by. -/
def BrCand.sideChange (c : BrCand) : ℚ := if c.fewer = 1 then c.up else c.down

/-- Two candidates with one infeasibility on the way up; the second costs less there. -/
def tieA : BrCand := ⟨5, 1, 1, 2, 0⟩
def tieB : BrCand := ⟨3, 1, 9, 3, 0⟩

/-- Ties are not decided by the change: the stored number is the smaller change over both sides, which
is compared with the change on one side. A candidate that is cheaper on the side with fewer
infeasibilities is not taken, and whichever comes first wins. -/
theorem better_before_tie_wrong :
    tieA.infeas = tieB.infeas ∧ tieA.fewer = tieB.fewer ∧ tieB.sideChange < tieA.sideChange ∧
    (betterAll true [tieA, tieB]).1.best = some 0 ∧ (betterAll true [tieB, tieA]).1.best = some 0 := by
  decide +kernel

example : (∀ c ∈ [tieA, tieB], c.infeas < coinIntMax) ∧ [tieA, tieB] ≠ [] := by decide +kernel

/-- If all candidates have the same number of infeasibilities on both sides (the sides do not differ),
the first of those with the smallest change is chosen, as intended. -/
theorem better_before_even (n : ℤ) (hn : n < coinIntMax) (cs : List BrCand) (hne : cs ≠ [])
    (h : ∀ c ∈ cs, c.numUp = n ∧ c.numDown = n) :
    ∃ (j : ℕ) (c : BrCand), cs[j]? = some c ∧ (betterAll true cs).1.best = some j ∧
      (∀ d ∈ cs, c.change ≤ d.change) ∧
      (∀ k d, k < j → cs[k]? = some d → c.change < d.change) := by
  have step : ∀ (s : BrState) (i : ℕ) (c : BrCand), c.numUp = n → c.numDown = n →
      s.best ≠ none → s.numUp = n → s.numDown = n →
      betterBranch true s i c =
        if c.change < s.crit then (⟨c.change, n, n, some i⟩, c.announced c.cheaper) else (s, 0) := by
    intro s i c h1 h2 hb h3 h4
    have hs : s.start true = s := by unfold BrState.start; rw [if_neg hb]
    unfold betterBranch
    dsimp only
    rw [hs]
    have hw : s.way true c = if c.change < s.crit then c.cheaper else 0 := by
      unfold BrState.way wayBefore BrCand.change BrCand.cheaper
      rw [if_pos rfl, h1, h2, h3, h4]
      simp
    rw [hw]
    by_cases hc : c.change < s.crit
    · simp only [if_pos hc, if_pos (cheaper_ne c), h1, h2]; rfl
    · simp [if_neg hc]
  have loop : ∀ (cs : List BrCand) (i : ℕ) (s : BrState) (w : ℤ),
      (∀ c ∈ cs, c.numUp = n ∧ c.numDown = n) → s.best ≠ none → s.numUp = n → s.numDown = n →
      (betterFrom true i cs (s, w)).1.crit ≤ s.crit ∧
      (∀ c ∈ cs, (betterFrom true i cs (s, w)).1.crit ≤ c.change) ∧
      ((betterFrom true i cs (s, w)).1 = s ∨ ∃ j c, cs[j]? = some c ∧
        (betterFrom true i cs (s, w)).1.best = some (i + j) ∧
        (betterFrom true i cs (s, w)).1.crit = c.change ∧ c.change < s.crit ∧
        ∀ k d, k < j → cs[k]? = some d → c.change < d.change) := by
    intro cs
    induction cs with
    | nil => intro i s w _ _ _ _; exact ⟨le_rfl, by simp, Or.inl rfl⟩
    | cons c cs ih =>
      intro i s w hall hb h3 h4
      obtain ⟨h1, h2⟩ := hall c (by simp)
      have hst := step s i c h1 h2 hb h3 h4
      have hall' : ∀ d ∈ cs, d.numUp = n ∧ d.numDown = n := fun d hd => hall d (by simp [hd])
      by_cases hc : c.change < s.crit
      · rw [if_pos hc] at hst
        have hr : betterFrom true i (c :: cs) (s, w) =
            betterFrom true (i + 1) cs (⟨c.change, n, n, some i⟩, c.announced c.cheaper) := by
          rw [betterFrom, hst]
          dsimp only
          rw [if_pos (announced_ne _ _ (cheaper_ne c))]
        rw [hr]
        obtain ⟨g1, g2, g3⟩ := ih (i + 1) ⟨c.change, n, n, some i⟩ (c.announced c.cheaper) hall'
          (by simp) rfl rfl
        dsimp only at g1
        refine ⟨g1.trans hc.le, fun d hd => ?_, Or.inr ?_⟩
        · rcases List.mem_cons.mp hd with rfl | hd
          · exact g1
          · exact g2 d hd
        · rcases g3 with g3 | ⟨j, d, e1, e2, e3, e4, e5⟩
          · exact ⟨0, c, rfl, by rw [g3]; simp, by rw [g3], hc, by simp⟩
          · dsimp only at e4
            refine ⟨j + 1, d, by simpa using e1, by rw [e2]; congr 1; omega, e3, e4.trans hc, ?_⟩
            intro k f hk hf
            cases k with
            | zero =>
              simp only [List.getElem?_cons_zero, Option.some.injEq] at hf; subst hf; exact e4
            | succ k => exact e5 k f (by omega) (by simpa using hf)
      · rw [if_neg hc] at hst
        have hr : betterFrom true i (c :: cs) (s, w) = betterFrom true (i + 1) cs (s, w) := by
          rw [betterFrom, hst]
          rfl
        rw [hr]
        obtain ⟨g1, g2, g3⟩ := ih (i + 1) s w hall' hb h3 h4
        have hc' := not_lt.mp hc
        refine ⟨g1, fun d hd => ?_, ?_⟩
        · rcases List.mem_cons.mp hd with rfl | hd
          · exact g1.trans hc'
          · exact g2 d hd
        · rcases g3 with g3 | ⟨j, d, e1, e2, e3, e4, e5⟩
          · exact Or.inl g3
          · refine Or.inr ⟨j + 1, d, by simpa using e1, by rw [e2]; congr 1; omega, e3, e4, ?_⟩
            intro k f hk hf
            cases k with
            | zero =>
              simp only [List.getElem?_cons_zero, Option.some.injEq] at hf; subst hf
              exact lt_of_lt_of_le e4 hc'
            | succ k => exact e5 k f (by omega) (by simpa using hf)
  cases cs with
  | nil => exact absurd rfl hne
  | cons c cs =>
    obtain ⟨h1, h2⟩ := h c (by simp)
    have hfirst : betterBranch true .init 0 c = (⟨c.change, n, n, some 0⟩, c.announced c.fewer) := by
      unfold betterBranch
      dsimp only
      have hw : (BrState.init.start true).way true c = c.fewer := by
        show wayBefore c coinIntMax 0 = _
        exact wayBefore_lt c _ _ (by unfold BrCand.infeas; rw [h1, h2]; simpa using hn)
      rw [hw, if_pos (fewer_ne c), h1, h2]
      rfl
    have hr : betterAll true (c :: cs) =
        betterFrom true 1 cs (⟨c.change, n, n, some 0⟩, c.announced c.fewer) := by
      unfold betterAll
      rw [betterFrom, hfirst]
      dsimp only
      rw [if_pos (announced_ne _ _ (fewer_ne c))]
    rw [hr]
    obtain ⟨g1, g2, g3⟩ := loop cs 1 ⟨c.change, n, n, some 0⟩ (c.announced c.fewer)
      (fun d hd => h d (by simp [hd])) (by simp) rfl rfl
    dsimp only at g1
    rcases g3 with g3 | ⟨j, d, e1, e2, e3, e4, e5⟩
    · refine ⟨0, c, rfl, by rw [g3], fun d hd => ?_, by simp⟩
      rcases List.mem_cons.mp hd with rfl | hd
      · exact le_rfl
      · have := g2 d hd
        rw [g3] at this
        exact this
    · refine ⟨j + 1, d, by simpa using e1, by rw [e2]; congr 1; omega, fun f hf => ?_, ?_⟩
      · rcases List.mem_cons.mp hf with rfl | hf
        · exact e4.le
        · exact e3 ▸ g2 f hf
      · intro k f hk hf
        cases k with
        | zero => simp only [List.getElem?_cons_zero, Option.some.injEq] at hf; subst hf; exact e4
        | succ k => exact e5 k f (by omega) (by simpa using hf)

example : betterAll true [⟨5, 2, 4, 2, 0⟩, ⟨3, 2, 7, 2, 0⟩, ⟨3, 2, 3, 2, 0⟩] =
    (⟨3, 2, 2, some 1⟩, 1) := by decide +kernel

end VPC
