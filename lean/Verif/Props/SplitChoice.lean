import Verif.Props.Split
import Verif.Props.Own
import Mathlib.Algebra.Order.Round

/-!
# Choice of the split variable (C86), ownership flag (C27), reset of a split (C45)
-/
namespace VPC

/-! ## C86 -/

theorem fractionality_eq (v : ℚ) : fractionality v = |v - round v| := by
  unfold fractionality
  rw [abs_sub_round_eq_min, Int.self_sub_floor]
  by_cases h : Int.fract v = 0
  · have hc : ((⌈v⌉ : ℤ) : ℚ) - v = 0 := by
      have : v = (⌊v⌋ : ℤ) := by
        have := Int.self_sub_floor v; rw [h] at this; linarith
      rw [this]; simp
    rw [hc, h]; simp
  · rw [Int.ceil_sub_self_eq h]

theorem mem_fracCore (AWAY : ℚ) (cols : List (Bool × ℚ)) (i : ℕ) (f : ℚ) :
    (i, f) ∈ fracCore AWAY cols ↔
      ∃ v, cols[i]? = some (true, v) ∧ f = |v - round v| ∧ AWAY ≤ |v - round v| := by
  unfold fracCore
  simp only [List.mem_map, List.mem_filter, Prod.mk.injEq, Prod.exists, List.mem_zipIdx_iff_getElem?,
    Bool.and_eq_true, Bool.not_eq_true']
  constructor
  · rintro ⟨b, v, j, ⟨h1, h2, h3⟩, rfl, rfl⟩
    refine ⟨v, by simpa [← h2] using h1, fractionality_eq v, ?_⟩
    simp only [isVal, sub_zero, decide_eq_false_iff_not, not_lt, fractionality_eq, abs_abs] at h3
    exact h3
  · rintro ⟨v, h1, h2, h3⟩
    refine ⟨true, v, i, ⟨by simpa using h1, rfl, ?_⟩, rfl, by rw [h2, fractionality_eq]⟩
    simp only [isVal, sub_zero, decide_eq_false_iff_not, not_lt, fractionality_eq, abs_abs]
    exact h3

/-- The first candidates fail because one side is infeasible. -/
theorem tryVars_first {AWAY : ℚ} {ask : ℕ → ℕ → VarAns} : ∀ {cols : List ℕ} {k : ℕ} {s s' : Split},
    s.d.Counted → tryVars AWAY ask k cols s = .ok (true, s') →
    ∃ (pre : List ℕ) (col : ℕ) (post : List ℕ), cols = pre ++ col :: post ∧ s'.var = col ∧
      ∀ c ∈ pre, ∃ j, (ask j c).down = .infeasible ∨ (ask j c).up = .infeasible
  | [], k, s, s', _, h => by simp [tryVars] at h
  | col :: cols, k, s, s', hc, h => by
    unfold tryVars at h
    obtain ⟨⟨b, s1⟩, h1, h2⟩ := Res.bind_ok h
    obtain ⟨-, hc1, h3⟩ := checkVar_cases hc h1
    rcases h3 with ⟨rfl, o, o', -, -, rfl⟩ | ⟨rfl, h3⟩
    · simp only [if_true, Res.ok.injEq, Prod.mk.injEq, true_and] at h2
      subst h2
      exact ⟨[], col, cols, rfl, rfl, by simp⟩
    · simp only [Bool.false_eq_true, if_false] at h2
      obtain ⟨pre, c, post, e, ev, hp⟩ := tryVars_first hc1 h2
      refine ⟨col :: pre, c, post, by simp [e], ev, fun x hx => ?_⟩
      rcases List.mem_cons.1 hx with rfl | hx
      · rcases h3 with ⟨hu, -⟩ | ⟨hd, -⟩
        · exact ⟨k, .inr hu⟩
        · exact ⟨k, .inl hd⟩
      · exact hp x hx

/-- **C86.** When no variable was chosen by the user and the preparation succeeds, the split is on an
integer variable at least `AWAY` from the nearest integer, and every integer variable that is strictly
farther from an integer was tried and has an infeasible side. -/
theorem split_choice (AWAY : ℚ) (cols : List (Bool × ℚ)) (sort : List (ℕ × ℚ) → List (ℕ × ℚ))
    (hs : SortsDesc sort) (ask : ℕ → ℕ → VarAns) (s s' : Split) (hc : s.d.Counted) (hv : s.var < 0)
    (h : splitPrepare AWAY cols sort ask s = .ok (.SUCCESS, s')) :
    ∃ (col : ℕ) (v : ℚ), s'.var = col ∧ cols[col]? = some (true, v) ∧ AWAY ≤ |v - round v| ∧
      ∀ (c : ℕ) (u : ℚ), cols[c]? = some (true, u) → AWAY ≤ |u - round u| →
        |v - round v| < |u - round u| →
        ∃ j, (ask j c).down = .infeasible ∨ (ask j c).up = .infeasible := by
  unfold splitPrepare at h
  rw [if_neg (by omega)] at h
  dsimp only at h
  split at h
  · simp at h
  · obtain ⟨⟨b, s1⟩, h1, h2⟩ := Res.bind_ok h
    simp only [Res.ok.injEq, Prod.mk.injEq] at h2
    obtain ⟨hb, rfl⟩ := h2
    cases b with
    | false => simp at hb
    | true =>
      obtain ⟨pre, col, post, e, ev, hp⟩ := tryVars_first hc h1
      obtain ⟨hperm, hsorted⟩ := hs (fracCore AWAY cols)
      generalize hL : sort (fracCore AWAY cols) = L at *
      obtain ⟨L1, L2, rfl, e1, e2⟩ := List.map_eq_append_iff.1 e
      obtain ⟨y, L3, rfl, e3, -⟩ := List.map_eq_cons_iff.1 e2
      obtain ⟨i, f⟩ := y
      dsimp only at e3
      subst e3
      have hmem : (i, f) ∈ fracCore AWAY cols := hperm.subset (by simp)
      obtain ⟨v, g1, g2, g3⟩ := (mem_fracCore AWAY cols i f).1 hmem
      refine ⟨i, v, ev, g1, g3, fun c u hu ha hlt => ?_⟩
      have hmem' : (c, |u - round u|) ∈ L1 ++ (i, f) :: L3 :=
        hperm.symm.subset ((mem_fracCore AWAY cols c _).2 ⟨u, hu, rfl, ha⟩)
      rcases List.mem_append.1 hmem' with hm | hm
      · exact hp c (by rw [← e1]; exact List.mem_map.2 ⟨_, hm, rfl⟩)
      · exfalso
        have hpw := (List.pairwise_append.1 hsorted).2.1
        rcases List.mem_cons.1 hm with e | hm
        · injection e with _ e'; rw [g2] at e'; linarith
        · have := (List.pairwise_cons.1 hpw).1 _ hm
          dsimp only at this
          rw [g2] at this
          linarith

/-- **C86.** Without a choice by the user, "no disjunction" is returned exactly when every integer
variable is less than `AWAY` from an integer; whatever the solver answers, if the call returns. -/
theorem split_none_iff (AWAY : ℚ) (cols : List (Bool × ℚ)) (sort : List (ℕ × ℚ) → List (ℕ × ℚ))
    (ask : ℕ → ℕ → VarAns) (s s' : Split) (e : DisjExit) (hv : s.var < 0)
    (h : splitPrepare AWAY cols sort ask s = .ok (e, s')) :
    e = .NO_DISJUNCTION ↔ ∀ (c : ℕ) (u : ℚ), cols[c]? = some (true, u) → |u - round u| < AWAY := by
  have key : fracCore AWAY cols = [] ↔
      ∀ (c : ℕ) (u : ℚ), cols[c]? = some (true, u) → |u - round u| < AWAY := by
    rw [List.eq_nil_iff_forall_not_mem]
    constructor
    · intro hh c u hu
      by_contra hlt
      exact hh (c, |u - round u|) ((mem_fracCore AWAY cols c _).2 ⟨u, hu, rfl, not_lt.1 hlt⟩)
    · rintro hh ⟨c, f⟩ hm
      obtain ⟨u, hu, -, ha⟩ := (mem_fracCore AWAY cols c f).1 hm
      exact absurd (hh c u hu) (not_lt.2 ha)
  rw [← key]
  unfold splitPrepare at h
  rw [if_neg (by omega)] at h
  dsimp only at h
  split at h
  · rename_i h0
    cases h
    simp [List.length_eq_zero_iff.1 h0]
  · rename_i h0
    obtain ⟨⟨b, s1⟩, -, h2⟩ := Res.bind_ok h
    simp only [Res.ok.injEq, Prod.mk.injEq] at h2
    obtain ⟨rfl, -⟩ := h2
    constructor
    · intro e; split at e <;> cases e
    · intro e; rw [e] at h0; simp at h0

/-- **C86.** Candidates taken from the LP solution never stop the process for not being integer or not
being fractional: if the solver reports the same values when a candidate is checked, and decides every
side, and no candidate has both sides infeasible, the preparation returns. -/
theorem split_returns_partial (AWAY : ℚ) (cols : List (Bool × ℚ)) (sort : List (ℕ × ℚ) → List (ℕ × ℚ))
    (hs : SortsDesc sort) (ask : ℕ → ℕ → VarAns) (s : Split) (hc : s.d.Counted) (hv : s.var < 0)
    (hask : ∀ k c v, cols[c]? = some (true, v) → (ask k c).isInt = true ∧ (ask k c).val = v)
    (hdec : ∀ k c, (ask k c).down ≠ .other ∧ (ask k c).up ≠ .other ∧
      ¬((ask k c).down = .infeasible ∧ (ask k c).up = .infeasible)) :
    ∃ e s', splitPrepare AWAY cols sort ask s = .ok (e, s') := by
  have key : ∀ (l : List ℕ), (∀ c ∈ l, ∃ v, cols[c]? = some (true, v) ∧ AWAY ≤ |v - round v|) →
      ∀ (k : ℕ) (s : Split), s.d.Counted → ∃ r, tryVars AWAY ask k l s = .ok r := by
    intro l
    induction l with
    | nil => intro _ k s _; exact ⟨_, rfl⟩
    | cons c l ih =>
      intro hl k s hc
      obtain ⟨v, hv1, hv2⟩ := hl c (by simp)
      obtain ⟨a1, a2⟩ := hask k c v hv1
      have hch : Checkable AWAY (ask k c) := by
        refine ⟨a1, ?_, ?_⟩
        · rw [a2]; exact hv2.trans (round_le v ⌊v⌋)
        · rw [a2]; exact hv2.trans (round_le v ⌈v⌉)
      have : ∃ r, checkVar AWAY (ask k c) c s = .ok r := by
        rw [checkVar_spec AWAY _ c s hc, if_neg (not_not.2 hch)]
        obtain ⟨d1, d2, d3⟩ := hdec k c
        revert d1 d2 d3
        cases (ask k c).down <;> cases (ask k c).up <;> intro d1 d2 d3 <;>
          first
          | exact ⟨_, rfl⟩
          | exact absurd rfl d1
          | exact absurd rfl d2
          | exact absurd ⟨rfl, rfl⟩ d3
      obtain ⟨⟨b, s1⟩, h1⟩ := this
      obtain ⟨-, hc1, -⟩ := checkVar_cases hc h1
      unfold tryVars
      rw [h1]
      simp only [Res.bind]
      cases b
      · exact ih (fun x hx => hl x (by simp [hx])) (k + 1) s1 hc1
      · exact ⟨_, rfl⟩
  unfold splitPrepare
  rw [if_neg (by omega)]
  dsimp only
  split
  · exact ⟨_, _, rfl⟩
  · obtain ⟨r, hr⟩ := key ((sort (fracCore AWAY cols)).map Prod.fst) (by
      intro c hcm
      obtain ⟨⟨i, f⟩, hm, rfl⟩ := List.mem_map.1 hcm
      obtain ⟨v, g1, -, g3⟩ := (mem_fracCore AWAY cols i f).1 ((hs _).1.subset hm)
      exact ⟨v, g1, g3⟩) 0 s hc
    rw [hr]
    exact ⟨_, _, rfl⟩

/-- Three columns: a continuous one at 1/2, an integer one at 1/2 with an infeasible side, an integer one
at 1/3: the last is chosen. -/
example : (match splitPrepare (1 / 1000) [(false, 1 / 2), (true, 1 / 3), (true, 1 / 2)]
      (List.insertionSort fun a b => b.2 ≤ a.2)
      (fun _ c => if c = 2 then ⟨1 / 2, true, .infeasible, .optimal 1⟩ else ⟨1 / 3, true, .optimal 1, .optimal 2⟩)
      {} with
    | .ok (.SUCCESS, s') => s'.var
    | _ => -9) = 1 := by decide +kernel

/-! ## C45: reset of a split disjunction -/

/-- **C45 (negation).** Resetting a split disjunction does not reset the variable that an earlier
preparation chose: the next preparation splits on the same variable or fails. -/
theorem split_reset_keeps_variable (AWAY : ℚ) (cols cols' : List (Bool × ℚ))
    (sort : List (ℕ × ℚ) → List (ℕ × ℚ)) (ask ask' : ℕ → ℕ → VarAns) (s s1 s2 : Split) (e : DisjExit)
    (hc : s.d.Counted) (h1 : splitPrepare AWAY cols sort ask s = .ok (.SUCCESS, s1))
    (h2 : splitPrepare AWAY cols' sort ask' s1.setupAsNew = .ok (e, s2)) : s2.var = s1.var ∧ 0 ≤ s1.var := by
  have hv : 0 ≤ s1.var := by
    obtain ⟨-, -, -, -, g⟩ := splitPrepare_cases hc h1
    rcases g with ⟨-, j, col, o, o', -, -, -, ev, -⟩ | ⟨hne, -⟩
    · rw [ev]; exact Int.natCast_nonneg col
    · exact absurd rfl hne
  exact ⟨splitPrepare_keeps_var AWAY cols' sort ask' s1.setupAsNew s2 e rfl hv h2, hv⟩

/-- Both calls succeed in a concrete case. -/
example : (match splitPrepare (1 / 1000) [(true, 1 / 2)] id
      (fun _ _ => ⟨1 / 2, true, .optimal 1, .optimal 1⟩) {} with
    | .ok (.SUCCESS, s1) => (match splitPrepare (1 / 1000) [(true, 0), (true, 1 / 2)] id
        (fun _ _ => ⟨1 / 2, true, .optimal 1, .optimal 1⟩) s1.setupAsNew with
      | .ok (.SUCCESS, s2) => (s1.var, s2.var)
      | _ => (-9, -9))
    | _ => (-9, -9)) = (0, 0) := by decide +kernel

/-! ## C27: the ownership argument -/

/-- **C27 (documentation of the argument).** When setting a disjunction succeeds: 0 borrows the object
(the generator holds the pointer itself and will not free it); a positive value makes the generator own a
new copy; a negative value keeps the current mode. -/
theorem set_disjunction_mode (h h' : Heap) (g g' : Vpc) (p : Option ℕ) (own : ℤ)
    (hs : g.setDisjunction h p own = .ok (h', g')) :
    (own = 0 → g'.owns = false ∧ g'.disj = p) ∧
    (0 < own → g'.owns = true ∧ g'.disj = some h.next) ∧
    (own < 0 → g'.owns = g.owns ∧ (g.owns = false → g'.disj = p) ∧
      (g.owns = true → g'.disj = some h.next)) := by
  unfold Vpc.setDisjunction at hs
  obtain ⟨h1, e1, e2⟩ := Res.bind_ok hs
  have hn : h1.next = h.next := by
    split at e1
    · unfold Heap.free at e1
      split at e1
      · cases e1; rfl
      · split at e1
        · cases e1; rfl
        · cases e1
    · cases e1; rfl
  cases ho : ownFlag g own with
  | true =>
    rw [ho] at e2
    simp only [if_true] at e2
    obtain ⟨h2, e3, e4⟩ := Res.bind_ok e2
    cases e4
    unfold ownFlag at ho
    refine ⟨fun e => ?_, fun _ => ⟨rfl, by rw [hn]⟩, fun e => ?_⟩
    · subst e; simp at ho
    · rw [if_pos e] at ho; exact ⟨ho.symm, fun e' => absurd (ho.symm.trans e') (by simp), fun _ => by rw [hn]⟩
  | false =>
    rw [ho] at e2
    simp only [Bool.false_eq_true, if_false] at e2
    cases e2
    unfold ownFlag at ho
    refine ⟨fun _ => ⟨rfl, rfl⟩, fun e => ?_, fun e => ?_⟩
    · rw [if_neg (by omega)] at ho; simp at ho; omega
    · rw [if_pos e] at ho; exact ⟨ho.symm, fun _ => rfl, fun e' => absurd (ho.symm.trans e') (by simp)⟩

/-- The same for sets of disjunctions. -/
theorem set_disjunction_set_mode (h h' : Heap) (g g' : Vpc) (p : Option ℕ) (own : ℤ)
    (hs : g.setDisjunctionSet h p own = .ok (h', g')) :
    (own = 0 → g'.owns = false ∧ g'.dset = p) ∧
    (0 < own → g'.owns = true ∧ g'.dset = some h.next) ∧
    (own < 0 → g'.owns = g.owns ∧ (g.owns = false → g'.dset = p) ∧
      (g.owns = true → g'.dset = some h.next)) := by
  unfold Vpc.setDisjunctionSet at hs
  obtain ⟨h1, e1, e2⟩ := Res.bind_ok hs
  have hn : h1.next = h.next := by
    split at e1
    · unfold Heap.free at e1
      split at e1
      · cases e1; rfl
      · split at e1
        · cases e1; rfl
        · cases e1
    · cases e1; rfl
  cases ho : ownFlag g own with
  | true =>
    rw [ho] at e2
    simp only [if_true] at e2
    obtain ⟨h2, e3, e4⟩ := Res.bind_ok e2
    cases e4
    unfold ownFlag at ho
    refine ⟨fun e => ?_, fun _ => ⟨rfl, by rw [hn]⟩, fun e => ?_⟩
    · subst e; simp at ho
    · rw [if_pos e] at ho; exact ⟨ho.symm, fun e' => absurd (ho.symm.trans e') (by simp), fun _ => by rw [hn]⟩
  | false =>
    rw [ho] at e2
    simp only [Bool.false_eq_true, if_false] at e2
    cases e2
    unfold ownFlag at ho
    refine ⟨fun _ => ⟨rfl, rfl⟩, fun e => ?_, fun e => ?_⟩
    · rw [if_neg (by omega)] at ho; simp at ho; omega
    · rw [if_pos e] at ho; exact ⟨ho.symm, fun _ => rfl, fun e' => absurd (ho.symm.trans e') (by simp)⟩

example : ∃ r, Vpc.fresh.setDisjunction ⟨fun i => i == 0, 1⟩ (some 0) (-1) = .ok r := ⟨_, rfl⟩
example : ∃ r, Vpc.fresh.setDisjunction ⟨fun i => i == 0, 1⟩ (some 0) 1 = .ok r := ⟨_, rfl⟩

end VPC
