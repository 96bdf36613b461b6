import Verif.Model.Split
import Mathlib.Tactic.Linarith
import Mathlib.Tactic.NormNum
import Mathlib.Data.List.Perm.Basic
import Mathlib.Data.List.Sort

/-!
# Split disjunctions (C04, C39, C45)
-/
namespace VPC

/-- A point satisfies all bound changes of a disjunctive term. -/
def Term.Holds (t : Term) (x : Vec) : Prop := ∀ c ∈ t.changes, c.Sat x

/-- The down term of a split: `x_col ≤ ⌊v⌋`. -/
def downTerm (col : ℕ) (v o : ℚ) : Term :=
  { obj := o, changes := [⟨col, 1, (⌊v⌋ : ℤ)⟩], feasible := true }

/-- The up term of a split: `x_col ≥ ⌈v⌉`. -/
def upTerm (col : ℕ) (v o : ℚ) : Term :=
  { obj := o, changes := [⟨col, 0, (⌈v⌉ : ℤ)⟩], feasible := true }

/-- The variable passes the tests at the start of a check. -/
def Checkable (AWAY : ℚ) (a : VarAns) : Prop :=
  a.isInt = true ∧ AWAY ≤ |a.val - (⌊a.val⌋ : ℤ)| ∧ AWAY ≤ |a.val - (⌈a.val⌉ : ℤ)|

instance (AWAY : ℚ) (a : VarAns) : Decidable (Checkable AWAY a) := by
  unfold Checkable; infer_instance

/-- A disjunction whose counter agrees with its list of terms. -/
def Disj.Counted (d : Disj) : Prop := d.numTerms = d.terms.length

/-- Complete description of one check on a disjunction whose counter is right. -/
theorem checkVar_spec (AWAY : ℚ) (a : VarAns) (col : ℕ) (s : Split) (hc : s.d.Counted) :
    checkVar AWAY a col s = (if ¬ Checkable AWAY a then Res.exit else
      match a.down, a.up with
      | .optimal o, .optimal o' => .ok (true,
          { d := { s.d with terms := s.d.terms ++ [downTerm col a.val o, upTerm col a.val o'],
                            numTerms := s.d.numTerms + 2 }, var := col })
      | .optimal _, .infeasible => .ok (false,
          { s with d := { s.d with common := s.d.common ++ [⟨col, 1, (⌊a.val⌋ : ℤ)⟩] } })
      | .infeasible, .optimal _ => .ok (false,
          { s with d := { s.d with common := s.d.common ++ [⟨col, 0, (⌈a.val⌉ : ℤ)⟩] } })
      | _, _ => .exit) := by
  unfold checkVar
  by_cases hi : a.isInt = true
  · by_cases hf : (isVal a.val (⌊a.val⌋ : ℤ) AWAY || isVal a.val (⌈a.val⌉ : ℤ) AWAY) = true
    · have : ¬ Checkable AWAY a := by
        rintro ⟨_, h1, h2⟩
        rw [Bool.or_eq_true, isVal_iff, isVal_iff] at hf
        rcases hf with h | h <;> linarith
      simp [hi, hf, this]
    · have hch : Checkable AWAY a := by
        rw [Bool.or_eq_true, isVal_iff, isVal_iff] at hf
        simp only [not_or, not_lt] at hf
        exact ⟨hi, hf⟩
      have hlen : (s.d.numTerms).toNat = s.d.terms.length := by rw [hc]; rfl
      have hnn : ¬ s.d.numTerms < 0 := by rw [hc]; omega
      simp only [hi, hf, hch, Bool.not_true, Bool.false_eq_true, if_false, not_true]
      cases hd : a.down with
      | other => simp [Res.bind]
      | optimal o =>
        cases hu : a.up with
        | other => simp [Res.bind]
        | optimal o' =>
          simp [Res.bind, addTerm, downTerm, upTerm, add_assoc]
        | infeasible =>
          simp [Res.bind, addTerm, resizeTerms, hlen, hnn]
      | infeasible =>
        cases hu : a.up with
        | other => simp [Res.bind]
        | infeasible => simp [Res.bind]
        | optimal o' => simp [Res.bind, addTerm, resizeTerms, hlen, hnn]
  · have : ¬ Checkable AWAY a := fun h => hi h.1
    simp [hi, this]

theorem checkVar_cases {AWAY : ℚ} {a : VarAns} {col : ℕ} {s s' : Split} {b : Bool}
    (hc : s.d.Counted) (h : checkVar AWAY a col s = .ok (b, s')) :
    Checkable AWAY a ∧ s'.d.Counted ∧
    ((b = true ∧ ∃ o o', a.down = .optimal o ∧ a.up = .optimal o' ∧
        s' = { d := { s.d with terms := s.d.terms ++ [downTerm col a.val o, upTerm col a.val o'],
                               numTerms := s.d.numTerms + 2 }, var := col }) ∨
     (b = false ∧ ((a.up = .infeasible ∧
          s' = { s with d := { s.d with common := s.d.common ++ [⟨col, 1, (⌊a.val⌋ : ℤ)⟩] } }) ∨
        (a.down = .infeasible ∧
          s' = { s with d := { s.d with common := s.d.common ++ [⟨col, 0, (⌈a.val⌉ : ℤ)⟩] } })))) := by
  rw [checkVar_spec AWAY a col s hc] at h
  by_cases hch : Checkable AWAY a
  · simp only [hch, not_true, if_false] at h
    refine ⟨hch, ?_⟩
    cases hd : a.down with
    | other => rw [hd] at h; cases hu : a.up <;> rw [hu] at h <;> cases h
    | optimal o =>
      cases hu : a.up with
      | other => rw [hd, hu] at h; cases h
      | optimal o' =>
        rw [hd, hu] at h
        simp only [Res.ok.injEq, Prod.mk.injEq] at h
        obtain ⟨rfl, rfl⟩ := h
        refine ⟨by simp [Disj.Counted]; rw [hc], Or.inl ⟨rfl, o, o', rfl, rfl, rfl⟩⟩
      | infeasible =>
        rw [hd, hu] at h
        simp only [Res.ok.injEq, Prod.mk.injEq] at h
        obtain ⟨rfl, rfl⟩ := h
        exact ⟨hc, Or.inr ⟨rfl, Or.inl ⟨rfl, rfl⟩⟩⟩
    | infeasible =>
      cases hu : a.up with
      | other => rw [hd, hu] at h; cases h
      | infeasible => rw [hd, hu] at h; cases h
      | optimal o' =>
        rw [hd, hu] at h
        simp only [Res.ok.injEq, Prod.mk.injEq] at h
        obtain ⟨rfl, rfl⟩ := h
        exact ⟨hc, Or.inr ⟨rfl, Or.inr ⟨rfl, rfl⟩⟩⟩
  · simp [hch] at h

theorem tryVars_cases {AWAY : ℚ} {ask : ℕ → ℕ → VarAns} {k : ℕ} {cols : List ℕ} {s s' : Split}
    {b : Bool} (hc : s.d.Counted) (h : tryVars AWAY ask k cols s = .ok (b, s')) :
    s'.d.Counted ∧
    ∃ new : List BChange, s'.d.common = s.d.common ++ new ∧
      (∀ c ∈ new, ∃ j col, col ∈ cols ∧ Checkable AWAY (ask j col) ∧
        (((ask j col).up = .infeasible ∧ c = ⟨col, 1, (⌊(ask j col).val⌋ : ℤ)⟩) ∨
         ((ask j col).down = .infeasible ∧ c = ⟨col, 0, (⌈(ask j col).val⌉ : ℤ)⟩))) ∧
      ((b = true ∧ ∃ j col o o', col ∈ cols ∧ Checkable AWAY (ask j col) ∧
          (ask j col).down = .optimal o ∧ (ask j col).up = .optimal o' ∧ s'.var = col ∧
          s'.d.terms = s.d.terms ++ [downTerm col (ask j col).val o, upTerm col (ask j col).val o']) ∨
       (b = false ∧ s'.var = s.var ∧ s'.d.terms = s.d.terms)) := by
  induction cols generalizing k s with
  | nil =>
    simp only [tryVars, Res.ok.injEq, Prod.mk.injEq] at h
    obtain ⟨rfl, rfl⟩ := h
    exact ⟨hc, [], by simp, by simp, Or.inr ⟨rfl, rfl, rfl⟩⟩
  | cons col cols ih =>
    simp only [tryVars] at h
    cases e : checkVar AWAY (ask k col) col s with
    | exit => rw [e] at h; cases h
    | undef => rw [e] at h; cases h
    | ok r =>
      obtain ⟨b1, s1⟩ := r
      rw [e] at h
      simp only [Res.bind] at h
      obtain ⟨hch, hc1, h1⟩ := checkVar_cases hc e
      rcases h1 with ⟨rfl, o, o', hd, hu, rfl⟩ | ⟨rfl, h1⟩
      · simp only [if_true, Res.ok.injEq, Prod.mk.injEq] at h
        obtain ⟨rfl, rfl⟩ := h
        exact ⟨hc1, [], by simp, by simp, Or.inl ⟨rfl, k, col, o, o', by simp, hch, hd, hu, rfl, rfl⟩⟩
      · simp only [Bool.false_eq_true, if_false] at h
        obtain ⟨h2, new, h3, h4, h5⟩ := ih hc1 h
        have lift : ∀ c ∈ new, ∃ j c', c' ∈ col :: cols ∧ Checkable AWAY (ask j c') ∧
            (((ask j c').up = .infeasible ∧ c = ⟨c', 1, (⌊(ask j c').val⌋ : ℤ)⟩) ∨
             ((ask j c').down = .infeasible ∧ c = ⟨c', 0, (⌈(ask j c').val⌉ : ℤ)⟩)) := by
          intro c hcn
          obtain ⟨j, c', m, hh⟩ := h4 c hcn
          exact ⟨j, c', List.mem_cons_of_mem _ m, hh⟩
        rcases h1 with ⟨hu, rfl⟩ | ⟨hd, rfl⟩
        · refine ⟨h2, ⟨col, 1, (⌊(ask k col).val⌋ : ℤ)⟩ :: new, by rw [h3]; simp, ?_, ?_⟩
          · intro c hcn
            rcases List.mem_cons.mp hcn with rfl | hcn
            · exact ⟨k, col, by simp, hch, Or.inl ⟨hu, rfl⟩⟩
            · exact lift c hcn
          · rcases h5 with ⟨rfl, j, c', o, o', m, hh⟩ | h5
            · exact Or.inl ⟨rfl, j, c', o, o', List.mem_cons_of_mem _ m, hh⟩
            · exact Or.inr h5
        · refine ⟨h2, ⟨col, 0, (⌈(ask k col).val⌉ : ℤ)⟩ :: new, by rw [h3]; simp, ?_, ?_⟩
          · intro c hcn
            rcases List.mem_cons.mp hcn with rfl | hcn
            · exact ⟨k, col, by simp, hch, Or.inr ⟨hd, rfl⟩⟩
            · exact lift c hcn
          · rcases h5 with ⟨rfl, j, c', o, o', m, hh⟩ | h5
            · exact Or.inl ⟨rfl, j, c', o, o', List.mem_cons_of_mem _ m, hh⟩
            · exact Or.inr h5

/-- Answers are genuine for the problem `P` with integer columns `isInt`: a side reported infeasible
contains no integer-feasible point. -/
def Genuine (P : Relax) (isInt : ℕ → Prop) (ask : ℕ → ℕ → VarAns) : Prop :=
  ∀ k col x, P.Feas x → (∀ i, isInt i → ∃ z : ℤ, x i = z) →
    ((ask k col).down = .infeasible → ¬ x col ≤ (⌊(ask k col).val⌋ : ℤ)) ∧
    ((ask k col).up = .infeasible → ¬ ((⌈(ask k col).val⌉ : ℤ) : ℚ) ≤ x col)

/-- What preparation leaves behind, in every case. -/
theorem splitPrepare_cases {AWAY : ℚ} {cols : List (Bool × ℚ)} {sort : List (ℕ × ℚ) → List (ℕ × ℚ)}
    {ask : ℕ → ℕ → VarAns} {s s' : Split} {e : DisjExit} (hc : s.d.Counted)
    (h : splitPrepare AWAY cols sort ask s = .ok (e, s')) :
    s'.d.Counted ∧
    ∃ new : List BChange, s'.d.common = s.d.common ++ new ∧
      (∀ c ∈ new, ∃ (j col : ℕ), Checkable AWAY (ask j col) ∧
        (((ask j col).up = .infeasible ∧ c = ⟨col, 1, (⌊(ask j col).val⌋ : ℤ)⟩) ∨
         ((ask j col).down = .infeasible ∧ c = ⟨col, 0, (⌈(ask j col).val⌉ : ℤ)⟩))) ∧
      ((e = .SUCCESS ∧ ∃ (j col : ℕ) (o o' : ℚ), Checkable AWAY (ask j col) ∧
          (ask j col).down = .optimal o ∧ (ask j col).up = .optimal o' ∧ s'.var = col ∧
          (0 ≤ s.var → s.var = col) ∧
          s'.d.terms = s.d.terms ++ [downTerm col (ask j col).val o, upTerm col (ask j col).val o']) ∨
       (e ≠ .SUCCESS ∧ s'.var = s.var ∧ s'.d.terms = s.d.terms)) := by
  unfold splitPrepare at h
  by_cases hv : 0 ≤ s.var
  · rw [if_pos hv] at h
    cases e1 : checkVar AWAY (ask 0 s.var.toNat) s.var.toNat s with
    | exit => rw [e1] at h; cases h
    | undef => rw [e1] at h; cases h
    | ok r =>
      obtain ⟨b, s1⟩ := r
      rw [e1] at h
      simp only [Res.bind, Res.ok.injEq, Prod.mk.injEq] at h
      obtain ⟨rfl, rfl⟩ := h
      obtain ⟨hch, hc1, h1⟩ := checkVar_cases hc e1
      refine ⟨hc1, ?_⟩
      rcases h1 with ⟨rfl, o, o', hd, hu, rfl⟩ | ⟨rfl, ⟨hu, rfl⟩ | ⟨hd, rfl⟩⟩
      · exact ⟨[], by simp, by simp, Or.inl ⟨rfl, 0, s.var.toNat, o, o', hch, hd, hu, rfl,
          fun _ => by omega, rfl⟩⟩
      · exact ⟨[_], rfl, fun c hcn => ⟨0, s.var.toNat, hch, Or.inl ⟨hu, by simpa using hcn⟩⟩,
          Or.inr ⟨by simp, rfl, rfl⟩⟩
      · exact ⟨[_], rfl, fun c hcn => ⟨0, s.var.toNat, hch, Or.inr ⟨hd, by simpa using hcn⟩⟩,
          Or.inr ⟨by simp, rfl, rfl⟩⟩
  · rw [if_neg hv] at h
    simp only at h
    split at h
    · simp only [Res.ok.injEq, Prod.mk.injEq] at h
      obtain ⟨rfl, rfl⟩ := h
      exact ⟨hc, [], by simp, by simp, Or.inr ⟨by simp, rfl, rfl⟩⟩
    · cases e1 : tryVars AWAY ask 0 ((sort (fracCore AWAY cols)).map Prod.fst) s with
      | exit => rw [e1] at h; cases h
      | undef => rw [e1] at h; cases h
      | ok r =>
        obtain ⟨b, s1⟩ := r
        rw [e1] at h
        simp only [Res.bind, Res.ok.injEq, Prod.mk.injEq] at h
        obtain ⟨rfl, rfl⟩ := h
        obtain ⟨h1, new, h2, h3, h4⟩ := tryVars_cases hc e1
        refine ⟨h1, new, h2, fun c hcn => ?_, ?_⟩
        · obtain ⟨j, col, _, hh⟩ := h3 c hcn; exact ⟨j, col, hh⟩
        · rcases h4 with ⟨rfl, j, col, o, o', _, hch, hd, hu, hv', ht⟩ | ⟨rfl, hv', ht⟩
          · exact Or.inl ⟨rfl, j, col, o, o', hch, hd, hu, hv', fun h0 => absurd h0 hv, ht⟩
          · exact Or.inr ⟨by simp, hv', ht⟩

theorem split_term_covers {x : Vec} {col : ℕ} (v o o' : ℚ) (hz : ∃ z : ℤ, x col = z) :
    (downTerm col v o).Holds x ∨ (upTerm col v o').Holds x := by
  obtain ⟨z, hz⟩ := hz
  simp only [Term.Holds, downTerm, upTerm, List.mem_singleton, forall_eq, BChange.Sat]
  by_cases h : z ≤ ⌊v⌋
  · left
    rw [if_neg (by norm_num), hz]
    exact_mod_cast h
  · right
    rw [if_pos (le_refl _), hz]
    have : ⌈v⌉ ≤ z := by
      rw [Int.ceil_le]
      have := Int.lt_floor_add_one v
      have h2 : (⌊v⌋ : ℤ) + 1 ≤ z := by omega
      have : ((⌊v⌋ : ℤ) : ℚ) + 1 ≤ z := by exact_mod_cast h2
      linarith
    exact_mod_cast this

/-- **C04.** After a successful preparation (from any previous content whose root bound changes are
valid, in particular a new disjunction), every integer-feasible point satisfies every root bound
change recorded and at least one of the terms recorded, provided sides reported infeasible really
contain no integer-feasible point. The chosen variable must be an integer variable of the problem,
which is what the solver told the routine. -/
theorem split_covers (AWAY : ℚ) (cols : List (Bool × ℚ)) (sort : List (ℕ × ℚ) → List (ℕ × ℚ))
    (ask : ℕ → ℕ → VarAns) (s s' : Split) (e : DisjExit) (P : Relax) (isInt : ℕ → Prop)
    (hc : s.d.Counted) (h : splitPrepare AWAY cols sort ask s = .ok (e, s'))
    (hint : ∀ k col, (ask k col).isInt = true → isInt col) (hg : Genuine P isInt ask)
    (x : Vec) (hx : P.Feas x) (hxi : ∀ i, isInt i → ∃ z : ℤ, x i = z)
    (hold : ∀ c ∈ s.d.common, c.Sat x) :
    (∀ c ∈ s'.d.common, c.Sat x) ∧ (e = .SUCCESS → ∃ t ∈ s'.d.terms, t.Holds x) := by
  obtain ⟨-, new, h2, h3, h4⟩ := splitPrepare_cases hc h
  refine ⟨fun c hcm => ?_, fun he => ?_⟩
  · rw [h2] at hcm
    rcases List.mem_append.mp hcm with hcm | hcm
    · exact hold c hcm
    · obtain ⟨j, col, hch, hh⟩ := h3 c hcm
      obtain ⟨z, hz⟩ := hxi col (hint j col hch.1)
      have hfl := Int.floor_le (ask j col).val
      have hlt := Int.lt_floor_add_one (ask j col).val
      have hce := Int.le_ceil (ask j col).val
      have hcl := Int.ceil_lt_add_one (ask j col).val
      rcases hh with ⟨hu, rfl⟩ | ⟨hd, rfl⟩
      · have := (hg j col x hx hxi).2 hu
        simp only [BChange.Sat]
        rw [if_neg (by norm_num)]
        rw [hz] at this ⊢
        have h1 : z < ⌈(ask j col).val⌉ := by exact_mod_cast not_le.mp this
        have h2 : z ≤ ⌊(ask j col).val⌋ := Int.le_floor.mpr (le_of_lt (Int.lt_ceil.mp h1))
        exact_mod_cast h2
      · have := (hg j col x hx hxi).1 hd
        simp only [BChange.Sat]
        rw [if_pos (le_refl _)]
        rw [hz] at this ⊢
        have h1 : ⌊(ask j col).val⌋ < z := by exact_mod_cast not_le.mp this
        have h2 : ⌈(ask j col).val⌉ ≤ z := Int.ceil_le.mpr (le_of_lt (Int.floor_lt.mp h1))
        exact_mod_cast h2
  · rcases h4 with ⟨-, j, col, o, o', hch, -, -, -, -, ht⟩ | ⟨hne, -⟩
    · rw [ht]
      rcases split_term_covers (ask j col).val o o' (hxi col (hint j col hch.1)) with h5 | h5
      · exact ⟨_, by simp, h5⟩
      · exact ⟨_, by simp, h5⟩
    · exact absurd he hne

/-- A successful preparation of a new disjunction leaves exactly the two sides of a split on one
variable, `x ≤ f` and `x ≥ f + 1`; the variable is an integer variable whose value is at least
`AWAY` from both sides (so the LP solution is in neither term), and the objective values are those
the solver reported. A variable chosen by the user is kept. -/
theorem split_two_terms (AWAY : ℚ) (cols : List (Bool × ℚ)) (sort : List (ℕ × ℚ) → List (ℕ × ℚ))
    (ask : ℕ → ℕ → VarAns) (s s' : Split) (hd : s.d = Disj.new) (hA : 0 < AWAY)
    (h : splitPrepare AWAY cols sort ask s = .ok (.SUCCESS, s')) :
    ∃ (k col : ℕ) (f : ℤ) (o o' : ℚ), s'.var = col ∧ (0 ≤ s.var → s.var = col) ∧
      (ask k col).isInt = true ∧ f + AWAY ≤ (ask k col).val ∧ (ask k col).val + AWAY ≤ f + 1 ∧
      (ask k col).down = .optimal o ∧ (ask k col).up = .optimal o' ∧ s'.d.numTerms = 2 ∧
      s'.d.terms = [{ obj := o, changes := [⟨col, 1, f⟩], feasible := true },
        { obj := o', changes := [⟨col, 0, f + 1⟩], feasible := true }] := by
  have hc : s.d.Counted := by rw [hd]; rfl
  obtain ⟨h1, new, h2, h3, h4⟩ := splitPrepare_cases hc h
  rcases h4 with ⟨-, k, col, o, o', hch, h5, h6, h7, h8, ht⟩ | ⟨hne, -⟩
  · obtain ⟨hi, ha, hb⟩ := hch
    have hfl := Int.floor_le (ask k col).val
    have hce := Int.le_ceil (ask k col).val
    rw [abs_of_nonneg (by linarith)] at ha
    rw [abs_of_nonpos (by linarith)] at hb
    have hcf : ⌈(ask k col).val⌉ = ⌊(ask k col).val⌋ + 1 := by
      apply le_antisymm
      · rw [Int.ceil_le]; push_cast
        exact le_of_lt (Int.lt_floor_add_one _)
      · have : (⌊(ask k col).val⌋ : ℚ) < (⌈(ask k col).val⌉ : ℤ) := by linarith
        have : ⌊(ask k col).val⌋ < ⌈(ask k col).val⌉ := by exact_mod_cast this
        omega
    have hcq : ((⌈(ask k col).val⌉ : ℤ) : ℚ) = ⌊(ask k col).val⌋ + 1 := by rw [hcf]; push_cast; ring
    rw [hd] at ht
    refine ⟨k, col, ⌊(ask k col).val⌋, o, o', h7, h8, hi, by linarith, by linarith, h5, h6, ?_, ?_⟩
    · rw [h1, ht]; rfl
    · rw [ht, downTerm, upTerm, hcq]; rfl
  · exact absurd rfl hne

/-! ## Preparing again (C45) -/

/-- **C45 fails** for splits: whenever a split disjunction is prepared twice successfully, it ends up
with the terms of both preparations. -/
theorem split_prepare_accumulates (AWAY : ℚ) (cols cols' : List (Bool × ℚ))
    (sort : List (ℕ × ℚ) → List (ℕ × ℚ)) (ask ask' : ℕ → ℕ → VarAns) (s s1 s2 : Split)
    (hd : s.d = Disj.new)
    (h1 : splitPrepare AWAY cols sort ask s = .ok (.SUCCESS, s1))
    (h2 : splitPrepare AWAY cols' sort ask' s1 = .ok (.SUCCESS, s2)) :
    s1.d.terms.length = 2 ∧ s2.d.terms.length = 4 ∧ s2.d.numTerms = 4 ∧
      s2.d.terms.take 2 = s1.d.terms := by
  have hc : s.d.Counted := by rw [hd]; rfl
  obtain ⟨c1, -, -, -, g1⟩ := splitPrepare_cases hc h1
  obtain ⟨c2, -, -, -, g2⟩ := splitPrepare_cases c1 h2
  rcases g1 with ⟨-, k, col, o, o', -, -, -, -, -, ht⟩ | ⟨hne, -⟩
  · rcases g2 with ⟨-, k', col', u, u', -, -, -, -, -, ht'⟩ | ⟨hne, -⟩
    · rw [hd] at ht
      have e1 : s1.d.terms.length = 2 := by rw [ht]; rfl
      have e2 : s2.d.terms.length = 4 := by rw [ht']; simp [e1]
      refine ⟨e1, e2, by rw [c2, e2]; rfl, ?_⟩
      rw [ht', List.take_append_of_le_length (by omega), List.take_of_length_le (by omega)]
    · exact absurd rfl hne
  · exact absurd rfl hne

/-- **C45 (partial).** If the object is reset in between, the second preparation leaves its own two
terms only. Missing: without the reset (see above). -/
theorem split_reset_prepare_partial (AWAY : ℚ) (cols : List (Bool × ℚ))
    (sort : List (ℕ × ℚ) → List (ℕ × ℚ)) (ask : ℕ → ℕ → VarAns) (s s2 : Split)
    (h : splitPrepare AWAY cols sort ask s.setupAsNew = .ok (.SUCCESS, s2)) :
    s2.d.terms.length = 2 ∧ s2.d.numTerms = 2 := by
  have hc : s.setupAsNew.d.Counted := rfl
  obtain ⟨c1, -, -, -, g1⟩ := splitPrepare_cases hc h
  rcases g1 with ⟨-, k, col, o, o', -, -, -, -, -, ht⟩ | ⟨hne, -⟩
  · have e1 : s2.d.terms.length = 2 := by rw [ht]; rfl
    exact ⟨e1, by rw [c1, e1]; rfl⟩
  · exact absurd rfl hne

/-- When every candidate has an infeasible side the exit reason is UNKNOWN, not NO_DISJUNCTION. -/
theorem split_all_one_sided (AWAY : ℚ) (cols : List (Bool × ℚ))
    (sort : List (ℕ × ℚ) → List (ℕ × ℚ)) (ask : ℕ → ℕ → VarAns) (s s' : Split) (e : DisjExit)
    (hv : s.var < 0) (hc : s.d.Counted) (hcore : fracCore AWAY cols ≠ [])
    (hone : ∀ k col, (ask k col).down = .infeasible ∨ (ask k col).up = .infeasible)
    (h : splitPrepare AWAY cols sort ask s = .ok (e, s')) : e = .UNKNOWN := by
  have g := splitPrepare_cases hc h
  obtain ⟨-, new, -, -, g4⟩ := g
  unfold splitPrepare at h
  rw [if_neg (by omega)] at h
  simp only at h
  rw [if_neg (by simpa using hcore)] at h
  cases e1 : tryVars AWAY ask 0 ((sort (fracCore AWAY cols)).map Prod.fst) s with
  | exit => rw [e1] at h; cases h
  | undef => rw [e1] at h; cases h
  | ok r =>
    obtain ⟨b, s1⟩ := r
    rw [e1] at h
    simp only [Res.bind, Res.ok.injEq, Prod.mk.injEq] at h
    cases b with
    | false => exact h.1.symm
    | true =>
      rcases g4 with ⟨-, j, col, o, o', -, hd, hu, -⟩ | ⟨hne, -⟩
      · rcases hone j col with h5 | h5
        · rw [hd] at h5; cases h5
        · rw [hu] at h5; cases h5
      · exact absurd h.1.symm hne

/-- Solver answers for the examples: column 0 has value 3/2, both sides feasible; column 1 has value
1/4 and an infeasible up side. -/
def exAsk (_ : ℕ) (col : ℕ) : VarAns :=
  if col = 1 then ⟨1/4, true, .optimal 2, .infeasible⟩ else ⟨3/2, true, .optimal 5, .optimal 7⟩

example : ∃ s', splitPrepare (1/1000) [(true, 3/2), (true, 1/4)] List.reverse exAsk {}
    = .ok (.SUCCESS, s') ∧ s'.var = 0 ∧ s'.d.common = [⟨1, 1, 0⟩] ∧ s'.d.terms.length = 2 :=
  ⟨{ d := { numTerms := 2, common := [⟨1, 1, 0⟩],
            terms := [{ obj := 5, changes := [⟨0, 1, 1⟩], feasible := true },
                      { obj := 7, changes := [⟨0, 0, 2⟩], feasible := true }] }, var := 0 },
    by decide +kernel, rfl, rfl, rfl⟩

example : ∃ s', splitPrepare (1/1000) [(true, 3/2)] id exAsk { d := {}, var := 0 }
    = .ok (.SUCCESS, s') ∧ ∃ s2, splitPrepare (1/1000) [(true, 3/2)] id exAsk s'
    = .ok (.SUCCESS, s2) :=
  ⟨{ d := { numTerms := 2,
            terms := [{ obj := 5, changes := [⟨0, 1, 1⟩], feasible := true },
                      { obj := 7, changes := [⟨0, 0, 2⟩], feasible := true }] }, var := 0 },
    by decide +kernel,
   { d := { numTerms := 4,
            terms := [{ obj := 5, changes := [⟨0, 1, 1⟩], feasible := true },
                      { obj := 7, changes := [⟨0, 0, 2⟩], feasible := true },
                      { obj := 5, changes := [⟨0, 1, 1⟩], feasible := true },
                      { obj := 7, changes := [⟨0, 0, 2⟩], feasible := true }] }, var := 0 },
    by decide +kernel⟩

/-- The answers of the first example are genuine for the box `0 ≤ x₀ ≤ 3`, `0 ≤ x₁ ≤ 1/2`. -/
example : Genuine ⟨[some 0, some 0], [some 3, some (1/2)], []⟩ (fun _ => True) exAsk := by
  intro k col x hx _
  have h1 := hx.2.1 1 (some (1/2)) rfl _ rfl
  by_cases hc1 : col = 1
  · subst hc1
    refine ⟨by simp [exAsk], fun _ => ?_⟩
    have : ⌈(exAsk k 1).val⌉ = 1 := by simp [exAsk]; norm_num
    rw [this]; push_cast; linarith
  · simp [exAsk, hc1]

/-! ## Generating many splits (C39) -/

/-- A correct sort by decreasing second component. -/
def SortsDesc (sort : List (ℕ × ℚ) → List (ℕ × ℚ)) : Prop :=
  ∀ l, (sort l).Perm l ∧ (sort l).Pairwise fun a b => b.2 ≤ a.2

theorem scoreVars_mem {AWAY : ℚ} {ask : ℕ → VarAns} {core : List ℕ} {sel : List (ℕ × ℚ)}
    (h : scoreVars AWAY ask core = .ok sel) :
    sel.map Prod.fst = core.filter (fun v => (splitScore AWAY (ask v)) matches .ok (some _)) ∧
    ∀ v q, (v, q) ∈ sel → v ∈ core ∧ splitScore AWAY (ask v) = .ok (some q) := by
  induction core generalizing sel with
  | nil => simp only [scoreVars, Res.ok.injEq] at h; subst h; simp
  | cons v vs ih =>
    simp only [scoreVars] at h
    cases e1 : splitScore AWAY (ask v) with
    | exit => rw [e1] at h; cases h
    | undef => rw [e1] at h; cases h
    | ok sc =>
      rw [e1] at h
      simp only [Res.bind] at h
      cases e2 : scoreVars AWAY ask vs with
      | exit => rw [e2] at h; cases h
      | undef => rw [e2] at h; cases h
      | ok rest =>
        rw [e2] at h
        obtain ⟨ih1, ih2⟩ := ih e2
        cases sc with
        | none =>
          simp only [Res.ok.injEq] at h; subst h
          refine ⟨by simp [e1, ih1], fun w q hw => ?_⟩
          obtain ⟨m, hh⟩ := ih2 w q hw
          exact ⟨List.mem_cons_of_mem _ m, hh⟩
        | some q0 =>
          simp only [Res.ok.injEq] at h; subst h
          refine ⟨by simp [e1, ih1], fun w q hw => ?_⟩
          rcases List.mem_cons.mp hw with hw | hw
          · cases hw; exact ⟨by simp, e1⟩
          · obtain ⟨m, hh⟩ := ih2 w q hw
            exact ⟨List.mem_cons_of_mem _ m, hh⟩

theorem addSplits_spec {limit : ℤ} {prep : Split → Res Split} {vs : List ℕ} {n : ℤ}
    {acc out : List Split} (hvar : ∀ s s', prep s = .ok s' → s'.var = s.var)
    (h : addSplits limit prep vs n acc = .ok out) :
    out.map (·.var) = acc.map (·.var) ++ (vs.take (limit - n).toNat).map (fun v => (v : ℤ)) := by
  induction vs generalizing n acc with
  | nil => simp only [addSplits, Res.ok.injEq] at h; subst h; simp
  | cons v vs ih =>
    simp only [addSplits] at h
    by_cases hn : n ≥ limit
    · rw [if_pos hn] at h
      simp only [Res.ok.injEq] at h; subst h
      rw [show (limit - n).toNat = 0 by omega]; simp
    · rw [if_neg hn] at h
      cases e : prep { var := v } with
      | exit => rw [e] at h; cases h
      | undef => rw [e] at h; cases h
      | ok s =>
        rw [e] at h
        simp only [Res.bind] at h
        rw [ih h, show (limit - n).toNat = (limit - (n + 1)).toNat + 1 by omega]
        have := hvar _ _ e
        simp [this]

/-- **C39.** When generation succeeds, the variables of the generated disjunctions are the first
`DISJ_TERMS` (none for a negative limit) of the candidates that are fractional integer variables
with both sides feasible, in decreasing order of the smaller of the two side values: there are
exactly `min(limit, number of such candidates)` of them, distinct if the candidates are, each is
such a candidate, the values do not increase along the list, and no candidate left out has a
larger value than one taken. -/
theorem generateSplits_spec (AWAY : ℚ) (limit : ℤ) (core : List ℕ) (ask : ℕ → VarAns)
    (sort : List (ℕ × ℚ) → List (ℕ × ℚ)) (hs : SortsDesc sort) (prep : Split → Res Split)
    (hvar : ∀ s s', prep s = .ok s' → s'.var = s.var) (out : List Split)
    (h : generateSplits AWAY limit core ask sort prep = .ok out) :
    let score : ℕ → Option ℚ := fun v => match (ask v).down, (ask v).up with
      | .optimal d, .optimal u => some (min d u)
      | _, _ => none
    let cands := core.filter fun v => (score v).isSome
    ∃ vars : List ℕ, out.map (·.var) = vars.map (fun v => (v : ℤ)) ∧
      vars.length = min limit.toNat cands.length ∧
      (core.Nodup → vars.Nodup) ∧
      (∀ v ∈ vars, v ∈ cands ∧ Checkable AWAY (ask v)) ∧
      (vars.Pairwise fun v w => ∀ q r, score v = some q → score w = some r → r ≤ q) ∧
      (∀ v ∈ vars, ∀ w ∈ cands, w ∉ vars → ∀ q r, score v = some q → score w = some r → r ≤ q) := by
  intro score cands
  have hscore : ∀ v r, splitScore AWAY (ask v) = .ok r → r = score v ∧ Checkable AWAY (ask v) := by
    intro v r hr
    unfold splitScore at hr
    by_cases hi : (ask v).isInt = true
    · by_cases hf : (isVal (ask v).val (⌊(ask v).val⌋ : ℤ) AWAY ||
          isVal (ask v).val (⌈(ask v).val⌉ : ℤ) AWAY) = true
      · simp [hi, hf] at hr
      · have hch : Checkable AWAY (ask v) := by
          rw [Bool.or_eq_true, isVal_iff, isVal_iff] at hf
          simp only [not_or, not_lt] at hf
          exact ⟨hi, hf⟩
        refine ⟨?_, hch⟩
        simp only [hi, hf, Bool.not_true, Bool.false_eq_true, if_false] at hr
        simp only [score]
        cases hd : (ask v).down <;> cases hu : (ask v).up <;> rw [hd, hu] at hr <;>
          simp at hr <;> simp [hr]
    · simp [hi] at hr
  unfold generateSplits at h
  by_cases h0 : core.length = 0
  · rw [if_pos h0] at h
    simp only [Res.ok.injEq] at h; subst h
    have : core = [] := List.eq_nil_of_length_eq_zero h0
    subst this
    exact ⟨[], rfl, by simp [cands], by simp, by simp, by simp, by simp⟩
  · rw [if_neg h0] at h
    cases e : scoreVars AWAY ask core with
    | exit => rw [e] at h; cases h
    | undef => rw [e] at h; cases h
    | ok sel =>
      rw [e] at h
      simp only [Res.bind] at h
      obtain ⟨m1, m2⟩ := scoreVars_mem e
      have hall : ∀ v ∈ core, ∃ r, splitScore AWAY (ask v) = .ok r := by
        clear h m1 m2
        induction core generalizing sel with
        | nil => simp
        | cons v vs ih =>
          simp only [scoreVars] at e
          cases e1 : splitScore AWAY (ask v) with
          | exit => rw [e1] at e; cases e
          | undef => rw [e1] at e; cases e
          | ok sc =>
            rw [e1] at e
            simp only [Res.bind] at e
            cases e2 : scoreVars AWAY ask vs with
            | exit => rw [e2] at e; cases e
            | undef => rw [e2] at e; cases e
            | ok rest =>
              intro w hw
              rcases List.mem_cons.mp hw with rfl | hw
              · exact ⟨sc, e1⟩
              · by_cases hl : vs.length = 0
                · have : vs = [] := List.eq_nil_of_length_eq_zero hl
                  subst this; simp at hw
                · exact ih hl rest e2 w hw
      have hcand : sel.map Prod.fst = cands := by
        rw [m1]
        apply List.filter_congr
        intro v hv
        obtain ⟨r, hr⟩ := hall v hv
        have := (hscore v r hr).1
        rw [hr]
        cases r with
        | none => simp [← this]
        | some q => simp [← this]
      obtain ⟨p1, p2⟩ := hs sel
      have hq : ∀ v q, (v, q) ∈ sort sel → score v = some q ∧ Checkable AWAY (ask v) ∧ v ∈ cands := by
        intro v q hvq
        have hmem := p1.subset hvq
        obtain ⟨_, hh⟩ := m2 v q hmem
        obtain ⟨e1, e2⟩ := hscore v _ hh
        refine ⟨e1.symm, e2, ?_⟩
        rw [← hcand]
        exact List.mem_map.mpr ⟨_, hmem, rfl⟩
      have hout := addSplits_spec hvar h
      simp only [List.map_nil, List.nil_append, sub_zero] at hout
      have hperm : ((sort sel).map Prod.fst).Perm cands := by
        rw [← hcand]; exact p1.map _
      have hpw : ((sort sel).map Prod.fst).Pairwise
          fun v w => ∀ q r, score v = some q → score w = some r → r ≤ q := by
        rw [List.pairwise_map]
        refine List.Pairwise.imp_of_mem ?_ p2
        intro a b ha hb hab q r hq1 hr1
        have e1 := (hq a.1 a.2 ha).1
        have e2 := (hq b.1 b.2 hb).1
        rw [e1] at hq1; rw [e2] at hr1
        cases hq1; cases hr1; exact hab
      refine ⟨((sort sel).map Prod.fst).take limit.toNat, hout, ?_, ?_, ?_, ?_, ?_⟩
      · rw [List.length_take, hperm.length_eq]
      · intro hn
        have : cands.Nodup := hn.filter _
        exact ((hperm.nodup_iff).mpr this).sublist (List.take_sublist _ _)
      · intro v hv
        obtain ⟨a, ha, rfl⟩ := List.mem_map.mp (List.mem_of_mem_take hv)
        obtain ⟨_, h2, h3⟩ := hq a.1 a.2 ha
        exact ⟨h3, h2⟩
      · exact hpw.sublist (List.take_sublist _ _)
      · intro v hv w hw hwn q r hq1 hr1
        have hw' : w ∈ (sort sel).map Prod.fst := hperm.mem_iff.mpr hw
        rw [← List.take_append_drop limit.toNat ((sort sel).map Prod.fst)] at hw' hpw
        rcases List.mem_append.mp hw' with h1 | h1
        · exact absurd h1 hwn
        · exact (List.pairwise_append.mp hpw).2.2 v hv w h1 q r hq1 hr1

/-- Preparing a generated split keeps its variable. -/
theorem splitPrepare_keeps_var (AWAY : ℚ) (cols : List (Bool × ℚ))
    (sort : List (ℕ × ℚ) → List (ℕ × ℚ)) (ask : ℕ → ℕ → VarAns) (s s' : Split) (e : DisjExit)
    (hc : s.d.Counted) (hv : 0 ≤ s.var)
    (h : splitPrepare AWAY cols sort ask s = .ok (e, s')) : s'.var = s.var := by
  obtain ⟨-, new, -, -, g⟩ := splitPrepare_cases hc h
  rcases g with ⟨-, j, col, o, o', -, -, -, h1, h2, -⟩ | ⟨-, h1, -⟩
  · rw [h1, h2 hv]
  · exact h1

/-- Non-vacuity: three candidates, one of them one-sided, limit 1. -/
example : ∃ out, generateSplits (1/1000) 1 [4, 0, 7]
    (fun v => if v = 4 then ⟨1/2, true, .optimal 1, .optimal 9⟩
      else if v = 0 then ⟨5/2, true, .optimal 3, .optimal 4⟩ else ⟨1/3, true, .infeasible, .optimal 8⟩)
    (List.insertionSort fun a b => b.2 ≤ a.2) .ok = .ok out ∧ out.map (·.var) = [0] :=
  ⟨[{ d := { id := 0 }, var := 0 }], by decide +kernel, rfl⟩

example : SortsDesc (List.insertionSort fun a b => b.2 ≤ a.2) := by
  intro l
  have : Std.Total (fun a b : ℕ × ℚ => b.2 ≤ a.2) := ⟨fun a b => le_total b.2 a.2⟩
  have : IsTrans (ℕ × ℚ) (fun a b => b.2 ≤ a.2) := ⟨fun a b c h1 h2 => le_trans h2 h1⟩
  exact ⟨List.perm_insertionSort _ l, List.pairwise_insertionSort _ l⟩

end VPC
