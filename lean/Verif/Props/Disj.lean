import Verif.Model.Disj
import Mathlib.Tactic.Linarith
import Mathlib.Tactic.NormNum
import Mathlib.Algebra.Order.Field.Basic

/-!
# Term LPs and sets of disjunctions (C28, C29, C58)
-/
namespace VPC

/-! ## The LP of a disjunctive term (C29) -/

/-- The points a disjunctive term stands for: common bound changes, the term's bound changes and
the term's inequalities, on top of the relaxation. (Not included: the common inequalities.) -/
def InTerm (P : Relax) (D : Disj) (t : Term) (x : Vec) : Prop :=
  P.Feas x ∧ (∀ c ∈ D.common, c.Sat x) ∧ (∀ c ∈ t.changes, c.Sat x) ∧ ∀ c ∈ t.ineqs, c.Sat x

theorem applyChanges_rows {cs : List BChange} {P Q : Relax} (h : applyChanges false cs P = .ok Q)
    (x : Vec) : Q.Feas x ↔ P.Feas x ∧ ∀ c ∈ cs, c.Sat x := by
  induction cs generalizing P with
  | nil => simp only [applyChanges, Res.ok.injEq] at h; subst h; simp
  | cons c cs ih =>
    simp only [applyChanges, applyChange] at h
    split at h
    · simp only [Bool.false_eq_true, if_false, Res.bind] at h
      rw [ih h]
      have key : ∀ r : MRow, (Relax.Feas { P with rows := P.rows ++ [r] } x) ↔
          P.Feas x ∧ geLo r.lb (sdot r.coeffs x) ∧ leHi r.ub (sdot r.coeffs x) := by
        intro r
        simp only [Relax.Feas, List.mem_append, List.mem_singleton]
        constructor
        · rintro ⟨h1, h2, h3⟩
          exact ⟨⟨h1, h2, fun r' hr' => h3 r' (Or.inl hr')⟩, h3 r (Or.inr rfl)⟩
        · rintro ⟨⟨h1, h2, h3⟩, h4⟩
          refine ⟨h1, h2, ?_⟩
          rintro r' (hr' | rfl)
          · exact h3 r' hr'
          · exact h4
      rw [key]
      have hc : (geLo (some ((if c.bound ≤ 0 then (1 : ℚ) else -1) * c.value))
          (sdot [(c.var, if c.bound ≤ 0 then (1 : ℚ) else -1)] x)) ↔ c.Sat x := by
        simp only [geLo, Option.some.injEq, sdot_cons, sdot_nil, BChange.Sat]
        split <;> simp
      simp only [hc, leHi, reduceCtorEq, IsEmpty.forall_iff, implies_true, and_true,
        List.mem_cons, forall_eq_or_imp]
      tauto
    · simp [Res.bind] at h

theorem applyIneqs_feas (cs : List RowCut) (P : Relax) (x : Vec) :
    (applyIneqs cs P).Feas x ↔ P.Feas x ∧ ∀ c ∈ cs, c.Sat x := by
  simp only [applyIneqs, Relax.Feas, List.mem_append, List.mem_map]
  constructor
  · rintro ⟨h1, h2, h3⟩
    refine ⟨⟨h1, h2, fun r hr => h3 r (Or.inl hr)⟩, fun c hc => ?_⟩
    exact (h3 _ (Or.inr ⟨c, hc, rfl⟩)).1 _ rfl
  · rintro ⟨⟨h1, h2, h3⟩, h4⟩
    refine ⟨h1, h2, ?_⟩
    rintro r (hr | ⟨c, hc, rfl⟩)
    · exact h3 r hr
    · refine ⟨fun l hl => ?_, fun u hu => by cases hu⟩
      cases hl; exact h4 c hc

theorem set_forall {l : List (Option ℚ)} {k : ℕ} {v : Option ℚ} {p : ℕ → Option ℚ → Prop}
    (hk : k < l.length) :
    (∀ i b, (l.set k v)[i]? = some b → p i b) ↔
      p k v ∧ ∀ i b, i ≠ k → l[i]? = some b → p i b := by
  constructor
  · intro h
    refine ⟨h k v (by simp [hk]), fun i b hi hb => h i b ?_⟩
    rw [List.getElem?_set_ne (Ne.symm hi)]; exact hb
  · rintro ⟨h1, h2⟩ i b hb
    by_cases hi : i = k
    · subst hi
      simp [hk] at hb
      subst hb; exact h1
    · rw [List.getElem?_set_ne (Ne.symm hi)] at hb
      exact h2 i b hi hb

/-- Applying a change as a bound keeps every point that satisfies it. -/
theorem applyChange_keeps {P Q : Relax} {c : BChange} (h : applyChange true P c = .ok Q) {x : Vec}
    (hx : P.Feas x) (hc : c.Sat x) : Q.Feas x := by
  unfold applyChange at h
  split at h
  · rename_i hb
    simp only [if_true] at h
    split at h
    · rename_i h0
      simp only [Res.ok.injEq] at h; subst h
      refine ⟨(set_forall (p := fun i b => geLo b (x i)) hb.1).mpr
        ⟨?_, fun i b _ hib => hx.1 i b hib⟩, hx.2.1, hx.2.2⟩
      simp only [BChange.Sat, h0, if_true] at hc
      intro l hl; cases hl; exact hc
    · rename_i h0
      simp only [Res.ok.injEq] at h; subst h
      refine ⟨hx.1, (set_forall (p := fun i b => leHi b (x i)) hb.2).mpr
        ⟨?_, fun i b _ hib => hx.2.1 i b hib⟩, hx.2.2⟩
      simp only [BChange.Sat, h0, if_false] at hc
      intro l hl; cases hl; exact hc
  · cases h

/-- A change that does not loosen the bound it overwrites. -/
def BChange.Tight (P : Relax) (c : BChange) : Prop :=
  (c.bound ≤ 0 → ∀ b, P.lo[c.var]? = some b → geLo b c.value) ∧
  (0 < c.bound → ∀ b, P.hi[c.var]? = some b → leHi b c.value)

/-- A later change `d` does not loosen an earlier change `c` of the same bound. -/
def BChange.Then (c d : BChange) : Prop :=
  c.var = d.var → (c.bound ≤ 0 → d.bound ≤ 0 → c.value ≤ d.value) ∧
    (0 < c.bound → 0 < d.bound → d.value ≤ c.value)

/-- A list of changes none of which loosens an original bound or an earlier change. -/
def Tightening (P : Relax) (cs : List BChange) : Prop :=
  (∀ c ∈ cs, c.Tight P) ∧ cs.Pairwise BChange.Then

theorem applyChange_tight {P Q : Relax} {c : BChange} (h : applyChange true P c = .ok Q) {x : Vec}
    (ht : c.Tight P) (hx : Q.Feas x) : P.Feas x ∧ c.Sat x := by
  unfold applyChange at h
  split at h
  · rename_i hb
    simp only [if_true] at h
    split at h
    · rename_i h0
      simp only [Res.ok.injEq] at h; subst h
      have := (set_forall (p := fun i b => geLo b (x i)) hb.1).mp hx.1
      have hv : c.value ≤ x c.var := this.1 _ rfl
      refine ⟨⟨fun i b hib => ?_, hx.2.1, hx.2.2⟩, by simp [BChange.Sat, h0, hv]⟩
      by_cases hi : i = c.var
      · subst hi
        intro l hl
        exact le_trans (ht.1 h0 b hib l hl) hv
      · exact this.2 i b hi hib
    · rename_i h0
      simp only [Res.ok.injEq] at h; subst h
      have := (set_forall (p := fun i b => leHi b (x i)) hb.2).mp hx.2.1
      have hv : x c.var ≤ c.value := this.1 _ rfl
      refine ⟨⟨hx.1, fun i b hib => ?_, hx.2.2⟩, by simp [BChange.Sat, h0, hv]⟩
      by_cases hi : i = c.var
      · subst hi
        intro l hl
        exact le_trans hv (ht.2 (by omega) b hib l hl)
      · exact this.2 i b hi hib
  · cases h

theorem tightening_step {P Q : Relax} {c : BChange} {cs : List BChange}
    (h : applyChange true P c = .ok Q) (ht : Tightening P (c :: cs)) : Tightening Q cs := by
  obtain ⟨h1, h2⟩ := ht
  rw [List.pairwise_cons] at h2
  refine ⟨fun d hd => ?_, h2.2⟩
  have hd1 := h1 d (List.mem_cons_of_mem _ hd)
  have hcd := h2.1 d hd
  unfold applyChange at h
  split at h
  · rename_i hb
    simp only [if_true] at h
    split at h
    · rename_i h0
      simp only [Res.ok.injEq] at h; subst h
      refine ⟨fun hd0 b hbb => ?_, hd1.2⟩
      by_cases hv : c.var = d.var
      · simp only at hbb
        rw [← hv] at hbb
        simp [hb.1] at hbb
        subst hbb
        intro l hl; cases hl
        exact (hcd hv).1 h0 hd0
      · simp only at hbb
        rw [List.getElem?_set_ne hv] at hbb
        exact hd1.1 hd0 b hbb
    · rename_i h0
      simp only [Res.ok.injEq] at h; subst h
      refine ⟨hd1.1, fun hd0 b hbb => ?_⟩
      by_cases hv : c.var = d.var
      · simp only at hbb
        rw [← hv] at hbb
        simp [hb.2] at hbb
        subst hbb
        intro l hl; cases hl
        exact (hcd hv).2 (by omega) hd0
      · simp only at hbb
        rw [List.getElem?_set_ne hv] at hbb
        exact hd1.2 hd0 b hbb
  · cases h

theorem applyChanges_keeps {cs : List BChange} {P Q : Relax} (h : applyChanges true cs P = .ok Q)
    {x : Vec} (hx : P.Feas x) (hc : ∀ c ∈ cs, c.Sat x) : Q.Feas x := by
  induction cs generalizing P with
  | nil => simp only [applyChanges, Res.ok.injEq] at h; subst h; exact hx
  | cons c cs ih =>
    simp only [applyChanges] at h
    cases e : applyChange true P c with
    | ok R =>
      rw [e] at h
      exact ih h (applyChange_keeps e hx (hc c (by simp))) fun d hd => hc d (by simp [hd])
    | exit => rw [e] at h; cases h
    | undef => rw [e] at h; cases h

theorem applyChanges_tight {cs : List BChange} {P Q : Relax} (h : applyChanges true cs P = .ok Q)
    {x : Vec} (ht : Tightening P cs) (hx : Q.Feas x) : P.Feas x ∧ ∀ c ∈ cs, c.Sat x := by
  induction cs generalizing P with
  | nil => simp only [applyChanges, Res.ok.injEq] at h; subst h; exact ⟨hx, by simp⟩
  | cons c cs ih =>
    simp only [applyChanges] at h
    cases e : applyChange true P c with
    | ok R =>
      rw [e] at h
      obtain ⟨h1, h2⟩ := ih h (tightening_step e ht)
      obtain ⟨h3, h4⟩ := applyChange_tight e (ht.1 c (by simp)) h1
      refine ⟨h3, fun d hd => ?_⟩
      rcases List.mem_cons.mp hd with rfl | hd
      · exact h4
      · exact h2 d hd
    | exit => rw [e] at h; cases h
    | undef => rw [e] at h; cases h

theorem applyChanges_append (b : Bool) (cs ds : List BChange) (P : Relax) :
    applyChanges b (cs ++ ds) P = (applyChanges b cs P).bind (applyChanges b ds) := by
  induction cs generalizing P with
  | nil => rfl
  | cons c cs ih =>
    simp only [List.cons_append, applyChanges]
    cases applyChange b P c with
    | ok R => exact ih R
    | exit => rfl
    | undef => rfl

theorem getSolver_inv {D : Disj} {i : ℕ} {P Q : Relax} {ab : Bool} {e : ℚ} {env : TermEnv}
    (h : getSolverForTerm D i P ab e env = .ok (some Q)) :
    ∃ t P2, D.terms[i]? = some t ∧ applyChanges ab (D.common ++ t.changes) P = .ok P2 ∧
      Q = applyIneqs t.ineqs P2 := by
  unfold getSolverForTerm at h
  cases ht : D.terms[i]? with
  | none => rw [ht] at h; cases h
  | some t =>
    rw [ht] at h
    simp only at h
    rw [← Res.bind_assoc', ← applyChanges_append] at h
    cases e2 : applyChanges ab (D.common ++ t.changes) P with
    | ok P2 =>
      rw [e2] at h
      simp only [Res.bind] at h
      split at h
      · cases h
      · split at h
        · cases h
        · split at h
          · cases h
          · simp only [Res.ok.injEq, Option.some.injEq] at h
            exact ⟨t, P2, rfl, e2, h.symm⟩
    | exit => rw [e2] at h; cases h
    | undef => rw [e2] at h; cases h
where
  Res.bind_assoc' {α β γ : Type} {r : Res α} {f : α → Res β} {g : β → Res γ} :
      (r.bind f).bind g = r.bind fun a => (f a).bind g := by cases r <;> rfl

/-- **C29 (partial), explicit rows.** When constraints are added as rows, the LP built for a term has
exactly the points of the relaxation that satisfy the common bound changes, the term's bound
changes and the term's inequalities. Missing: the common inequalities, which are never added
(`common_ineqs_ignored`). -/
theorem termLP_rows_exact_partial {D : Disj} {i : ℕ} {P Q : Relax} {e : ℚ} {env : TermEnv}
    (h : getSolverForTerm D i P false e env = .ok (some Q)) :
    ∃ t, D.terms[i]? = some t ∧ ∀ x, Q.Feas x ↔ InTerm P D t x := by
  obtain ⟨t, P2, ht, h2, rfl⟩ := getSolver_inv h
  refine ⟨t, ht, fun x => ?_⟩
  rw [applyIneqs_feas, applyChanges_rows h2, InTerm]
  simp only [List.mem_append, or_imp, forall_and]
  tauto

/-- **C29, bounds, one direction.** When bounds are changed instead, the LP built for a term loses
no point of the term. -/
theorem termLP_bounds_contains {D : Disj} {i : ℕ} {P Q : Relax} {e : ℚ} {env : TermEnv}
    (h : getSolverForTerm D i P true e env = .ok (some Q)) :
    ∃ t, D.terms[i]? = some t ∧ ∀ x, InTerm P D t x → Q.Feas x := by
  obtain ⟨t, P2, ht, h2, rfl⟩ := getSolver_inv h
  refine ⟨t, ht, fun x hx => ?_⟩
  rw [applyIneqs_feas]
  refine ⟨applyChanges_keeps h2 hx.1 fun c hc => ?_, hx.2.2.2⟩
  rcases List.mem_append.mp hc with hc | hc
  · exact hx.2.1 c hc
  · exact hx.2.2.1 c hc

/-- **C29 (partial), bounds.** If no change loosens an original bound or an earlier change, the LP has
exactly the points of the term. Missing: changes that loosen (`termLP_loosens` shows that the LP
then has points outside the relaxation) and the common inequalities. -/
theorem termLP_bounds_exact_partial {D : Disj} {i : ℕ} {P Q : Relax} {e : ℚ} {env : TermEnv}
    (h : getSolverForTerm D i P true e env = .ok (some Q))
    (ht : ∀ t, D.terms[i]? = some t → Tightening P (D.common ++ t.changes)) :
    ∃ t, D.terms[i]? = some t ∧ ∀ x, Q.Feas x ↔ InTerm P D t x := by
  obtain ⟨t, hti, hk⟩ := termLP_bounds_contains h
  obtain ⟨t', P2, ht', h2, rfl⟩ := getSolver_inv h
  have : t' = t := by rw [hti] at ht'; cases ht'; rfl
  subst this
  refine ⟨t', hti, fun x => ⟨fun hx => ?_, hk x⟩⟩
  rw [applyIneqs_feas] at hx
  obtain ⟨h3, h4⟩ := applyChanges_tight h2 (ht t' hti) hx.1
  exact ⟨h3, fun c hc => h4 c (by simp [hc]), fun c hc => h4 c (by simp [hc]), hx.2⟩

/-- **C29 fails**: the common inequalities of a disjunction have no influence on the LPs of its
terms. -/
theorem common_ineqs_ignored (D : Disj) (cs : List RowCut) (i : ℕ) (P : Relax) (ab : Bool) (e : ℚ)
    (env : TermEnv) :
    getSolverForTerm { D with commonIneqs := cs } i P ab e env = getSolverForTerm D i P ab e env :=
  rfl

/-- A relaxation `0 ≤ x ≤ 5` of one variable. -/
def exRelax : Relax := ⟨[some 0], [some 5], []⟩

/-- A solver that finds the LP optimal. -/
def exEnv : TermEnv := ⟨true, true, 0, 0⟩

/-- **C29 fails**: a change looser than the bound it overwrites lets points outside the relaxation
into the LP. -/
theorem termLP_loosens :
    ∃ (D : Disj) (Q : Relax) (x : Vec),
      getSolverForTerm D 0 exRelax true 0 exEnv = .ok (some Q) ∧ Q.Feas x ∧ ¬ exRelax.Feas x := by
  refine ⟨{ terms := [{ changes := [⟨0, 1, 9⟩] }] }, ⟨[some 0], [some 9], []⟩, fun _ => 7, ?_, ?_, ?_⟩
  · decide +kernel
  · refine ⟨fun i b h => ?_, fun i b h => ?_, by simp⟩
    · rcases i with _ | i <;> simp at h
      subst h; intro l hl; cases hl; norm_num
    · rcases i with _ | i <;> simp at h
      subst h; intro l hl; cases hl; norm_num
  · intro h
    have := h.2.1 0 (some 5) rfl 5 rfl
    norm_num at this

/-- Exactly the indices outside the columns are undefined behaviour. -/
theorem applyChanges_undefined_iff (ab : Bool) (cs : List BChange) (P : Relax)
    (hl : P.hi.length = P.lo.length) :
    applyChanges ab cs P = .undef ↔ ∃ c ∈ cs, P.lo.length ≤ c.var := by
  induction cs generalizing P with
  | nil => simp [applyChanges]
  | cons c cs ih =>
    simp only [applyChanges, List.mem_cons, exists_eq_or_imp, applyChange]
    by_cases hb : c.var < P.lo.length
    · rw [if_pos ⟨hb, hl ▸ hb⟩]
      have : ¬ P.lo.length ≤ c.var := by omega
      simp only [this, false_or]
      cases ab with
      | true =>
        simp only [if_true]
        split
        · simp only [Res.bind]; rw [ih _ (by simp [hl])]; simp
        · simp only [Res.bind]; rw [ih _ (by simp [hl])]
      | false =>
        simp only [Bool.false_eq_true, if_false, Res.bind]; rw [ih _ (by simp [hl])]
    · rw [if_neg (by tauto)]
      simp only [Res.bind, true_iff]
      left; omega

/-- Non-vacuity: a disjunction with a common change, a term with two nested changes and an
inequality. -/
def exDisj : Disj :=
  { terms := [{ changes := [⟨0, 1, 4⟩, ⟨0, 0, 2⟩, ⟨0, 1, 3⟩], ineqs := [⟨[(0, 1)], 1⟩] }]
    common := [⟨0, 0, 1⟩] }

example : getSolverForTerm exDisj 0 exRelax true 0 exEnv
    = .ok (some ⟨[some 2], [some 3], [⟨[(0, 1)], some 1, none⟩]⟩) := by decide +kernel

example : Tightening exRelax (exDisj.common ++ [⟨0, 1, 4⟩, ⟨0, 0, 2⟩, ⟨0, 1, 3⟩]) := by
  refine ⟨?_, ?_⟩
  · simp [exDisj, exRelax, BChange.Tight, geLo, leHi]
    norm_num
  · simp [exDisj, BChange.Then]
    norm_num

example : getSolverForTerm exDisj 0 exRelax false 0 exEnv = .ok (some ⟨[some 0], [some 5],
    [⟨[(0, 1)], some 1, none⟩, ⟨[(0, -1)], some (-4), none⟩, ⟨[(0, 1)], some 2, none⟩,
     ⟨[(0, -1)], some (-3), none⟩, ⟨[(0, 1)], some 1, none⟩]⟩) := by decide +kernel

/-! ## The objective check (C58) -/

/-- **C58 (partial).** For objective values of the same sign, the process is terminated exactly when
the recomputed value differs (twice) from the recorded one by more than the tolerance and one of the
two exceeds the other by more than a factor 1.03 (plus 1e-7). Missing: opposite signs and zero. -/
theorem objCheck_partial (DIFFEPS before o1 o2 : ℚ) (hs : 0 < o2 * before) :
    objCheckExits DIFFEPS before o1 o2 = true ↔
      before ≤ dblMax - defEps ∧ DIFFEPS ≤ |o1 - before| ∧ DIFFEPS ≤ |o2 - before| ∧
        (103 / 100 + defEps ≤ o2 / before ∨ 103 / 100 + defEps ≤ before / o2) := by
  have hb : before ≠ 0 := by rintro rfl; simp at hs
  have ho : o2 ≠ 0 := by rintro rfl; simp at hs
  have hpos : 0 < o2 / before := by
    rw [div_eq_mul_inv]
    rcases lt_or_gt_of_ne hb with h | h
    · have : o2 < 0 := by nlinarith
      exact mul_pos_of_neg_of_neg this (inv_lt_zero.mpr h)
    · have : 0 < o2 := by nlinarith
      exact mul_pos this (inv_pos.mpr h)
  have hinv : before / o2 = 1 / (o2 / before) := by field_simp
  have hr : ratioTooBig o2 before = true ↔
      (103 / 100 + defEps ≤ o2 / before ∨ 103 / 100 + defEps ≤ before / o2) := by
    unfold ratioTooBig
    rw [if_neg hb, if_neg ho, hinv]
    have hd : (0 : ℚ) < defEps := by norm_num [defEps]
    generalize o2 / before = r at hpos ⊢
    simp only [greaterThanVal_iff]
    split
    · rename_i h1
      constructor
      · intro h; right; exact h
      · rintro (h | h)
        · linarith
        · exact h
    · rename_i h1
      constructor
      · intro h; left; exact h
      · rintro (h | h)
        · exact h
        · have : 1 / r ≤ 1 := by rw [div_le_one hpos]; linarith
          linarith
  have hinf : isInfinity before = true ↔ ¬ before ≤ dblMax - defEps := by
    unfold isInfinity
    simp only [Bool.or_eq_true, decide_eq_true_eq, Bool.not_eq_true', ← Bool.not_eq_true,
      lessThanVal_iff]
    constructor
    · rintro (h | h)
      · have hd : (0 : ℚ) < defEps := by norm_num [defEps]
        intro hc; linarith
      · exact h
    · exact fun h => Or.inr h
  unfold objCheckExits
  by_cases h1 : isInfinity before = true
  · rw [if_pos h1]
    simp [hinf.mp h1]
  · rw [if_neg h1]
    have h1' : before ≤ dblMax - defEps := by
      by_contra hc; exact h1 (hinf.mpr hc)
    by_cases h2 : isVal o1 before DIFFEPS = true
    · rw [if_pos h2]
      have := isVal_iff.mp h2
      simp only [Bool.false_eq_true, false_iff]
      rintro ⟨_, h, _⟩; linarith
    · rw [if_neg h2]
      have h2' : DIFFEPS ≤ |o1 - before| := by
        by_contra hc; exact h2 (isVal_iff.mpr (not_le.mp hc))
      by_cases h3 : isVal o2 before DIFFEPS = true
      · rw [if_pos h3]
        have := isVal_iff.mp h3
        simp only [Bool.false_eq_true, false_iff]
        rintro ⟨_, _, h, _⟩; linarith
      · rw [if_neg h3]
        have h3' : DIFFEPS ≤ |o2 - before| := by
          by_contra hc; exact h3 (isVal_iff.mpr (not_le.mp hc))
        rw [hr]
        tauto

/-- **C58 fails**: an objective value of the opposite sign is always accepted, however far off. -/
theorem objCheck_opposite_sign (DIFFEPS before o1 o2 : ℚ) (hs : o2 * before < 0) :
    objCheckExits DIFFEPS before o1 o2 = false := by
  have hb : before ≠ 0 := by rintro rfl; simp at hs
  have ho : o2 ≠ 0 := by rintro rfl; simp at hs
  have hneg : o2 / before < 0 := by
    rcases lt_or_gt_of_ne hb with h | h
    · have : 0 < o2 := by nlinarith
      exact div_neg_of_pos_of_neg this h
    · have : o2 < 0 := by nlinarith
      exact div_neg_of_neg_of_pos this h
  have hr : ratioTooBig o2 before = false := by
    unfold ratioTooBig
    rw [if_neg hb, if_neg ho]
    simp only [show o2 / before < 1 by linarith, if_true]
    have : 1 / (o2 / before) < 0 := div_neg_of_pos_of_neg one_pos hneg
    have hd : (0 : ℚ) < defEps := by norm_num [defEps]
    rw [← Bool.not_eq_true, greaterThanVal_iff]
    intro h; linarith
  unfold objCheckExits
  simp [hr]

example : objCheckExits (1/1000) 1000 (-1000) (-1000) = false ∧
    objCheckExits (1/1000) 1000 1040 1040 = true ∧
    objCheckExits (1/1000) 1000 1020 1020 = false := by decide +kernel

/-! ## Best and worst values (C28) -/

/-- Over the terms: after any sequence of reports, the best objective is the minimum and the worst
the maximum of the reported values and the initial ones. -/
theorem disj_updateObj_fold (d : Disj) (vs : List ℚ) :
    (vs.foldl Disj.updateObj d).bestObj = vs.foldl min d.bestObj ∧
    (vs.foldl Disj.updateObj d).worstObj = vs.foldl max d.worstObj := by
  induction vs generalizing d with
  | nil => exact ⟨rfl, rfl⟩
  | cons v vs ih =>
    simp only [List.foldl_cons]
    obtain ⟨h1, h2⟩ := ih (d.updateObj v)
    rw [h1, h2]
    have e1 : (d.updateObj v).bestObj = min d.bestObj v := by
      unfold Disj.updateObj
      by_cases a : v < d.bestObj <;> by_cases b : v > d.worstObj <;>
        simp [a, b, min_def] <;> intros <;> linarith
    have e2 : (d.updateObj v).worstObj = max d.worstObj v := by
      unfold Disj.updateObj
      by_cases a : v < d.bestObj <;> by_cases b : v > d.worstObj <;>
        simp [a, b, max_def] <;> intros <;> linarith
    rw [e1, e2]
    exact ⟨rfl, rfl⟩

/-- What a set must report about its members: the least best value, the greatest worst value and
the least integer value, each with the position of the first member attaining it (position −1 and
the initial value when no member improves on it), and members numbered by position. -/
structure DSetOk (s : DSet) : Prop where
  ids : ∀ (i : ℕ) (d : Disj), s.disjs[i]? = some d → d.id = i
  best_le : ∀ d ∈ s.disjs, s.bestObj ≤ d.bestObj
  best_at : (s.bestIdx = -1 ∧ s.bestObj = dblMax) ∨
    ∃ (i : ℕ) (d : Disj), s.disjs[i]? = some d ∧ s.bestIdx = i ∧ s.bestObj = d.bestObj ∧
      ∀ (j : ℕ) (d' : Disj), j < i → s.disjs[j]? = some d' → d.bestObj < d'.bestObj
  worst_ge : ∀ d ∈ s.disjs, d.worstObj ≤ s.worstObj
  worst_at : (s.worstIdx = -1 ∧ s.worstObj = -dblMax) ∨
    ∃ (i : ℕ) (d : Disj), s.disjs[i]? = some d ∧ s.worstIdx = i ∧ s.worstObj = d.worstObj ∧
      ∀ (j : ℕ) (d' : Disj), j < i → s.disjs[j]? = some d' → d'.worstObj < d.worstObj
  int_le : ∀ d ∈ s.disjs, s.intObj ≤ d.intObj
  int_at : (s.intIdx = -1 ∧ s.intObj = dblMax) ∨
    ∃ (i : ℕ) (d : Disj), s.disjs[i]? = some d ∧ s.intIdx = i ∧ s.intObj = d.intObj ∧
      ∀ (j : ℕ) (d' : Disj), j < i → s.disjs[j]? = some d' → d.intObj < d'.intObj

theorem dset_new_ok : DSetOk DSet.new :=
  ⟨by simp [DSet.new], by simp [DSet.new], Or.inl ⟨rfl, rfl⟩, by simp [DSet.new],
    Or.inl ⟨rfl, rfl⟩, by simp [DSet.new], Or.inl ⟨rfl, rfl⟩⟩

/-- The running "first strict improvement" scan, in general form. -/
theorem first_best {α : Type} (val : α → ℚ) (l : List α) (d : α) (cur : ℚ) (idx : ℤ) (init : ℚ)
    (hle : ∀ a ∈ l, cur ≤ val a)
    (hat : (idx = -1 ∧ cur = init) ∨ ∃ (i : ℕ) (a : α), l[i]? = some a ∧ idx = i ∧ cur = val a ∧
      ∀ (j : ℕ) (a' : α), j < i → l[j]? = some a' → val a < val a') :
    let cur' := if val d < cur then val d else cur
    let idx' := if val d < cur then (l.length : ℤ) else idx
    (∀ a ∈ l ++ [d], cur' ≤ val a) ∧
    ((idx' = -1 ∧ cur' = init) ∨ ∃ (i : ℕ) (a : α), (l ++ [d])[i]? = some a ∧ idx' = i ∧
      cur' = val a ∧ ∀ (j : ℕ) (a' : α), j < i → (l ++ [d])[j]? = some a' → val a < val a') := by
  intro cur' idx'
  by_cases h : val d < cur
  · simp only [cur', idx', if_pos h]
    refine ⟨fun a ha => ?_, Or.inr ⟨l.length, d, by simp, rfl, rfl, fun j a' hj ha' => ?_⟩⟩
    · rcases List.mem_append.mp ha with ha | ha
      · exact le_of_lt (lt_of_lt_of_le h (hle a ha))
      · simp at ha; rw [ha]
    · rw [List.getElem?_append_left hj] at ha'
      exact lt_of_lt_of_le h (hle a' (List.mem_of_getElem? ha'))
  · simp only [cur', idx', if_neg h]
    refine ⟨fun a ha => ?_, ?_⟩
    · rcases List.mem_append.mp ha with ha | ha
      · exact hle a ha
      · simp at ha; rw [ha]; exact not_lt.mp h
    · rcases hat with hat | ⟨i, a, h1, h2, h3, h4⟩
      · exact Or.inl hat
      · have hi : i < l.length := by
          by_contra hc
          rw [List.getElem?_eq_none (not_lt.mp hc)] at h1; cases h1
        refine Or.inr ⟨i, a, ?_, h2, h3, fun j a' hj ha' => ?_⟩
        · rw [List.getElem?_append_left hi]; exact h1
        · rw [List.getElem?_append_left (by omega)] at ha'
          exact h4 j a' hj ha'

/-- Closed form of one report. -/
def DSet.upd (s : DSet) (d : Disj) (k : ℤ) : DSet :=
  { disjs := s.disjs
    bestObj := if d.bestObj < s.bestObj then d.bestObj else s.bestObj
    bestIdx := if d.bestObj < s.bestObj then k else s.bestIdx
    worstObj := if d.worstObj > s.worstObj then d.worstObj else s.worstObj
    worstIdx := if d.worstObj > s.worstObj then k else s.worstIdx
    intObj := if d.intObj < s.intObj then d.intObj else s.intObj
    intIdx := if d.intObj < s.intObj then k else s.intIdx
    intSol := if d.intObj < s.intObj then
      (if d.intSol.length > 0 then d.intSol else s.intSol) else s.intSol }

theorem updateObj_eq (s : DSet) (d : Disj) (ind : ℤ) (h : d.id < 0 ∨ ind < 0 ∨ d.id = ind) :
    s.updateObj d ind = .ok (s.upd d (if ind ≥ 0 then ind else d.id)) := by
  unfold DSet.updateObj DSet.upd
  rw [if_pos h]
  congr 1
  by_cases h1 : d.bestObj < s.bestObj <;> by_cases h2 : d.worstObj > s.worstObj <;>
    by_cases h3 : d.intObj < s.intObj <;> simp [h1, h2, h3]

theorem dset_add_ok {s : DSet} (h : DSetOk s) (d : Disj) :
    ∃ s', s.add d = .ok s' ∧ DSetOk s' ∧
      s'.disjs = s.disjs ++ [{ d with id := (s.disjs.length : ℤ) }] := by
  set d' : Disj := { d with id := (s.disjs.length : ℤ) } with hd'
  have hid : d'.id = s.disjs.length := rfl
  refine ⟨?s', ?e, ?ok, ?_⟩
  case s' => exact ({ s with disjs := s.disjs ++ [d'] } : DSet).upd d' s.disjs.length
  case e =>
    simp only [DSet.add]
    rw [← hd', updateObj_eq _ _ _ (by right; left; norm_num)]
    simp [hid]
  · have hb := first_best Disj.bestObj s.disjs d' s.bestObj s.bestIdx dblMax h.best_le h.best_at
    have hi := first_best Disj.intObj s.disjs d' s.intObj s.intIdx dblMax h.int_le h.int_at
    have hw := first_best (fun d => -d.worstObj) s.disjs d' (-s.worstObj) s.worstIdx dblMax
      (fun a ha => neg_le_neg (h.worst_ge a ha)) (by
        rcases h.worst_at with ⟨w1, w2⟩ | ⟨i, a, w1, w2, w3, w4⟩
        · exact Or.inl ⟨w1, by rw [w2]; ring⟩
        · exact Or.inr ⟨i, a, w1, w2, by rw [w3], fun j a' hj ha' => by
            have := w4 j a' hj ha'; linarith⟩)
    simp only [neg_lt_neg_iff] at hw
    refine ⟨fun i a ha => ?_, hb.1, hb.2, fun a ha => ?_, ?_, hi.1, hi.2⟩
    · change (s.disjs ++ [d'])[i]? = some a at ha
      by_cases hc : i < s.disjs.length
      · rw [List.getElem?_append_left hc] at ha; exact h.ids i a ha
      · rw [List.getElem?_append_right (not_lt.mp hc)] at ha
        have : i - s.disjs.length = 0 := by
          by_contra h0
          rw [List.getElem?_eq_none (by simp; omega)] at ha; cases ha
        rw [this] at ha
        simp at ha
        rw [← ha, hid]; omega
    · have := hw.1 a ha
      change a.worstObj ≤ if s.worstObj < d'.worstObj then d'.worstObj else s.worstObj
      split at this <;> rename_i hc <;> simp [hc] <;> linarith
    · simp only [DSet.upd, gt_iff_lt]
      rcases hw.2 with ⟨w1, w2⟩ | ⟨i, a, w1, w2, w3, w4⟩
      · left
        split at w2 <;> rename_i hc <;> simp only [hc, if_true, if_false] at w1 ⊢ <;>
          exact ⟨w1, by linarith⟩
      · right
        refine ⟨i, a, w1, w2, ?_, fun j a' hj ha' => by have := w4 j a' hj ha'; linarith⟩
        split at w3 <;> rename_i hc <;> simp only [hc, if_true, if_false] <;> linarith
  · rfl

/-- **C28.** From an empty set, any sequence of additions succeeds; the members are the given
disjunctions in order, and the set reports the best, worst and integer values with the position of
the first member attaining them; every member's identifier is its position. -/
theorem dset_reports (ds : List Disj) :
    ∃ s, DSet.new.addAll ds = .ok s ∧ DSetOk s ∧ s.disjs.length = ds.length ∧
      ∀ (i : ℕ) (d : Disj), ds[i]? = some d → s.disjs[i]? = some { d with id := i } := by
  suffices H : ∀ (s0 : DSet), DSetOk s0 → ∃ s, s0.addAll ds = .ok s ∧ DSetOk s ∧
      s.disjs.length = s0.disjs.length + ds.length ∧
      (∀ (i : ℕ) (d : Disj), ds[i]? = some d →
        s.disjs[s0.disjs.length + i]? = some { d with id := ((s0.disjs.length + i : ℕ) : ℤ) }) ∧
      ∀ (i : ℕ) (d : Disj), s0.disjs[i]? = some d → s.disjs[i]? = some d by
    obtain ⟨s, h1, h2, h3, h4, -⟩ := H DSet.new dset_new_ok
    simp [DSet.new] at h3 h4
    exact ⟨s, h1, h2, h3, h4⟩
  induction ds with
  | nil => exact fun s0 h => ⟨s0, rfl, h, by simp, by simp, fun _ _ h => h⟩
  | cons d ds ih =>
    intro s0 h
    obtain ⟨s1, e1, ok1, l1⟩ := dset_add_ok h d
    obtain ⟨s, e, ok, hl, hn, ho⟩ := ih s1 ok1
    have hl1 : s1.disjs.length = s0.disjs.length + 1 := by rw [l1]; simp
    refine ⟨s, by simp [DSet.addAll, e1, Res.bind, e], ok, by rw [hl, hl1]; simp; omega, ?_, ?_⟩
    · intro i a ha
      cases i with
      | zero =>
        simp at ha; subst ha
        apply ho
        rw [l1]; simp
      | succ i =>
        simp at ha
        have := hn i a ha
        rw [hl1] at this
        rw [show s0.disjs.length + (i + 1) = s0.disjs.length + 1 + i by omega]
        exact this
    · intro i a ha
      apply ho
      have hi : i < s0.disjs.length := by
        by_contra hc
        rw [List.getElem?_eq_none (not_lt.mp hc)] at ha; cases ha
      rw [l1, List.getElem?_append_left hi]; exact ha

/-- Lookup by identifier and by position agree on such a set; positions past the end give NULL;
a negative position is undefined behaviour. -/
theorem dset_lookup {s : DSet} (h : DSetOk s) :
    (∀ i : ℕ, s.get i = .ok s.disjs[i]? ∧ s.getById i = s.disjs[i]?) ∧
    ∀ i : ℤ, i < 0 → s.get i = .undef ∧ s.getById i = none := by
  refine ⟨fun i => ⟨?_, ?_⟩, fun i hi => ⟨?_, ?_⟩⟩
  · unfold DSet.get
    by_cases hc : i < s.disjs.length
    · simp [hc]
    · rw [if_neg (by omega), List.getElem?_eq_none (not_lt.mp hc)]
  · unfold DSet.getById
    by_cases hc : i < s.disjs.length
    · rw [List.getElem?_eq_getElem hc, List.find?_eq_some_iff_getElem]
      have := h.ids i _ (List.getElem?_eq_getElem hc)
      refine ⟨by simp [this], i, hc, rfl, fun j hj => ?_⟩
      have := h.ids j _ (List.getElem?_eq_getElem (by omega))
      simp [this]; omega
    · rw [List.getElem?_eq_none (not_lt.mp hc), List.find?_eq_none]
      intro d hd
      obtain ⟨j, hj, rfl⟩ := List.getElem_of_mem hd
      have := h.ids j _ (List.getElem?_eq_getElem hj)
      simp [this]; omega
  · unfold DSet.get
    rw [if_pos (by omega), if_neg (by omega)]
  · unfold DSet.getById
    rw [List.find?_eq_none]
    intro d hd
    obtain ⟨j, hj, rfl⟩ := List.getElem_of_mem hd
    have := h.ids j _ (List.getElem?_eq_getElem hj)
    simp [this]; omega

example : ∃ s, DSet.new.addAll [{ bestObj := 3, worstObj := 9 }, { bestObj := 1, worstObj := 2 },
    { bestObj := 1, worstObj := 9 }] = .ok s ∧ s.bestObj = 1 ∧ s.bestIdx = 1 ∧ s.worstObj = 9 ∧
    s.worstIdx = 0 := ⟨_, rfl, by decide +kernel, by decide +kernel, by decide +kernel,
      by decide +kernel⟩

/-! ## Preparing a set (C59) -/

/-- Reason reported by the last preparation performed. -/
def lastReason (e : DisjExit) : List (DisjExit × Disj) → DisjExit
  | [] => e
  | r :: rs => lastReason r.1 rs

theorem lastReason_getLast (e : DisjExit) (rs : List (DisjExit × Disj)) :
    lastReason e rs = ((rs.getLast?).map Prod.fst).getD e := by
  induction rs generalizing e with
  | nil => rfl
  | cons r rs ih =>
    rw [lastReason, ih]
    cases rs with
    | nil => rfl
    | cons r' rs => simp [List.getLast?_cons_cons, List.getLast?_cons]

theorem prepLoop_spec (prep : Disj → DisjExit × Disj) (done ds : List Disj) (e : DisjExit) (s : DSet)
    (hid : ∀ (i : ℕ) (d : Disj), ds[i]? = some d →
      (d.id < 0 ∨ d.id = ((done.length + i : ℕ) : ℤ)) ∧
      ((prep d).2.id < 0 ∨ (prep d).2.id = ((done.length + i : ℕ) : ℤ))) :
    ∃ k e' s', DSet.prepLoop prep done ds done.length e s = .ok (e', s') ∧ k ≤ ds.length ∧
      s'.disjs = done ++ (ds.take k).map (fun d => (prep d).2) ++ ds.drop k ∧
      (∀ (j : ℕ) (d : Disj), j + 1 < k → ds[j]? = some d → (prep d).1 ≠ .OPTIMAL_SOLUTION_FOUND) ∧
      (k = ds.length ∨ e' = .OPTIMAL_SOLUTION_FOUND) ∧
      e' = lastReason e ((ds.take k).map prep) ∧
      s'.bestObj = ((ds.take k).map fun d => (prep d).2.bestObj).foldl min s.bestObj ∧
      s'.worstObj = ((ds.take k).map fun d => (prep d).2.worstObj).foldl max s.worstObj ∧
      s'.intObj = ((ds.take k).map fun d => (prep d).2.intObj).foldl min s.intObj := by
  induction ds generalizing done e s with
  | nil => exact ⟨0, e, { s with disjs := done }, rfl, le_refl _, by simp, by simp, by simp, rfl,
      rfl, rfl, rfl⟩
  | cons d ds ih =>
    obtain ⟨h1, h2⟩ := hid 0 d rfl
    simp only [Nat.add_zero] at h1 h2
    have hu := updateObj_eq s (prep d).2 (done.length : ℤ) (by tauto)
    rw [if_pos (by omega)] at hu
    have eb : (s.upd (prep d).2 done.length).bestObj = min s.bestObj (prep d).2.bestObj := by
      simp only [DSet.upd, min_def]
      split <;> split <;> linarith
    have ew : (s.upd (prep d).2 done.length).worstObj = max s.worstObj (prep d).2.worstObj := by
      simp only [DSet.upd, max_def]
      split <;> split <;> linarith
    have ei : (s.upd (prep d).2 done.length).intObj = min s.intObj (prep d).2.intObj := by
      simp only [DSet.upd, min_def]
      split <;> split <;> linarith
    simp only [DSet.prepLoop, if_pos h1, hu, Res.bind]
    by_cases ho : (prep d).1 = .OPTIMAL_SOLUTION_FOUND
    · rw [if_pos ho]
      refine ⟨1, _, _, rfl, by simp, by simp, by intro j d' hj; omega, Or.inr ho, by simp [lastReason],
        ?_, ?_, ?_⟩
      · simpa using eb
      · simpa using ew
      · simpa using ei
    · rw [if_neg ho]
      obtain ⟨k, e', s', g1, g2, g3, g4, g5, g6, g7, g8, g9⟩ := ih (done ++ [(prep d).2]) (prep d).1
        (s.upd (prep d).2 done.length) (by
          intro i a ha
          have := hid (i + 1) a (by simpa using ha)
          simpa [Nat.add_assoc, Nat.add_comm 1 i] using this)
      refine ⟨k + 1, e', s', ?_, by simpa using g2, by simpa using g3, ?_, ?_, ?_, ?_, ?_, ?_⟩
      · simpa using g1
      · intro j a hj ha
        cases j with
        | zero => simp at ha; rw [← ha]; exact ho
        | succ j => exact g4 j a (by omega) (by simpa using ha)
      · simpa using g5
      · simpa [lastReason] using g6
      · rw [g7, eb]; simp
      · rw [g8, ew]; simp
      · rw [g9, ei]; simp

/-- **C59 (partial).** Preparing a set whose members are numbered by position (or unnumbered) prepares
the members in order up to and including the first one that finds an optimal solution, leaves the
rest untouched, reports the exit reason of the last preparation performed (UNKNOWN for an empty
set), and folds the values of the prepared members into the values reported so far. Missing: that
the reported values are those of the current members (`dset_prepare_stale`). -/
theorem dset_prepare_partial (prep : Disj → DisjExit × Disj) (s : DSet)
    (hid : ∀ (i : ℕ) (d : Disj), s.disjs[i]? = some d →
      (d.id < 0 ∨ d.id = i) ∧ ((prep d).2.id < 0 ∨ (prep d).2.id = i)) :
    ∃ k e s', s.prepare prep = .ok (e, s') ∧ k ≤ s.disjs.length ∧
      s'.disjs = (s.disjs.take k).map (fun d => (prep d).2) ++ s.disjs.drop k ∧
      (∀ (j : ℕ) (d : Disj), j + 1 < k → s.disjs[j]? = some d →
        (prep d).1 ≠ .OPTIMAL_SOLUTION_FOUND) ∧
      (k = s.disjs.length ∨ e = .OPTIMAL_SOLUTION_FOUND) ∧
      e = ((((s.disjs.take k).map prep).getLast?).map Prod.fst).getD .UNKNOWN ∧
      s'.bestObj = ((s.disjs.take k).map fun d => (prep d).2.bestObj).foldl min s.bestObj ∧
      s'.worstObj = ((s.disjs.take k).map fun d => (prep d).2.worstObj).foldl max s.worstObj ∧
      s'.intObj = ((s.disjs.take k).map fun d => (prep d).2.intObj).foldl min s.intObj := by
  obtain ⟨k, e, s', h1, h2, h3, h4, h5, h6, h7⟩ := prepLoop_spec prep [] s.disjs .UNKNOWN s
    (by simpa using hid)
  rw [lastReason_getLast] at h6
  exact ⟨k, e, s', h1, h2, by simpa using h3, h4, h5, h6, h7⟩

/-- In particular, for a set whose members were added before being prepared (so that nothing has
been reported yet), the best value reported after preparing all of them is the minimum over the
members. -/
theorem dset_prepare_first (prep : Disj → DisjExit × Disj) (ds : List Disj)
    (hnew : ∀ d ∈ ds, d.bestObj = dblMax ∧ d.worstObj = -dblMax ∧ d.intObj = dblMax)
    (hprep : ∀ d, (prep d).2.id < 0 ∨ (prep d).2.id = d.id)
    (hopt : ∀ d, (prep d).1 ≠ .OPTIMAL_SOLUTION_FOUND) :
    ∃ s s' e, DSet.new.addAll ds = .ok s ∧ s.prepare prep = .ok (e, s') ∧
      s'.bestObj = (s'.disjs.map (·.bestObj)).foldl min dblMax ∧
      s'.worstObj = (s'.disjs.map (·.worstObj)).foldl max (-dblMax) := by
  obtain ⟨s, h1, h2, h3, h4⟩ := dset_reports ds
  have hmem : ∀ d ∈ s.disjs, ∃ d0 ∈ ds, d.bestObj = d0.bestObj ∧ d.worstObj = d0.worstObj := by
    intro d hd
    obtain ⟨i, hi, rfl⟩ := List.getElem_of_mem hd
    have hi' : i < ds.length := h3 ▸ hi
    have := h4 i _ (List.getElem?_eq_getElem hi')
    rw [List.getElem?_eq_getElem hi] at this
    simp only [Option.some.injEq] at this
    exact ⟨ds[i], List.getElem_mem _, by rw [this], by rw [this]⟩
  have hb : s.bestObj = dblMax := by
    rcases h2.best_at with ⟨_, h⟩ | ⟨i, d, hd, _, h, _⟩
    · exact h
    · obtain ⟨d0, hd0, e1, _⟩ := hmem d (List.mem_of_getElem? hd)
      rw [h, e1, (hnew d0 hd0).1]
  have hw : s.worstObj = -dblMax := by
    rcases h2.worst_at with ⟨_, h⟩ | ⟨i, d, hd, _, h, _⟩
    · exact h
    · obtain ⟨d0, hd0, _, e1⟩ := hmem d (List.mem_of_getElem? hd)
      rw [h, e1, (hnew d0 hd0).2.1]
  obtain ⟨k, e, s', g1, g2, g3, g4, g5, g6, g7, g8, g9⟩ := dset_prepare_partial prep s (by
    intro i d hd
    have := h2.ids i d hd
    refine ⟨Or.inr this, ?_⟩
    rcases hprep d with h | h
    · exact Or.inl h
    · exact Or.inr (by rw [h, this]))
  have hk : k = s.disjs.length := by
    rcases g5 with h | h
    · exact h
    · exfalso
      rw [g6] at h
      cases hl : ((s.disjs.take k).map prep).getLast? with
      | none => rw [hl] at h; simp at h
      | some r =>
        rw [hl] at h
        obtain ⟨d, _, rfl⟩ := List.mem_map.mp (List.mem_of_getLast? hl)
        exact hopt d (by simpa using h)
  subst hk
  refine ⟨s, s', e, h1, g1, ?_, ?_⟩
  · rw [g7, g3, hb]; simp [Function.comp_def]
  · rw [g8, g3, hw]; simp [Function.comp_def]

/-- **C59 fails** for a set prepared again: values reported by an earlier preparation survive, so
the best value reported need not be that of any member. -/
theorem dset_prepare_stale :
    ∃ (s s' : DSet) (e : DisjExit), DSet.new.addAll [{ bestObj := 1, worstObj := 1 }] = .ok s ∧
      s.prepare (fun d => (.SUCCESS, { d with bestObj := 5, worstObj := 5 })) = .ok (e, s') ∧
      s'.bestObj = 1 ∧ ∀ d ∈ s'.disjs, d.bestObj = 5 :=
  ⟨{ disjs := [{ id := 0, bestObj := 1, worstObj := 1 }], bestObj := 1, bestIdx := 0, worstObj := 1,
     worstIdx := 0 },
   { disjs := [{ id := 0, bestObj := 5, worstObj := 5 }], bestObj := 1, bestIdx := 0, worstObj := 5,
     worstIdx := 0 }, .SUCCESS, by decide +kernel, by decide +kernel, rfl, by decide +kernel⟩

/-- **C59 fails** for the integer solution: a better integer value reported without a solution keeps
the old solution vector, which does not belong to it. -/
theorem dset_int_sol_stale :
    ∃ s : DSet, DSet.new.addAll [{ intObj := 7, intSol := [7] }, { intObj := 3 }] = .ok s ∧
      s.intObj = 3 ∧ s.intIdx = 1 ∧ s.intSol = [7] :=
  ⟨_, rfl, by decide +kernel, by decide +kernel, by decide +kernel⟩

example : ∃ s s' e, DSet.new.addAll [{}, {}] = .ok s ∧
    s.prepare (fun d => (.SUCCESS, { d with bestObj := d.id + 2, worstObj := d.id + 9, id := -1 }))
      = .ok (e, s') ∧ s'.bestObj = 2 ∧ s'.worstObj = 10 :=
  ⟨{ disjs := [{ id := 0 }, { id := 1 }] },
   { disjs := [{ bestObj := 2, worstObj := 9 }, { bestObj := 3, worstObj := 10 }], bestObj := 2,
     bestIdx := 0, worstObj := 10, worstIdx := 1 }, .SUCCESS, by decide +kernel, by decide +kernel,
   rfl, rfl⟩

end VPC
