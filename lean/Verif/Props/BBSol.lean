import Verif.Model.BBSol
import Verif.Props.BBCover

/-!
# Integer solutions of the partial tree and the bounds kept for its root split (C35, C60, C61)
-/
namespace VPC

/-! ## C35 -/

/-- `x` satisfies a row up to a tolerance. -/
def RowVal.Sat (r : RowVal) (x : Vec) (tol : ℚ) : Prop :=
  (r.sense = 'G' → r.rhs - tol ≤ sdot r.coeffs x) ∧
  (r.sense = 'L' → sdot r.coeffs x ≤ r.rhs + tol) ∧
  (r.sense = 'E' → |sdot r.coeffs x - r.rhs| ≤ tol)

theorem checkCols_nonneg (i : ℕ) (cols : List ColVal) :
    (checkCols i cols).1 = -1 ∨ (i : ℤ) ≤ (checkCols i cols).1 := by
  induction cols generalizing i with
  | nil => left; rfl
  | cons c cs ih =>
    unfold checkCols
    cases checkCol c with
    | none => right; simp
    | some v =>
      simp only
      rcases ih (i + 1) with h | h
      · left; exact h
      · right; push_cast at h; omega

theorem checkRows_skip (EPS : ℚ) (n : ℤ) (x : Vec) (i : ℤ) (rows : List RowVal) {e : ℤ} (he : e ≠ 0) :
    checkRows EPS n x i rows e = .ok e := by
  cases rows with
  | nil => rfl
  | cons r rs => unfold checkRows; rw [if_neg he]

theorem checkRows_zero {EPS : ℚ} {n : ℤ} {x : Vec} {i : ℤ} {rows : List RowVal} {e : ℤ}
    (hi : 0 ≤ i) (hn : 0 ≤ n) (h : checkRows EPS n x i rows 0 = .ok e) : 0 ≤ e := by
  induction rows generalizing i with
  | nil => simp only [checkRows, Res.ok.injEq] at h; omega
  | cons r rs ih =>
    unfold checkRows at h
    rw [if_pos rfl] at h
    split at h
    · cases h
    · split at h
      · simp only [Res.ok.injEq] at h; omega
      · exact ih (by omega) h

/-- **The rows are never checked (C35 fails)**: the outcome of the check of a supposed integer solution
is the same whatever the rows of the problem. -/
theorem rows_never_checked (EPS : ℚ) (cols : List ColVal) (rows rows' : List RowVal) (c : List ℚ)
    (off : ℚ) (b : Bool) (m : ℚ) (v : ℚ)
    (h : checkSolution EPS cols rows c off b m = .ok v) :
    checkSolution EPS cols rows' c off b m = .ok v := by
  unfold checkSolution at h ⊢
  dsimp only at h ⊢
  rcases checkCols_nonneg 0 cols with he | he
  · rw [he] at h ⊢
    rw [checkRows_skip _ _ _ _ _ (by norm_num)] at h ⊢
    exact h
  · exfalso
    obtain ⟨e, h1, h2⟩ := Res.bind_ok h
    have : 0 ≤ e := by
      by_cases h0 : (checkCols 0 cols).1 = 0
      · rw [h0] at h1
        exact checkRows_zero le_rfl (by omega) h1
      · rw [checkRows_skip _ _ _ _ _ h0] at h1
        simp only [Res.ok.injEq] at h1
        push_cast at he; omega
    rw [if_pos this] at h2
    cases h2

/-- A concrete instance: `x = 0` passes although the row `x ≥ 1` of the problem is violated by a whole
unit. -/
theorem infeasible_incumbent_accepted : ∃ (cols : List ColVal) (rows : List RowVal) (v : ℚ),
    checkSolution defEps cols rows [1] 0 true 0 = .ok v ∧
    ∃ r ∈ rows, ¬ r.Sat (asVec (cols.map (·.val))) (1 / 2) := by
  refine ⟨[⟨some 0, some 5, true, 0⟩], [⟨'G', 1, 1, 0, [(0, 1)]⟩], 0, by decide +kernel, _,
    List.mem_singleton.mpr rfl, ?_⟩
  rintro ⟨h, _⟩
  have := h rfl
  norm_num [asVec, sdot_cons, sdot_nil] at this

/-- What the check of one column establishes. -/
theorem checkCol_spec {c : ColVal} {v : ℚ} (h : checkCol c = some v) :
    (∀ l, c.lo = some l → l - defEps < c.val) ∧ (∀ u, c.hi = some u → c.val < u + defEps) ∧
    (c.isInt = true → ∃ k : ℤ, |c.val - k| < 3 * defEps) := by
  have hd : (0 : ℚ) < defEps := by norm_num [defEps]
  unfold checkCol at h
  cases h1 : clipLo c.lo c.val with
  | none => rw [h1] at h; simp at h
  | some v1 =>
    rw [h1] at h
    simp only [Option.bind_some] at h
    cases h2 : clipHi c.hi v1 with
    | none => rw [h2] at h; simp at h
    | some v2 =>
      rw [h2] at h
      simp only [Option.bind_some] at h
      have hA : (∀ l, c.lo = some l → l - defEps < c.val) ∧ c.val ≤ v1 ∧ v1 < c.val + defEps := by
        unfold clipLo at h1
        cases hl : c.lo with
        | none =>
          rw [hl] at h1; simp only [Option.some.injEq] at h1; subst h1
          exact ⟨by simp, le_rfl, by linarith⟩
        | some l =>
          rw [hl] at h1
          simp only at h1
          split at h1
          · cases h1
          · rename_i hg
            rw [greaterThanVal_iff] at hg
            push Not at hg
            split at h1
            · rename_i hg2
              rw [greaterThanVal_iff] at hg2
              simp only [Option.some.injEq] at h1; subst h1
              exact ⟨fun l' hl' => by cases hl'; linarith, by linarith, by linarith⟩
            · simp only [Option.some.injEq] at h1; subst h1
              exact ⟨fun l' hl' => by cases hl'; linarith, le_rfl, by linarith⟩
      have hB : (∀ u, c.hi = some u → v1 < u + defEps) ∧ v2 ≤ v1 ∧ v1 < v2 + defEps := by
        unfold clipHi at h2
        cases hl : c.hi with
        | none =>
          rw [hl] at h2; simp only [Option.some.injEq] at h2; subst h2
          exact ⟨by simp, le_rfl, by linarith⟩
        | some l =>
          rw [hl] at h2
          simp only at h2
          split at h2
          · cases h2
          · rename_i hg
            rw [greaterThanVal_iff] at hg
            push Not at hg
            split at h2
            · rename_i hg2
              rw [greaterThanVal_iff] at hg2
              simp only [Option.some.injEq] at h2; subst h2
              exact ⟨fun l' hl' => by cases hl'; linarith, by linarith, by linarith⟩
            · simp only [Option.some.injEq] at h2; subst h2
              exact ⟨fun l' hl' => by cases hl'; linarith, le_rfl, by linarith⟩
      refine ⟨hA.1, fun u hu => by have := hB.1 u hu; linarith [hA.2.1], fun hint => ?_⟩
      unfold roundInt at h
      rw [if_pos hint] at h
      split at h
      · cases h
      · rename_i hz
        simp only [Bool.not_eq_true', Bool.not_eq_false, isZero_iff] at hz
        have hv2 : ∃ k : ℤ, |v2 - k| < defEps := by
          unfold fracViol at hz
          split at hz
          · exact ⟨⌊v2⌋, hz⟩
          · exact ⟨⌊v2⌋ + 1, by push_cast; exact hz⟩
        obtain ⟨k, hk⟩ := hv2
        refine ⟨k, ?_⟩
        rw [abs_lt] at hk ⊢
        constructor <;> linarith [hA.2.1, hA.2.2, hB.2.1, hB.2.2]

theorem checkCols_ok {i : ℕ} {cols : List ColVal} (h : (checkCols i cols).1 = -1) :
    ∀ c ∈ cols, ∃ v, checkCol c = some v := by
  induction cols generalizing i with
  | nil => simp
  | cons c cs ih =>
    unfold checkCols at h
    cases hc : checkCol c with
    | none => rw [hc] at h; simp only at h; omega
    | some v =>
      rw [hc] at h
      intro d hd
      simp only [List.mem_cons] at hd
      rcases hd with rfl | hd
      · exact ⟨v, hc⟩
      · exact ih h d hd

/-- **C35 (the part that holds).** A solution that survives the check satisfies the original column
bounds and integrality up to tolerance. Missing: the rows. -/
theorem incumbent_columns_partial {EPS : ℚ} {cols : List ColVal} {rows : List RowVal} {c : List ℚ}
    {off : ℚ} {b : Bool} {m v : ℚ} (h : checkSolution EPS cols rows c off b m = .ok v) :
    ∀ col ∈ cols, (∀ l, col.lo = some l → l - defEps < col.val) ∧
      (∀ u, col.hi = some u → col.val < u + defEps) ∧
      (col.isInt = true → ∃ k : ℤ, |col.val - k| < 3 * defEps) := by
  have h' := rows_never_checked EPS cols rows [] c off b m v h
  unfold checkSolution at h'
  simp only [checkRows, Res.bind] at h'
  rcases checkCols_nonneg 0 cols with he | he
  · intro col hcol
    obtain ⟨w, hw⟩ := checkCols_ok he col hcol
    exact checkCol_spec hw
  · rw [if_pos (by push_cast at he; exact he)] at h'
    cases h'

/-- A bad column always terminates the process. -/
theorem bad_column_exits {EPS : ℚ} {cols : List ColVal} (rows : List RowVal) (c : List ℚ)
    (off : ℚ) (b : Bool) (m : ℚ) (h : ∃ col ∈ cols, checkCol col = none) :
    checkSolution EPS cols rows c off b m = .exit := by
  cases hr : checkSolution EPS cols rows c off b m with
  | exit => rfl
  | ok v =>
    have h' := rows_never_checked EPS cols rows [] c off b m v hr
    unfold checkSolution at h'
    simp only [checkRows, Res.bind] at h'
    rcases checkCols_nonneg 0 cols with he | he
    · obtain ⟨col, hcol, hn⟩ := h
      obtain ⟨w, hw⟩ := checkCols_ok he col hcol
      rw [hw] at hn; cases hn
    · rw [if_pos (by push_cast at he; exact he)] at h'
      cases h'
  | undef =>
    exfalso
    have key : ∀ (i : ℤ) (rows : List RowVal) (e : ℤ) (x : Vec) (n : ℤ),
        checkRows EPS n x i rows e ≠ .undef := by
      intro i rows
      induction rows generalizing i with
      | nil => intro e x n; simp [checkRows]
      | cons r rs ih =>
        intro e x n
        unfold checkRows
        split
        · split
          · simp
          · split
            · simp
            · exact ih _ _ _ _
        · simp
    unfold checkSolution at hr
    dsimp only at hr
    cases hk : checkRows EPS cols.length (asVec (checkCols 0 cols).2) 0 rows (checkCols 0 cols).1 with
    | undef => exact key _ _ _ _ _ hk
    | exit => rw [hk] at hr; simp [Res.bind] at hr
    | ok e =>
      rw [hk] at hr
      simp only [Res.bind] at hr
      split at hr
      · cases hr
      · split at hr <;> cases hr

/-- What the adjustment of one column yields: a value close to the candidate, integral for integer
columns, within the bounds for the others. -/
theorem checkCol_value {c : ColVal} {v : ℚ} (h : checkCol c = some v)
    (hb : ∀ l u, c.lo = some l → c.hi = some u → l ≤ u) :
    |v - c.val| < 3 * defEps ∧ (c.isInt = true → ∃ k : ℤ, v = k) ∧
    (c.isInt = false → (∀ l, c.lo = some l → l ≤ v) ∧ ∀ u, c.hi = some u → v ≤ u) := by
  have hd : (0 : ℚ) < defEps := by norm_num [defEps]
  unfold checkCol at h
  cases h1 : clipLo c.lo c.val with
  | none => rw [h1] at h; simp at h
  | some v1 =>
    rw [h1] at h
    simp only [Option.bind_some] at h
    cases h2 : clipHi c.hi v1 with
    | none => rw [h2] at h; simp at h
    | some v2 =>
      rw [h2] at h
      simp only [Option.bind_some] at h
      have hA : (∀ l, c.lo = some l → l ≤ v1) ∧ c.val ≤ v1 ∧ v1 < c.val + defEps ∧
          (v1 = c.val ∨ ∃ l, c.lo = some l ∧ v1 = l) := by
        unfold clipLo at h1
        cases hl : c.lo with
        | none =>
          rw [hl] at h1; simp only [Option.some.injEq] at h1; subst h1
          exact ⟨by simp, le_rfl, by linarith, Or.inl rfl⟩
        | some l =>
          rw [hl] at h1
          simp only at h1
          split at h1
          · cases h1
          · rename_i hg
            rw [greaterThanVal_iff] at hg
            push Not at hg
            split at h1
            · rename_i hg2
              rw [greaterThanVal_iff] at hg2
              simp only [Option.some.injEq] at h1; subst h1
              exact ⟨fun l' hl' => by cases hl'; linarith, by linarith, by linarith,
                Or.inr ⟨l, rfl, by ring⟩⟩
            · rename_i hg2
              rw [greaterThanVal_iff] at hg2
              push Not at hg2
              simp only [Option.some.injEq] at h1; subst h1
              exact ⟨fun l' hl' => by cases hl'; linarith, le_rfl, by linarith, Or.inl rfl⟩
      have hB : (∀ u, c.hi = some u → v2 ≤ u) ∧ v2 ≤ v1 ∧ v1 < v2 + defEps ∧
          (v2 = v1 ∨ ∃ u, c.hi = some u ∧ v2 = u) := by
        unfold clipHi at h2
        cases hl : c.hi with
        | none =>
          rw [hl] at h2; simp only [Option.some.injEq] at h2; subst h2
          exact ⟨by simp, le_rfl, by linarith, Or.inl rfl⟩
        | some l =>
          rw [hl] at h2
          simp only at h2
          split at h2
          · cases h2
          · rename_i hg
            rw [greaterThanVal_iff] at hg
            push Not at hg
            split at h2
            · rename_i hg2
              rw [greaterThanVal_iff] at hg2
              simp only [Option.some.injEq] at h2; subst h2
              exact ⟨fun l' hl' => by cases hl'; linarith, by linarith, by linarith,
                Or.inr ⟨l, rfl, by ring⟩⟩
            · rename_i hg2
              rw [greaterThanVal_iff] at hg2
              push Not at hg2
              simp only [Option.some.injEq] at h2; subst h2
              exact ⟨fun l' hl' => by cases hl'; linarith, le_rfl, by linarith, Or.inl rfl⟩
      have hlo : ∀ l, c.lo = some l → l ≤ v2 := by
        intro l hl
        rcases hB.2.2.2 with h | ⟨u, hu, h⟩
        · rw [h]; exact hA.1 l hl
        · rw [h]; exact hb l u hl hu
      unfold roundInt at h
      split at h
      · rename_i hint
        split at h
        · cases h
        · rename_i hz
          simp only [Bool.not_eq_true', Bool.not_eq_false, isZero_iff] at hz
          have hk : ∃ k : ℤ, v2 - fracViol v2 = k := by
            unfold fracViol
            split
            · exact ⟨⌊v2⌋, by ring⟩
            · exact ⟨⌊v2⌋ + 1, by push_cast; ring⟩
          have hv : v = v2 - fracViol v2 := by
            split at h
            · simp only [Option.some.injEq] at h; exact h.symm
            · rename_i h0
              simp only [Option.some.injEq] at h
              exfalso
              simp only [Bool.not_eq_true', Bool.not_eq_false, isZero_iff] at h0
              exact absurd h0 (not_lt.mpr (abs_nonneg _))
          rw [abs_lt] at hz ⊢
          refine ⟨⟨?_, ?_⟩, fun _ => hv ▸ hk, fun hf => by rw [hint] at hf; cases hf⟩ <;>
            rw [hv] <;> linarith [hA.2.1, hA.2.2.1, hB.2.1, hB.2.2.1, hz.1, hz.2]
      · rename_i hint
        simp only [Option.some.injEq] at h
        subst h
        refine ⟨?_, fun hf => absurd hf hint, fun _ => ⟨hlo, hB.1⟩⟩
        rw [abs_lt]
        constructor <;> linarith [hA.2.1, hA.2.2.1, hB.2.1, hB.2.2.1]

theorem checkCols_values {i : ℕ} {cols : List ColVal} (h : (checkCols i cols).1 = -1) :
    (checkCols i cols).2.map some = cols.map checkCol := by
  induction cols generalizing i with
  | nil => rfl
  | cons c cs ih =>
    unfold checkCols at h ⊢
    cases hc : checkCol c with
    | none => rw [hc] at h; simp only at h; omega
    | some v =>
      rw [hc] at h
      simp only [List.map_cons, hc]
      rw [ih h]

/-- **C35 (objective).** The objective value computed for a solution that survives the check is that of
the adjusted solution `x`, less the offset, where `x` is close to the candidate, integral on integer
columns and within the bounds of the other columns; if the node is pruned by integrality it agrees with
the solver's objective value up to `1e-7`. -/
theorem incumbent_objective {EPS : ℚ} {cols : List ColVal} {rows : List RowVal} {c : List ℚ}
    {off : ℚ} {b : Bool} {m v : ℚ} (h : checkSolution EPS cols rows c off b m = .ok v)
    (hb : ∀ col ∈ cols, ∀ l u, col.lo = some l → col.hi = some u → l ≤ u) :
    ∃ x : List ℚ, v = (List.zipWith (· * ·) x c).sum - off ∧ (b = true → |v - m| < defEps) ∧
      List.Forall₂ (fun w (col : ColVal) => |w - col.val| < 3 * defEps ∧
        (col.isInt = true → ∃ k : ℤ, w = k) ∧
        (col.isInt = false → (∀ l, col.lo = some l → l ≤ w) ∧ ∀ u, col.hi = some u → w ≤ u))
        x cols := by
  have h' := rows_never_checked EPS cols rows [] c off b m v h
  unfold checkSolution at h'
  simp only [checkRows, Res.bind] at h'
  rcases checkCols_nonneg 0 cols with he | he
  · rw [he] at h'
    rw [if_neg (by norm_num)] at h'
    have hval := checkCols_values he
    split at h'
    · cases h'
    · rename_i hc
      simp only [Res.ok.injEq] at h'
      refine ⟨(checkCols 0 cols).2, h'.symm, fun hbt => ?_, ?_⟩
      · rw [hbt, h'] at hc
        simp only [Bool.true_and, Bool.not_eq_true', Bool.not_eq_false, isVal_iff] at hc
        exact hc
      · have : List.Forall₂ (fun (w : ℚ) (col : ColVal) => checkCol col = some w)
            (checkCols 0 cols).2 cols := by
          generalize (checkCols 0 cols).2 = l at hval
          clear h h' he hc hb
          induction cols generalizing l with
          | nil => cases l with
            | nil => exact List.Forall₂.nil
            | cons a l => simp at hval
          | cons d cs ih => cases l with
            | nil => simp at hval
            | cons a l =>
              simp only [List.map_cons, List.cons.injEq] at hval
              exact List.Forall₂.cons hval.1.symm (ih l hval.2)
        generalize (checkCols 0 cols).2 = l at this
        clear hval h h' he hc
        revert hb
        induction this with
        | nil => exact fun _ => List.Forall₂.nil
        | cons h1 h2 ih =>
          exact fun hb => List.Forall₂.cons (checkCol_value h1 (hb _ (by simp)))
            (ih fun col hcol => hb col (by simp [hcol]))
  · rw [if_pos (by push_cast at he; exact he)] at h'
    cases h'

example : checkSolution defEps [⟨some 0, some 5, true, 3 + 1 / 10 ^ 8⟩,
    ⟨some 0, some 1, false, -1 / 10 ^ 8⟩] [] [1, 2] 1 true 2 = .ok 2 := by decide +kernel
example : checkSolution defEps [⟨some 0, some 5, true, 3⟩, ⟨none, some 1, false, 1 / 2⟩] [] [1, 2] 0 true 4
    = .ok 4 := by decide +kernel
example : ∃ col ∈ [(⟨some 0, some 5, true, 5 / 2⟩ : ColVal)], checkCol col = none :=
  ⟨_, List.mem_singleton.mpr rfl, by decide +kernel⟩

/-! ## C61: improving solutions are recorded -/

/-- A solution is recorded only if it improves on the cutoff, and what is recorded is what Cbc
announced: the new solution, or the good solution of the variable selection. -/
theorem recorded_improves {s s' : SolSt} {e : SolEv} (h : beforeSolution2 s e = .ok s') :
    (s'.saved = s.saved ∧ s'.obj = s.obj) ∨
    (s'.prune = .INTEGRALITY ∧ s'.obj < e.cutoff ∧
      ((s'.saved = e.best ∧ s'.obj = e.objective) ∨ e.good = some (s'.saved, s'.obj))) := by
  unfold beforeSolution2 at h
  dsimp only at h
  split at h
  · cases h
  split at h
  · simp only [Res.ok.injEq] at h; subst h; left; exact ⟨rfl, rfl⟩
  split at h
  · simp only [Res.ok.injEq] at h; subst h; left; exact ⟨rfl, rfl⟩
  split at h
  · rename_i hc
    simp only [Res.ok.injEq] at h; subst h
    right; exact ⟨rfl, hc.1, Or.inl ⟨rfl, rfl⟩⟩
  split at h
  · split at h
    · simp only [Res.ok.injEq] at h; subst h; left; exact ⟨rfl, rfl⟩
    · rename_i g hg
      simp only [Res.ok.injEq] at h
      split at h
      · rename_i hlt
        subst h; right; exact ⟨rfl, hlt, Or.inr hg⟩
      · subst h; left; exact ⟨rfl, rfl⟩
  · simp only [Res.ok.injEq] at h; subst h; left; exact ⟨rfl, rfl⟩

/-- **C61 (part that holds).** A feasible improving solution announced at a node that the new cutoff
prunes is recorded. Missing: improving solutions announced at a node that survives the new cutoff. -/
theorem improving_recorded_partial {s : SolSt} {e : SolEv} (hc : e.child = true)
    (hf : e.mipFeasible = true) (hlt : e.childObj < e.cutoff) (ho : e.objective < e.cutoff)
    (hp : e.objective - e.increment ≤ e.childObj) :
    ∃ s', beforeSolution2 s e = .ok s' ∧ s'.saved = e.best ∧ s'.obj = e.objective := by
  refine ⟨{ s with found := true, prune := .INTEGRALITY, saved := e.best, obj := e.objective }, ?_, rfl, rfl⟩
  unfold beforeSolution2
  simp only [hc, hf, Bool.not_true, Bool.false_eq_true, if_false]
  rw [if_neg (by linarith), if_pos ⟨ho, hp⟩]

example : ∃ e : SolEv, e.child = true ∧ e.mipFeasible = true ∧ e.childObj < e.cutoff ∧
    e.objective < e.cutoff ∧ e.objective - e.increment ≤ e.childObj :=
  ⟨⟨true, true, 3, 10, 1, 4, [1], false, none⟩, by norm_num⟩

/-- **C61 fails**: a feasible solution that strictly improves the cutoff, found at a node whose bound is
still below the new cutoff (a heuristic or strong-branching solution), is not recorded, although the
solver will prune with it from then on. -/
theorem improving_not_recorded : ∃ (s s' : SolSt) (e : SolEv), e.child = true ∧ e.mipFeasible = true ∧
    e.childObj < e.cutoff ∧ e.objective < e.cutoff ∧ beforeSolution2 s e = .ok s' ∧
    s'.saved = [] ∧ s'.prune = .NO :=
  ⟨{}, { found := true }, ⟨true, true, 0, 10, 1, 4, [1], true, none⟩, rfl, rfl, by norm_num, by norm_num,
    by decide +kernel, rfl, rfl⟩

/-! ## C60: the bounds kept for the root split -/

/-- Following the recorded parents always reaches the root. -/
theorem rootSide_total {P : Relax} {root : NewNode} {s : BB} (hinv : BBInv P root s) (i : ℕ)
    (hi : i < s.count2) : ∃ b, rootSide s.stats (s.stats.length + 1) i = some b := by
  have key : ∀ (f i : ℕ), i < f → i < s.count2 → ∃ b, rootSide s.stats f i = some b := by
    intro f
    induction f with
    | zero => intro i h; omega
    | succ f ih =>
      intro i hif hic
      unfold rootSide
      have hlt : i < s.stats.length := by rw [hinv.len]; exact hic
      rw [List.getElem?_eq_getElem hlt]
      simp only
      split
      · exact ⟨_, rfl⟩
      · rename_i hp
        rcases hinv.pars i _ (List.getElem?_eq_getElem hlt) with h | ⟨h1, h2⟩
        · exact absurd h hp
        · exact ih _ (by omega) (by omega)
  exact key _ i (by rw [hinv.len]; omega) hi

/-- In a reachable state the walk ends for every node of the tree, so that setting up a term is never
undefined. -/
theorem setupTerm_defined {P : Relax} {root : NewNode} {es : List BBStep} {s : BB}
    (ht : OnlyTightens P root es) (h : bbRun (bbInit P root) es = .ok s) {nd : CNode}
    (hn : nd ∈ s.tree) (keep : Bool) (var : ℕ) (way : ℤ) (value : ℚ) (ans : Option ℚ) (st : SaveSt) :
    ∃ st', setupTerm keep s.stats nd.first var way value ans st = .ok st' := by
  have hfin : ∀ e ∈ es, ∀ n, e.out = .created n → FiniteWhere n.lo n.hi root.lo root.hi :=
    fun e he n hn => (ht.2 e he n hn).finite
  have hinv := bbRun_inv (bbInv_init P root) hfin h
  have hsy := hinv.synced nd hn
  obtain ⟨par, cs, ho, _⟩ := hsy.orig
  obtain ⟨cs', hcs, _⟩ := origChanges_sat hinv ht.1 hsy
  have hlt : nd.first < s.count2 := by rw [← hinv.len]; exact lt_of_get ho
  obtain ⟨b, hb⟩ := rootSide_total hinv nd.first hlt
  unfold setupTerm
  split
  · unfold bbTerm
    rw [hcs, ho, hinv.stat0, hb]
    dsimp only
    split <;> split <;> exact ⟨_, rfl⟩
  · exact ⟨_, rfl⟩

example : ∃ nd ∈ bbS.tree, nd.branchIndex = 1 := by decide +kernel

/-- `bound` is at most a value, up to the tolerance of the comparison. -/
def NotAbove (b v : ℚ) : Prop := b < v + defEps

/-- **C60 (part that holds).** The smaller of the two bounds kept for the root split is at most the
objective value of every saved term (up to tolerance): one setup step keeps this, whatever side it
chooses. Missing: that the bound of the *right* side is updated. -/
theorem root_bounds_step_partial {keep : Bool} {stats : List NStat} {orig var : ℕ} {way : ℤ}
    {value : ℚ} {ans : Option ℚ} {s s' : SaveSt}
    (h : setupTerm keep stats orig var way value ans s = .ok s')
    (hs : ∀ t ∈ s.D.terms, NotAbove s.boundD t.obj ∨ NotAbove s.boundU t.obj) :
    ∀ t ∈ s'.D.terms, NotAbove s'.boundD t.obj ∨ NotAbove s'.boundU t.obj := by
  have hd : (0 : ℚ) < defEps := by norm_num [defEps]
  have tr : ∀ {a b v : ℚ}, NotAbove b v → a ≤ b → NotAbove a v := fun h1 h2 => lt_of_le_of_lt h2 h1
  unfold setupTerm at h
  split at h
  · split at h
    · rename_i t r f ht hr hf
      dsimp only at h
      generalize (if f = true then decide (r.way ≤ 0) else !decide (r.way ≤ 0)) = dn at h
      have hfin : ∀ u ∈ s.D.terms ++ [t], u ∈ s.D.terms ∨ u = t := by
        intro u hu; simpa using hu
      cases dn
      · simp only [Bool.false_eq_true, if_false, Res.ok.injEq] at h
        subst h
        split
        · rename_i hlt
          rw [lessThanVal_iff] at hlt
          intro u hu
          rcases hfin u hu with hu | rfl
          · rcases hs u hu with h1 | h1
            · exact Or.inl h1
            · exact Or.inr (tr h1 (by simp only; linarith))
          · exact Or.inr (by unfold NotAbove; simp only; linarith)
        · rename_i hlt
          rw [lessThanVal_iff] at hlt
          intro u hu
          rcases hfin u hu with hu | rfl
          · exact hs u hu
          · exact Or.inr (by unfold NotAbove; simp only; push Not at hlt; linarith)
      · simp only [if_true, Res.ok.injEq] at h
        subst h
        split
        · rename_i hlt
          rw [lessThanVal_iff] at hlt
          intro u hu
          rcases hfin u hu with hu | rfl
          · rcases hs u hu with h1 | h1
            · exact Or.inl (tr h1 (by simp only; linarith))
            · exact Or.inr h1
          · exact Or.inl (by unfold NotAbove; simp only; linarith)
        · rename_i hlt
          rw [lessThanVal_iff] at hlt
          intro u hu
          rcases hfin u hu with hu | rfl
          · exact hs u hu
          · exact Or.inl (by unfold NotAbove; simp only; push Not at hlt; linarith)
    · cases h
  · simp only [Res.ok.injEq] at h; subst h; exact hs

/-- **C60 fails**: both children of the root are saved, with values 7 (down) and 9 (up), yet the bound
of the up branch is never set. -/
theorem root_bound_up_missing : ∃ r : SaveSt,
    saveInformation bbP 2 (bbInit bbP bbRoot) (bbInit bbP bbRoot).tree [] 2
      { bbEnv with lp := fun _ j _ => some (if j = 0 then 7 else 9) } = .ok (false, r) ∧
    r.D.terms.map (fun t => (t.obj, t.changes)) = [(7, [⟨0, 1, 2⟩]), (9, [⟨0, 0, 3⟩])] ∧
    r.boundD = 7 ∧ r.boundU = dblMax :=
  ⟨{ D := { numTerms := 2,
            terms := [{ obj := 7, changes := [⟨0, 1, 2⟩], feasible := true },
                      { obj := 9, changes := [⟨0, 0, 3⟩], feasible := true }],
            common := [⟨1, 1, 4⟩], rootObj := 1 },
     numLeaf := 2, boundD := 7 }, by decide +kernel, rfl, rfl, rfl⟩

end VPC
