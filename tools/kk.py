p='/verif/lean/Verif/Props/KahanErr.lean'
s=open(p).read()
s=s.replace("3 * (u * u * |p|) + 4 * (u * u * P) := by","3 * (u * u * |p|) + 7 / 2 * (u * u * P) := by")
s+='''
theorem kFold_inv {u : ℚ} {rnd : ℚ → ℚ} (hr : RelRnd u rnd) (hu : u ≤ 1 / 64) (l : List (ℚ × ℚ)) :
    ∀ {k : ℕ} {X P : ℚ} {s : DotAcc}, ((k + l.length : ℕ) : ℚ) * u ≤ 1 → KInv u k X P s →
      KInv u (k + l.length) (X + pSum l) (P + pAbs l) (kFold rnd l s) := by
  induction l with
  | nil => intro k X P s _ h; simpa [pSum, pAbs, kFold] using h
  | cons e l ih =>
    intro k X P s hk h
    have hk1 : (k : ℚ) * u ≤ 1 := by
      refine le_trans (mul_le_mul_of_nonneg_right ?_ hr.1) hk
      exact_mod_cast Nat.le_add_right k _
    have h1 := kInv_step hr hu hk1 h e.1 e.2
    have hlen : k + 1 + l.length = k + (e :: l).length := by simp; omega
    have h2 := ih (k := k + 1) (by rw [hlen]; exact hk) h1
    rw [hlen] at h2
    have e1 : X + pSum (e :: l) = X + e.1 * e.2 + pSum l := by simp [pSum, add_assoc]
    have e2 : P + pAbs (e :: l) = P + |e.1 * e.2| + pAbs l := by simp [pAbs, add_assoc]
    rw [e1, e2]
    exact h2

/-- The bound of the compensated loop: `6u` independent of the length, up to second order. -/
theorem kFold_error {u : ℚ} {rnd : ℚ → ℚ} (hr : RelRnd u rnd) (hu : u ≤ 1 / 64) (l : List (ℚ × ℚ))
    (hn : (l.length : ℚ) * u ≤ 1) :
    |(kFold rnd l ⟨0, 0⟩).acc - pSum l| ≤ (6 * u + 11 * l.length * u ^ 2) * pAbs l := by
  have h := kFold_inv hr hu l (k := 0) (X := 0) (P := 0) (s := ⟨0, 0⟩) (by simpa using hn)
    ⟨by simp, by simp, by simp⟩
  simp only [Nat.zero_add, zero_add] at h
  have e : (kFold rnd l ⟨0, 0⟩).acc - pSum l =
      ((kFold rnd l ⟨0, 0⟩).acc - (kFold rnd l ⟨0, 0⟩).comp - pSum l) + (kFold rnd l ⟨0, 0⟩).comp := by ring
  rw [e]
  refine (abs_add_le _ _).trans ?_
  have := h.err
  have := h.comp
  linarith

/-! ## The three loops are passes over lists of pairs -/

theorem dotDenseLoop_fold (rnd : ℚ → ℚ) (a b : List ℚ) : ∀ (n i : ℕ) (s : DotAcc), i + n ≤ a.length →
    i + n ≤ b.length →
    dotDenseLoop rnd true a b i n s = some (kFold rnd (((a.drop i).zip (b.drop i)).take n) s) := by
  intro n
  induction n with
  | zero => intro i s _ _; simp [dotDenseLoop, kFold]
  | succ n ih =>
    intro i s ha hb
    have hia : i < a.length := by omega
    have hib : i < b.length := by omega
    rw [dotDenseLoop, List.getElem?_eq_getElem hia, List.getElem?_eq_getElem hib]
    simp only []
    rw [ih (i + 1) _ (by omega) (by omega), List.drop_eq_getElem_cons hia, List.drop_eq_getElem_cons hib]
    simp [kFold]

theorem dotSparseDenseLoop_fold (rnd : ℚ → ℚ) (b : List ℚ) : ∀ (v : SVec) (s : DotAcc),
    (∀ e ∈ v, e.1 < b.length) →
    dotSparseDenseLoop rnd true b v s = some (kFold rnd (v.map fun e => (e.2, b.getD e.1 0)) s) := by
  intro v
  induction v with
  | nil => intro s _; simp [dotSparseDenseLoop, kFold]
  | cons e v ih =>
    intro s hv
    have e1 : b[e.1]? = some (b.getD e.1 0) := by
      rw [List.getD_eq_getElem?_getD, List.getElem?_eq_getElem (hv e (by simp))]; rfl
    rw [dotSparseDenseLoop, e1]
    simp only []
    rw [ih _ fun e' he' => hv e' (by simp [he'])]
    simp [kFold]

theorem dotSparseLoop_fold (rnd : ℚ → ℚ) (v w : SVec) : ∀ s : DotAcc,
    dotSparseLoop rnd true v w s = kFold rnd (matched v w) s := by
  induction v, w using matched.induct with
  | case1 w => intro s; simp [dotSparseLoop, matched, kFold]
  | case2 x v => intro s; simp [dotSparseLoop, matched, kFold]
  | case3 x v y w h ih => intro s; rw [dotSparseLoop, matched, if_pos h, if_pos h, ih]; simp [kFold]
  | case4 x v y w h h' ih => intro s; rw [dotSparseLoop, matched, if_neg h, if_neg h, if_pos h', if_pos h', ih]
  | case5 x v y w h h' ih => intro s; rw [dotSparseLoop, matched, if_neg h, if_neg h, if_neg h', if_neg h', ih]

theorem kFold_exact (l : List (ℚ × ℚ)) : ∀ s : DotAcc, s.comp = 0 →
    (kFold id l s).acc = s.acc + pSum l ∧ (kFold id l s).comp = 0 := by
  induction l with
  | nil => intro s h; simp [kFold, pSum, h]
  | cons e l ih =>
    intro s h
    have h1 : dotStep id true s e.1 e.2 = ⟨s.acc + e.1 * e.2, 0⟩ := by simp [dotStep, h]
    have h2 := ih ⟨s.acc + e.1 * e.2, 0⟩ rfl
    have e1 : kFold id (e :: l) s = kFold id l ⟨s.acc + e.1 * e.2, 0⟩ := by simp [kFold, h1]
    rw [e1]
    refine ⟨?_, h2.2⟩
    rw [h2.1]
    simp [pSum, add_assoc]

theorem matched_length (v w : SVec) : (matched v w).length ≤ v.length ∧ (matched v w).length ≤ w.length := by
  induction v, w using matched.induct with
  | case1 w => simp [matched]
  | case2 x v => simp [matched]
  | case3 x v y w h ih => rw [matched, if_pos h]; simp; omega
  | case4 x v y w h h' ih => rw [matched, if_neg h, if_pos h']; simp at *; omega
  | case5 x v y w h h' ih => rw [matched, if_neg h, if_neg h']; simp at *; omega

/-- The vector of the moduli. -/
def svAbs (v : SVec) : SVec := v.map fun e => (e.1, |e.2|)

theorem svAbs_sorted {v : SVec} (h : Sorted v) : Sorted (svAbs v) := by
  unfold Sorted svAbs
  rw [List.pairwise_map]
  exact h

theorem svAbs_scoef {v : SVec} (h : Sorted v) (i : ℕ) : scoef (svAbs v) i = |scoef v i| := by
  induction v with
  | nil => simp [svAbs, scoef]
  | cons e v ih =>
    have h2 : svAbs (e :: v) = (e.1, |e.2|) :: svAbs v := rfl
    rw [h2, scoef_cons, scoef_cons, ih h.tail]
    by_cases hi : e.1 = i
    · have h0 : scoef v i = 0 := by
        refine scoef_eq_zero fun e' he' => ?_
        have := h.lt e' he'
        omega
      simp [hi, h0]
    · simp [hi]

theorem matched_abs (v w : SVec) : matched (svAbs v) (svAbs w) = (matched v w).map fun e => (|e.1|, |e.2|) := by
  induction v, w using matched.induct with
  | case1 w => simp [svAbs, matched]
  | case2 x v => simp [svAbs, matched]
  | case3 x v y w h ih =>
    have h1 : svAbs (x :: v) = (x.1, |x.2|) :: svAbs v := rfl
    have h2 : svAbs (y :: w) = (y.1, |y.2|) :: svAbs w := rfl
    rw [h1, h2, matched, if_pos h, ih, matched.eq_def (x :: v) (y :: w)]
    simp [h]
  | case4 x v y w h h' ih =>
    have h1 : svAbs (x :: v) = (x.1, |x.2|) :: svAbs v := rfl
    have h2 : svAbs (y :: w) = (y.1, |y.2|) :: svAbs w := rfl
    rw [h1, h2, matched, if_neg h, if_pos h', ← h2, ih, matched.eq_def (x :: v) (y :: w)]
    simp [h, h']
  | case5 x v y w h h' ih =>
    have h1 : svAbs (x :: v) = (x.1, |x.2|) :: svAbs v := rfl
    have h2 : svAbs (y :: w) = (y.1, |y.2|) :: svAbs w := rfl
    rw [h1, h2, matched, if_neg h, if_neg h', ← h1, ih, matched.eq_def (x :: v) (y :: w)]
    simp [h, h']

end VPC
'''
open(p,'w').write(s)
