p='/verif/lean/Verif/Props/KahanErr.lean'
s=open(p).read()
s=s.replace('''    rw [ih (i + 1) _ (by omega) (by omega), List.drop_eq_getElem_cons hia, List.drop_eq_getElem_cons hib]
    simp [kFold]
''','''    have e1 : ((a.drop i).zip (b.drop i)).take (n + 1) =
        (a[i], b[i]) :: ((a.drop (i + 1)).zip (b.drop (i + 1))).take n := by
      rw [List.drop_eq_getElem_cons hia, List.drop_eq_getElem_cons hib, List.zip_cons_cons, List.take_succ_cons]
    rw [ih (i + 1) _ (by omega) (by omega), e1]
    rfl
''')
s=s.replace('''        refine scoef_eq_zero fun e' he' => ?_
        have := h.lt e' he'
        omega''','''        refine scoef_eq_zero_of_forall_ne fun e' he' => ?_
        have := h.lt e' he'
        omega''')
i=s.rindex('end VPC')
s=s[:i]+'''/-! ## The bounds for the routines -/

theorem pSum_zip (a b : List ℚ) (n : ℕ) (ha : n ≤ a.length) (hb : n ≤ b.length) (f : ℚ → ℚ → ℚ) :
    (((a.zip b).take n).map fun e => f e.1 e.2).sum = ∑ i ∈ Finset.range n, f (a.getD i 0) (b.getD i 0) := by
  induction n generalizing a b with
  | zero => simp
  | succ n ih =>
    match a, b, ha, hb with
    | x :: a, y :: b, ha, hb =>
      simp only [List.length_cons] at ha hb
      rw [List.zip_cons_cons, List.take_succ_cons, List.map_cons, List.sum_cons, ih a b (by omega) (by omega),
        Finset.sum_range_succ']
      simp [add_comm]

/-- **C131 (dense).** The compensated dot product of two arrays has error at most
`(6u + 11 n u²) Σ |aᵢ bᵢ|` for every length `n` up to `1/u`: to first order it does not grow with the length. -/
theorem dotDense_kahan_error {u : ℚ} {rnd : ℚ → ℚ} (hr : RelRnd u rnd) (hu : u ≤ 1 / 64) (a b : List ℚ) (n : ℕ)
    (ha : n ≤ a.length) (hb : n ≤ b.length) (hn : (n : ℚ) * u ≤ 1) :
    ∃ r, dotDense rnd true a b n = some r ∧
      |r - ∑ i ∈ Finset.range n, a.getD i 0 * b.getD i 0| ≤
        (6 * u + 11 * n * u ^ 2) * ∑ i ∈ Finset.range n, |a.getD i 0 * b.getD i 0| := by
  have h1 := dotDenseLoop_fold rnd a b n 0 ⟨0, 0⟩ (by omega) (by omega)
  simp only [List.drop_zero] at h1
  have hlen : ((a.zip b).take n).length = n := by simp; omega
  have h2 := kFold_error hr hu ((a.zip b).take n) (by rw [hlen]; exact hn)
  rw [hlen] at h2
  have e1 : pSum ((a.zip b).take n) = ∑ i ∈ Finset.range n, a.getD i 0 * b.getD i 0 :=
    pSum_zip a b n ha hb fun x y => x * y
  have e2 : pAbs ((a.zip b).take n) = ∑ i ∈ Finset.range n, |a.getD i 0 * b.getD i 0| :=
    pSum_zip a b n ha hb fun x y => |x * y|
  rw [e1, e2] at h2
  exact ⟨_, by simp [dotDense, h1], h2⟩

/-- **C131 (packed vector and array).** -/
theorem dotSparseDense_kahan_error {u : ℚ} {rnd : ℚ → ℚ} (hr : RelRnd u rnd) (hu : u ≤ 1 / 64) (v : SVec)
    (b : List ℚ) (hv : ∀ e ∈ v, e.1 < b.length) (hn : (v.length : ℚ) * u ≤ 1) :
    ∃ r, dotSparseDense rnd true v b = some r ∧
      |r - (v.map fun e => e.2 * b.getD e.1 0).sum| ≤
        (6 * u + 11 * v.length * u ^ 2) * (v.map fun e => |e.2 * b.getD e.1 0|).sum := by
  have h1 := dotSparseDenseLoop_fold rnd b v ⟨0, 0⟩ hv
  have h2 := kFold_error hr hu (v.map fun e => (e.2, b.getD e.1 0)) (by simpa using hn)
  have e1 : pSum (v.map fun e => (e.2, b.getD e.1 0)) = (v.map fun e => e.2 * b.getD e.1 0).sum := by
    simp [pSum, Function.comp_def]
  have e2 : pAbs (v.map fun e => (e.2, b.getD e.1 0)) = (v.map fun e => |e.2 * b.getD e.1 0|).sum := by
    simp only [pAbs, List.map_map, Function.comp_def]
  rw [e1, e2, List.length_map] at h2
  exact ⟨_, by simp [dotSparseDense, h1], h2⟩

/-- **C131 (two packed vectors).** For vectors with increasing indices below `n`. -/
theorem dotSparse_kahan_error {u : ℚ} {rnd : ℚ → ℚ} (hr : RelRnd u rnd) (hu : u ≤ 1 / 64) (v w : SVec)
    (hv : Sorted v) (hw : Sorted w) (n : ℕ) (hn : ∀ e ∈ v, e.1 < n) (hl : (v.length : ℚ) * u ≤ 1) :
    |dotSparse rnd true v w - ∑ i ∈ Finset.range n, scoef v i * scoef w i| ≤
      (6 * u + 11 * v.length * u ^ 2) * ∑ i ∈ Finset.range n, |scoef v i * scoef w i| := by
  have hm := (matched_length v w).1
  have hmq : ((matched v w).length : ℚ) ≤ v.length := by exact_mod_cast hm
  have h2 := kFold_error hr hu (matched v w) ((mul_le_mul_of_nonneg_right hmq hr.1).trans hl)
  have e1 : pSum (matched v w) = ∑ i ∈ Finset.range n, scoef v i * scoef w i := by
    rw [← dotSparse_exact true v w hv hw n hn, dotSparse, dotSparseLoop_fold, (kFold_exact _ _ rfl).1]
    simp
  have e2 : pAbs (matched v w) = ∑ i ∈ Finset.range n, |scoef v i * scoef w i| := by
    have h3 : ∀ e ∈ svAbs v, e.1 < n := by
      intro e he
      obtain ⟨e', he', rfl⟩ := List.mem_map.mp he
      exact hn e' he'
    have h4 := dotSparse_exact true (svAbs v) (svAbs w) (svAbs_sorted hv) (svAbs_sorted hw) n h3
    rw [dotSparse, dotSparseLoop_fold, (kFold_exact _ _ rfl).1, matched_abs] at h4
    have h5 : pAbs (matched v w) = pSum ((matched v w).map fun e => (|e.1|, |e.2|)) := by
      simp only [pAbs, pSum, List.map_map, Function.comp_def, abs_mul]
    rw [h5]
    simp only [zero_add] at h4
    rw [h4]
    exact Finset.sum_congr rfl fun i _ => by rw [svAbs_scoef hv, svAbs_scoef hw, abs_mul]
  rw [dotSparse, dotSparseLoop_fold]
  rw [e1, e2] at h2
  refine h2.trans (mul_le_mul_of_nonneg_right ?_ (Finset.sum_nonneg fun _ _ => abs_nonneg _))
  have := mul_le_mul_of_nonneg_right hmq (sq_nonneg u)
  linarith

/-- **C131 (doubles).** With the arithmetic of `double` (no overflow or underflow) and up to `2^53` entries. -/
theorem dotDense_double_error (a b : List ℚ) (n : ℕ) (ha : n ≤ a.length) (hb : n ≤ b.length) (hn : n ≤ 2 ^ 53) :
    ∃ r, dotDense (fl 53) true a b n = some r ∧
      |r - ∑ i ∈ Finset.range n, a.getD i 0 * b.getD i 0| ≤
        (6 / 2 ^ 53 + 11 * n / 2 ^ 106) * ∑ i ∈ Finset.range n, |a.getD i 0 * b.getD i 0| := by
  have hnq : (n : ℚ) ≤ 2 ^ 53 := by exact_mod_cast hn
  obtain ⟨r, h1, h2⟩ := dotDense_kahan_error (fl_relRnd 53) (by norm_num) a b n ha hb (by
    rw [mul_one_div, div_le_one (by positivity)]; exact hnq)
  refine ⟨r, h1, h2.trans (le_of_eq ?_)⟩
  congr 1
  ring

/-- **C131 (no cancellation).** If no product is negative, the relative error of the result is at most
`6u + 11 n u²`. -/
theorem dotDense_kahan_relative {u : ℚ} {rnd : ℚ → ℚ} (hr : RelRnd u rnd) (hu : u ≤ 1 / 64) (a b : List ℚ) (n : ℕ)
    (ha : n ≤ a.length) (hb : n ≤ b.length) (hn : (n : ℚ) * u ≤ 1)
    (h0 : ∀ i < n, 0 ≤ a.getD i 0 * b.getD i 0) :
    ∃ r, dotDense rnd true a b n = some r ∧
      |r - ∑ i ∈ Finset.range n, a.getD i 0 * b.getD i 0| ≤
        (6 * u + 11 * n * u ^ 2) * ∑ i ∈ Finset.range n, a.getD i 0 * b.getD i 0 := by
  obtain ⟨r, h1, h2⟩ := dotDense_kahan_error hr hu a b n ha hb hn
  refine ⟨r, h1, ?_⟩
  rwa [Finset.sum_congr rfl fun i hi => abs_of_nonneg (h0 i (Finset.mem_range.mp hi))] at h2

/-- Twenty terms of `2⁻¹⁰` after a term 1, in arithmetic with ten binary digits. -/
def kahanEx : List ℚ := 1 :: List.replicate 20 (1 / 1024)

/-- **C131 (compensation is needed).** The version without compensation violates the bound. -/
theorem dot_plain_worse :
    ∃ r, dotDense (fl 10) false kahanEx (List.replicate 21 1) 21 = some r ∧
      (6 * (1 / 2 ^ 10) + 11 * 21 * (1 / 2 ^ 10) ^ 2) *
        ∑ i ∈ Finset.range 21, |kahanEx.getD i 0 * (List.replicate 21 (1 : ℚ)).getD i 0| <
      |r - ∑ i ∈ Finset.range 21, kahanEx.getD i 0 * (List.replicate 21 (1 : ℚ)).getD i 0| :=
  ⟨1, by decide +kernel, by decide +kernel⟩

example : (1 / 2 ^ 10 : ℚ) ≤ 1 / 64 ∧ ((21 : ℕ) : ℚ) * (1 / 2 ^ 10) ≤ 1 ∧ 21 ≤ kahanEx.length ∧
    dotDense (fl 10) true kahanEx (List.replicate 21 1) 21 = some (1 + 20 / 1024) := by
  decide +kernel

/-- **C131 (zeros count).** With rounding the forms need not agree: an array with zeros and the packed vector of its
nonzero entries can give different numbers, since a zero product still adds the compensation. -/
theorem dot_forms_differ :
    dotDense (fl 3) true [4, 1 / 2, 1 / 2, 0] [1, 1, 1, 1] 4 ≠
      dotSparseDense (fl 3) true [(0, 4), (1, 1 / 2), (2, 1 / 2)] [1, 1, 1, 1] := by
  decide +kernel

end VPC
'''
open(p,'w').write(s)
