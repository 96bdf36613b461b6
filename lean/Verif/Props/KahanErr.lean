import Mathlib.Algebra.Order.BigOperators.Group.Finset
import Verif.Model.Float
import Verif.Props.VecOps

/-!
# Rounding error of the dot products (C131)
-/
namespace VPC

/-! ## The rounding of the machine -/

theorem rne_err (q : ℚ) : |(rne q : ℚ) - q| ≤ 1 / 2 := by
  have h0 := Int.floor_le q
  have h1 := Int.lt_floor_add_one q
  unfold rne
  rw [abs_le]
  split
  · constructor <;> linarith
  · split
    · push_cast; constructor <;> linarith
    · split
      · constructor <;> linarith
      · push_cast; constructor <;> linarith

/-- Rounding to `p` binary digits has relative error at most `2⁻ᵖ`, for every rational number. -/
theorem fl_relRnd (p : ℕ) : RelRnd (1 / 2 ^ p) (fl p) := by
  refine ⟨by positivity, fun x => ?_⟩
  unfold fl
  split
  · next h => simp [h]
  · next h =>
    have hx : 0 < |x| := abs_pos.mpr h
    have hl : ((2 : ℕ) : ℚ) ^ Int.log 2 |x| ≤ |x| := Int.zpow_log_le_self (by norm_num) hx
    push_cast at hl
    generalize Int.log 2 |x| = L at *
    have hE : (0 : ℚ) < 2 ^ (L + 1 - (p : ℤ)) := zpow_pos (by norm_num) _
    have e1 : (rne (x / 2 ^ (L + 1 - (p : ℤ))) : ℚ) * 2 ^ (L + 1 - (p : ℤ)) - x =
        ((rne (x / 2 ^ (L + 1 - (p : ℤ))) : ℚ) - x / 2 ^ (L + 1 - (p : ℤ))) * 2 ^ (L + 1 - (p : ℤ)) := by
      field_simp
    rw [e1, abs_mul, abs_of_pos hE]
    have h2 := mul_le_mul_of_nonneg_right (rne_err (x / 2 ^ (L + 1 - (p : ℤ)))) hE.le
    refine h2.trans ?_
    have e2 : (1 / 2 : ℚ) * 2 ^ (L + 1 - (p : ℤ)) = 1 / 2 ^ p * 2 ^ L := by
      rw [show L + 1 - (p : ℤ) = L + 1 + (-(p : ℤ)) by ring, zpow_add₀ (by norm_num), zpow_add₀ (by norm_num),
        zpow_neg, zpow_natCast]
      ring
    rw [e2]
    exact mul_le_mul_of_nonneg_left hl (by positivity)

example : fl 3 (9 / 8) = 1 ∧ fl 3 (11 / 8) = 3 / 2 ∧ fl 3 (-5 / 3) = -7 / 4 ∧ fl 3 100 = 96 ∧ fl 3 0 = 0 := by
  decide +kernel

/-! ## One pass over a list of pairs -/

/-- Exact sum of the products. -/
def pSum (l : List (ℚ × ℚ)) : ℚ := (l.map fun e => e.1 * e.2).sum

/-- Sum of the moduli of the products. -/
def pAbs (l : List (ℚ × ℚ)) : ℚ := (l.map fun e => |e.1 * e.2|).sum

/-- The compensated loop over a list of pairs. -/
def kFold (rnd : ℚ → ℚ) (l : List (ℚ × ℚ)) (s : DotAcc) : DotAcc :=
  l.foldl (fun s e => dotStep rnd true s e.1 e.2) s

/-- What holds after `k` terms: `X` is the exact sum, `P` the sum of the moduli. -/
structure KInv (u : ℚ) (k : ℕ) (X P : ℚ) (s : DotAcc) : Prop where
  sum : |X| ≤ P
  comp : |s.comp| ≤ 3 * u * P
  err : |s.acc - s.comp - X| ≤ (3 * u + 11 * k * u ^ 2) * P

theorem KInv.acc {u : ℚ} {k : ℕ} {X P : ℚ} {s : DotAcc} (h : KInv u k X P s) (hu0 : 0 ≤ u) (hu : u ≤ 1 / 64)
    (hk : k * u ≤ 1) : |s.acc| ≤ 2 * P := by
  have hP : 0 ≤ P := (abs_nonneg _).trans h.sum
  have e : s.acc = (s.acc - s.comp - X) + (s.comp + X) := by ring
  have h1 : |s.acc| ≤ |s.acc - s.comp - X| + (|s.comp| + |X|) := by
    conv_lhs => rw [e]
    exact (abs_add_le _ _).trans (add_le_add_right (abs_add_le _ _) _)
  have h2 : 11 * k * u ^ 2 ≤ 11 * u := by nlinarith
  have h3 : (3 * u + 11 * k * u ^ 2) * P ≤ (14 * u) * P := mul_le_mul_of_nonneg_right (by linarith) hP
  have h4 : u * P ≤ 1 / 64 * P := mul_le_mul_of_nonneg_right hu hP
  linarith [h.sum, h.comp, h.err]

theorem RelRnd.bd {u : ℚ} {rnd : ℚ → ℚ} (h : RelRnd u rnd) (x : ℚ) : |rnd x| ≤ (1 + u) * |x| := by
  have h1 := h.2 x
  have : |rnd x| ≤ |rnd x - x| + |x| := by
    have := abs_add_le (rnd x - x) x
    rwa [sub_add_cancel] at this
  linarith

theorem kInv_step {u : ℚ} {rnd : ℚ → ℚ} (hr : RelRnd u rnd) (hu : u ≤ 1 / 64) {k : ℕ} (hk : k * u ≤ 1)
    {X P : ℚ} {s : DotAcc} (h : KInv u k X P s) (a b : ℚ) :
    KInv u (k + 1) (X + a * b) (P + |a * b|) (dotStep rnd true s a b) := by
  have hu0 := hr.1
  have hP : 0 ≤ P := (abs_nonneg _).trans h.sum
  have hs := h.acc hu0 hu hk
  generalize hp : a * b = p
  have hp0 := abs_nonneg p
  -- the quantities of the step
  obtain ⟨x, hx⟩ : ∃ x, x = rnd p := ⟨_, rfl⟩
  obtain ⟨y, hy⟩ : ∃ y, y = rnd (x - s.comp) := ⟨_, rfl⟩
  obtain ⟨t, ht⟩ : ∃ t, t = rnd (s.acc + y) := ⟨_, rfl⟩
  obtain ⟨d, hd⟩ : ∃ d, d = rnd (t - s.acc) := ⟨_, rfl⟩
  obtain ⟨c, hc⟩ : ∃ c, c = rnd (d - y) := ⟨_, rfl⟩
  have hstep : dotStep rnd true s a b = ⟨t, c⟩ := by
    simp [dotStep, hp, ← hx, ← hy, ← ht, ← hd, ← hc]
  rw [hstep]
  have bx : |x| ≤ (1 + u) * |p| := hx ▸ hr.bd p
  have by' : |y| ≤ (1 + u) * (|x| + |s.comp|) := by
    have := hr.bd (x - s.comp)
    rw [← hy] at this
    refine this.trans (mul_le_mul_of_nonneg_left (abs_sub _ _) (by linarith))
  have bsy : |s.acc + y| ≤ |s.acc| + |y| := abs_add_le _ _
  -- errors of the five roundings
  have e1 : |x - p| ≤ u * |p| := hx ▸ hr.2 p
  have e2 : |y - (x - s.comp)| ≤ u * (|x| + |s.comp|) := by
    have := hr.2 (x - s.comp)
    rw [← hy] at this
    exact this.trans (mul_le_mul_of_nonneg_left (abs_sub _ _) hu0)
  have e3 : |t - (s.acc + y)| ≤ u * (|s.acc| + |y|) := by
    have := hr.2 (s.acc + y)
    rw [← ht] at this
    exact this.trans (mul_le_mul_of_nonneg_left bsy hu0)
  have bts : |t - s.acc| ≤ |y| + u * (|s.acc| + |y|) := by
    have : t - s.acc = (t - (s.acc + y)) + y := by ring
    rw [this]
    exact (abs_add_le _ _).trans (by linarith)
  have e4 : |d - (t - s.acc)| ≤ u * (|y| + u * (|s.acc| + |y|)) := by
    have := hr.2 (t - s.acc)
    rw [← hd] at this
    exact this.trans (mul_le_mul_of_nonneg_left bts hu0)
  have bdy : |d - y| ≤ u * (|y| + u * (|s.acc| + |y|)) + u * (|s.acc| + |y|) := by
    have : d - y = (d - (t - s.acc)) + (t - (s.acc + y)) := by ring
    rw [this]
    exact (abs_add_le _ _).trans (add_le_add e4 e3)
  have e5 : |c - (d - y)| ≤ u * (u * (|y| + u * (|s.acc| + |y|)) + u * (|s.acc| + |y|)) := by
    have := hr.2 (d - y)
    rw [← hc] at this
    exact this.trans (mul_le_mul_of_nonneg_left bdy hu0)
  have bc : |c| ≤ (1 + u) * (u * (|y| + u * (|s.acc| + |y|)) + u * (|s.acc| + |y|)) := by
    have := hr.bd (d - y)
    rw [← hc] at this
    exact this.trans (mul_le_mul_of_nonneg_left bdy (by linarith))
  have hcomp := h.comp
  have herr := h.err
  -- bounds in terms of |p| and P
  have uu : u * u ≤ 1 / 64 * u := mul_le_mul_of_nonneg_right hu hu0
  have Y : |y| ≤ 34 / 32 * |p| + 33 / 320 * P := by
    have q1 : |x| ≤ 65 / 64 * |p| := bx.trans (mul_le_mul_of_nonneg_right (by linarith) hp0)
    have q2 : |s.comp| ≤ 3 / 64 * P := hcomp.trans (mul_le_mul_of_nonneg_right (by linarith) hP)
    have q3 : |y| ≤ 65 / 64 * (|x| + |s.comp|) :=
      by' |>.trans (mul_le_mul_of_nonneg_right (by linarith) (by positivity))
    linarith
  have y0 := abs_nonneg y
  have s0 := abs_nonneg s.acc
  have x1 : u * |x| ≤ u * |p| + u * u * |p| := (mul_le_mul_of_nonneg_left bx hu0).trans (le_of_eq (by ring))
  have c1 : u * |s.comp| ≤ 3 * (u * u * P) := (mul_le_mul_of_nonneg_left hcomp hu0).trans (le_of_eq (by ring))
  have vA : 0 ≤ u * u * |p| := by positivity
  have vP : 0 ≤ u * u * P := by positivity
  have wA : u * (u * u * |p|) ≤ 1 / 64 * (u * u * |p|) := mul_le_mul_of_nonneg_right hu vA
  have wP : u * (u * u * P) ≤ 1 / 64 * (u * u * P) := mul_le_mul_of_nonneg_right hu vP
  have y1 : u * |y| ≤ (1 + u) * (u * |x| + u * |s.comp|) := (mul_le_mul_of_nonneg_left by' hu0).trans (le_of_eq (by ring))
  have y1' : u * |y| ≤ u * |p| + 3 * (u * u * |p|) + 7 / 2 * (u * u * P) := by
    have : (1 + u) * (u * |x| + u * |s.comp|) ≤ (1 + u) * (u * |p| + u * u * |p| + 3 * (u * u * P)) :=
      mul_le_mul_of_nonneg_left (by linarith) (by linarith)
    have e : (1 + u) * (u * |p| + u * u * |p| + 3 * (u * u * P)) = u * |p| + 2 * (u * u * |p|) +
        u * (u * u * |p|) + 3 * (u * u * P) + 3 * (u * (u * u * P)) := by ring
    linarith
  have y2 : u * u * |y| ≤ 34 / 32 * (u * u * |p|) + 33 / 320 * (u * u * P) := (mul_le_mul_of_nonneg_left Y (mul_nonneg hu0 hu0)).trans (le_of_eq (by ring))
  have s2 : u * u * |s.acc| ≤ 2 * (u * u * P) := (mul_le_mul_of_nonneg_left hs (mul_nonneg hu0 hu0)).trans (le_of_eq (by ring))
  have uA : 0 ≤ u * |p| := by positivity
  have uP : 0 ≤ u * P := by positivity
  have y3 : u * |y| ≤ 34 / 32 * (u * |p|) + 33 / 320 * (u * P) := (mul_le_mul_of_nonneg_left Y hu0).trans (le_of_eq (by ring))
  have s3 : u * |s.acc| ≤ 2 * (u * P) := (mul_le_mul_of_nonneg_left hs hu0).trans (le_of_eq (by ring))
  have vv0 : 0 ≤ u * (|s.acc| + |y|) := by positivity
  have vv1 : u * (u * (|s.acc| + |y|)) ≤ 1 / 64 * (u * (|s.acc| + |y|)) := mul_le_mul_of_nonneg_right hu vv0
  refine ⟨?_, ?_, ?_⟩
  · exact (abs_add_le _ _).trans (by linarith [h.sum])
  · show |c| ≤ 3 * u * (P + |p|)
    refine bc.trans ?_
    have q : u * (|y| + u * (|s.acc| + |y|)) + u * (|s.acc| + |y|) ≤
        u * |y| + 65 / 64 * (u * |s.acc| + u * |y|) := by
      have e : u * (|y| + u * (|s.acc| + |y|)) = u * |y| + u * (u * (|s.acc| + |y|)) := by ring
      have e' : u * (|s.acc| + |y|) = u * |s.acc| + u * |y| := by ring
      rw [e]
      linarith
    have q0 : 0 ≤ u * |y| + 65 / 64 * (u * |s.acc| + u * |y|) := by positivity
    have q1 : (1 + u) * (u * (|y| + u * (|s.acc| + |y|)) + u * (|s.acc| + |y|)) ≤
        65 / 64 * (u * |y| + 65 / 64 * (u * |s.acc| + u * |y|)) := by
      refine (mul_le_mul_of_nonneg_left q (by linarith)).trans ?_
      exact mul_le_mul_of_nonneg_right (by linarith) q0
    refine q1.trans ?_
    have : 3 * u * (P + |p|) = 3 * (u * P) + 3 * (u * |p|) := by ring
    rw [this]
    linarith
  · show |t - c - (X + p)| ≤ (3 * u + 11 * ((k + 1 : ℕ) : ℚ) * u ^ 2) * (P + |p|)
    have e : t - c - (X + p) = (s.acc - s.comp - X) + (y - (x - s.comp)) + (x - p) + (-(d - (t - s.acc)))
        + (-(c - (d - y))) := by ring
    rw [e]
    have tri : |(s.acc - s.comp - X) + (y - (x - s.comp)) + (x - p) + (-(d - (t - s.acc)))
        + (-(c - (d - y)))| ≤ |s.acc - s.comp - X| + |y - (x - s.comp)| + |x - p| + |d - (t - s.acc)|
          + |c - (d - y)| := by
      refine (abs_add_le _ _).trans ?_
      rw [abs_neg]
      refine add_le_add_left ((abs_add_le _ _).trans ?_) _
      rw [abs_neg]
      refine add_le_add_left ((abs_add_le _ _).trans ?_) _
      exact add_le_add_left (abs_add_le _ _) _
    refine tri.trans ?_
    have q4 : |d - (t - s.acc)| ≤ u * |y| + (u * u * |s.acc| + u * u * |y|) := by
      refine e4.trans (le_of_eq (by ring))
    have q5 : |c - (d - y)| ≤ u * u * |y| + 65 / 64 * (u * u * |s.acc| + u * u * |y|) := by
      refine e5.trans ?_
      have z0 : 0 ≤ u * u * |s.acc| + u * u * |y| := by positivity
      have z1 : u * (u * u * |s.acc| + u * u * |y|) ≤ 1 / 64 * (u * u * |s.acc| + u * u * |y|) :=
        mul_le_mul_of_nonneg_right hu z0
      have e : u * (u * (|y| + u * (|s.acc| + |y|)) + u * (|s.acc| + |y|)) = u * u * |y| +
          u * (u * u * |s.acc| + u * u * |y|) + (u * u * |s.acc| + u * u * |y|) := by ring
      linarith
    have q2 : |y - (x - s.comp)| ≤ u * |x| + u * |s.comp| := e2.trans (le_of_eq (by ring))
    have k0 : (0 : ℚ) ≤ k := Nat.cast_nonneg k
    have kA : 0 ≤ (k : ℚ) * (u * u * |p|) := mul_nonneg k0 vA
    have fin : (3 * u + 11 * ((k + 1 : ℕ) : ℚ) * u ^ 2) * (P + |p|) =
        (3 * u + 11 * k * u ^ 2) * P + 11 * (u * u * P) + 3 * (u * |p|) + 11 * ((k : ℚ) * (u * u * |p|))
          + 11 * (u * u * |p|) := by push_cast; ring
    rw [fin]
    linarith

theorem kFold_inv {u : ℚ} {rnd : ℚ → ℚ} (hr : RelRnd u rnd) (hu : u ≤ 1 / 64) (l : List (ℚ × ℚ)) :
    ∀ {k : ℕ} {X P : ℚ} {s : DotAcc}, ((k + l.length : ℕ) : ℚ) * u ≤ 1 → KInv u k X P s →
      KInv u (k + l.length) (X + pSum l) (P + pAbs l) (kFold rnd l s) := by
  induction l with
  | nil => intro k X P s _ h; simpa [pSum, pAbs, kFold] using h
  | cons e l ih =>
    intro k X P s hk h
    have hk1 : (k : ℚ) * u ≤ 1 := by
      refine le_trans (mul_le_mul_of_nonneg_right ?_ hr.1) hk
      exact_mod_cast Nat.le_add_right k _
    have h1 := kInv_step hr hu hk1 h e.1 e.2
    have hlen : k + 1 + l.length = k + (e :: l).length := by simp; omega
    have h2 := ih (k := k + 1) (by rw [hlen]; exact hk) h1
    rw [hlen] at h2
    have e1 : X + pSum (e :: l) = X + e.1 * e.2 + pSum l := by simp [pSum, add_assoc]
    have e2 : P + pAbs (e :: l) = P + |e.1 * e.2| + pAbs l := by simp [pAbs, add_assoc]
    rw [e1, e2]
    exact h2

/-- The bound of the compensated loop: `6u` independent of the length, up to second order. -/
theorem kFold_error {u : ℚ} {rnd : ℚ → ℚ} (hr : RelRnd u rnd) (hu : u ≤ 1 / 64) (l : List (ℚ × ℚ))
    (hn : (l.length : ℚ) * u ≤ 1) :
    |(kFold rnd l ⟨0, 0⟩).acc - pSum l| ≤ (6 * u + 11 * l.length * u ^ 2) * pAbs l := by
  have h := kFold_inv hr hu l (k := 0) (X := 0) (P := 0) (s := ⟨0, 0⟩) (by simpa using hn)
    ⟨by simp, by simp, by simp⟩
  simp only [Nat.zero_add, zero_add] at h
  have e : (kFold rnd l ⟨0, 0⟩).acc - pSum l =
      ((kFold rnd l ⟨0, 0⟩).acc - (kFold rnd l ⟨0, 0⟩).comp - pSum l) + (kFold rnd l ⟨0, 0⟩).comp := by ring
  rw [e]
  refine (abs_add_le _ _).trans ?_
  have := h.err
  have := h.comp
  linarith

/-! ## The three loops are passes over lists of pairs -/

theorem dotDenseLoop_fold (rnd : ℚ → ℚ) (a b : List ℚ) : ∀ (n i : ℕ) (s : DotAcc), i + n ≤ a.length →
    i + n ≤ b.length →
    dotDenseLoop rnd true a b i n s = some (kFold rnd (((a.drop i).zip (b.drop i)).take n) s) := by
  intro n
  induction n with
  | zero => intro i s _ _; simp [dotDenseLoop, kFold]
  | succ n ih =>
    intro i s ha hb
    have hia : i < a.length := by omega
    have hib : i < b.length := by omega
    rw [dotDenseLoop, List.getElem?_eq_getElem hia, List.getElem?_eq_getElem hib]
    simp only []
    have e1 : ((a.drop i).zip (b.drop i)).take (n + 1) =
        (a[i], b[i]) :: ((a.drop (i + 1)).zip (b.drop (i + 1))).take n := by
      rw [List.drop_eq_getElem_cons hia, List.drop_eq_getElem_cons hib, List.zip_cons_cons, List.take_succ_cons]
    rw [ih (i + 1) _ (by omega) (by omega), e1]
    rfl

theorem dotSparseDenseLoop_fold (rnd : ℚ → ℚ) (b : List ℚ) : ∀ (v : SVec) (s : DotAcc),
    (∀ e ∈ v, e.1 < b.length) →
    dotSparseDenseLoop rnd true b v s = some (kFold rnd (v.map fun e => (e.2, b.getD e.1 0)) s) := by
  intro v
  induction v with
  | nil => intro s _; simp [dotSparseDenseLoop, kFold]
  | cons e v ih =>
    intro s hv
    have e1 : b[e.1]? = some (b.getD e.1 0) := by
      rw [List.getD_eq_getElem?_getD, List.getElem?_eq_getElem (hv e (by simp))]; rfl
    rw [dotSparseDenseLoop, e1]
    simp only []
    rw [ih _ fun e' he' => hv e' (by simp [he'])]
    simp [kFold]

theorem dotSparseLoop_fold (rnd : ℚ → ℚ) (v w : SVec) : ∀ s : DotAcc,
    dotSparseLoop rnd true v w s = kFold rnd (matched v w) s := by
  induction v, w using matched.induct with
  | case1 w => intro s; simp [dotSparseLoop, matched, kFold]
  | case2 x v => intro s; simp [dotSparseLoop, matched, kFold]
  | case3 x v y w h ih => intro s; rw [dotSparseLoop, matched, if_pos h, if_pos h, ih]; simp [kFold]
  | case4 x v y w h h' ih => intro s; rw [dotSparseLoop, matched, if_neg h, if_neg h, if_pos h', if_pos h', ih]
  | case5 x v y w h h' ih => intro s; rw [dotSparseLoop, matched, if_neg h, if_neg h, if_neg h', if_neg h', ih]

theorem kFold_exact (l : List (ℚ × ℚ)) : ∀ s : DotAcc, s.comp = 0 →
    (kFold id l s).acc = s.acc + pSum l ∧ (kFold id l s).comp = 0 := by
  induction l with
  | nil => intro s h; simp [kFold, pSum, h]
  | cons e l ih =>
    intro s h
    have h1 : dotStep id true s e.1 e.2 = ⟨s.acc + e.1 * e.2, 0⟩ := by simp [dotStep, h]
    have h2 := ih ⟨s.acc + e.1 * e.2, 0⟩ rfl
    have e1 : kFold id (e :: l) s = kFold id l ⟨s.acc + e.1 * e.2, 0⟩ := by simp [kFold, h1]
    rw [e1]
    refine ⟨?_, h2.2⟩
    rw [h2.1]
    simp [pSum, add_assoc]

theorem matched_length (v w : SVec) : (matched v w).length ≤ v.length ∧ (matched v w).length ≤ w.length := by
  induction v, w using matched.induct with
  | case1 w => simp [matched]
  | case2 x v => simp [matched]
  | case3 x v y w h ih => rw [matched, if_pos h]; simp; omega
  | case4 x v y w h h' ih => rw [matched, if_neg h, if_pos h']; simp at *; omega
  | case5 x v y w h h' ih => rw [matched, if_neg h, if_neg h']; simp at *; omega

/-- The vector of the moduli. -/
def svAbs (v : SVec) : SVec := v.map fun e => (e.1, |e.2|)

theorem svAbs_sorted {v : SVec} (h : Sorted v) : Sorted (svAbs v) := by
  unfold Sorted svAbs
  rw [List.pairwise_map]
  exact h

theorem svAbs_scoef {v : SVec} (h : Sorted v) (i : ℕ) : scoef (svAbs v) i = |scoef v i| := by
  induction v with
  | nil => simp [svAbs, scoef]
  | cons e v ih =>
    have h2 : svAbs (e :: v) = (e.1, |e.2|) :: svAbs v := rfl
    rw [h2, scoef_cons, scoef_cons, ih h.tail]
    by_cases hi : e.1 = i
    · have h0 : scoef v i = 0 := by
        refine scoef_eq_zero_of_forall_ne fun e' he' => ?_
        have := h.lt e' he'
        omega
      simp [hi, h0]
    · simp [hi]

theorem matched_abs (v w : SVec) : matched (svAbs v) (svAbs w) = (matched v w).map fun e => (|e.1|, |e.2|) := by
  induction v, w using matched.induct with
  | case1 w => simp [svAbs, matched]
  | case2 x v => simp [svAbs, matched]
  | case3 x v y w h ih =>
    have h1 : svAbs (x :: v) = (x.1, |x.2|) :: svAbs v := rfl
    have h2 : svAbs (y :: w) = (y.1, |y.2|) :: svAbs w := rfl
    rw [h1, h2, matched, if_pos h, ih, matched.eq_def (x :: v) (y :: w)]
    simp [h]
  | case4 x v y w h h' ih =>
    have h1 : svAbs (x :: v) = (x.1, |x.2|) :: svAbs v := rfl
    have h2 : svAbs (y :: w) = (y.1, |y.2|) :: svAbs w := rfl
    rw [h1, h2, matched, if_neg h, if_pos h', ← h2, ih, matched.eq_def (x :: v) (y :: w)]
    simp [h, h']
  | case5 x v y w h h' ih =>
    have h1 : svAbs (x :: v) = (x.1, |x.2|) :: svAbs v := rfl
    have h2 : svAbs (y :: w) = (y.1, |y.2|) :: svAbs w := rfl
    rw [h1, h2, matched, if_neg h, if_neg h', ← h1, ih, matched.eq_def (x :: v) (y :: w)]
    simp [h, h']

/-! ## The bounds for the routines -/

theorem pSum_zip (a b : List ℚ) (n : ℕ) (ha : n ≤ a.length) (hb : n ≤ b.length) (f : ℚ → ℚ → ℚ) :
    (((a.zip b).take n).map fun e => f e.1 e.2).sum = ∑ i ∈ Finset.range n, f (a.getD i 0) (b.getD i 0) := by
  induction n generalizing a b with
  | zero => simp
  | succ n ih =>
    match a, b, ha, hb with
    | x :: a, y :: b, ha, hb =>
      simp only [List.length_cons] at ha hb
      rw [List.zip_cons_cons, List.take_succ_cons, List.map_cons, List.sum_cons, ih a b (by omega) (by omega),
        Finset.sum_range_succ']
      simp [add_comm]

/-- **C131 (dense).** The compensated dot product of two arrays has error at most
`(6u + 11 n u²) Σ |aᵢ bᵢ|` for every length `n` up to `1/u`: to first order it does not grow with the length. -/
theorem dotDense_kahan_error {u : ℚ} {rnd : ℚ → ℚ} (hr : RelRnd u rnd) (hu : u ≤ 1 / 64) (a b : List ℚ) (n : ℕ)
    (ha : n ≤ a.length) (hb : n ≤ b.length) (hn : (n : ℚ) * u ≤ 1) :
    ∃ r, dotDense rnd true a b n = some r ∧
      |r - ∑ i ∈ Finset.range n, a.getD i 0 * b.getD i 0| ≤
        (6 * u + 11 * n * u ^ 2) * ∑ i ∈ Finset.range n, |a.getD i 0 * b.getD i 0| := by
  have h1 := dotDenseLoop_fold rnd a b n 0 ⟨0, 0⟩ (by omega) (by omega)
  simp only [List.drop_zero] at h1
  have hlen : ((a.zip b).take n).length = n := by simp; omega
  have h2 := kFold_error hr hu ((a.zip b).take n) (by rw [hlen]; exact hn)
  rw [hlen] at h2
  have e1 : pSum ((a.zip b).take n) = ∑ i ∈ Finset.range n, a.getD i 0 * b.getD i 0 :=
    pSum_zip a b n ha hb fun x y => x * y
  have e2 : pAbs ((a.zip b).take n) = ∑ i ∈ Finset.range n, |a.getD i 0 * b.getD i 0| :=
    pSum_zip a b n ha hb fun x y => |x * y|
  rw [e1, e2] at h2
  exact ⟨_, by simp [dotDense, h1], h2⟩

/-- **C131 (packed vector and array).** -/
theorem dotSparseDense_kahan_error {u : ℚ} {rnd : ℚ → ℚ} (hr : RelRnd u rnd) (hu : u ≤ 1 / 64) (v : SVec)
    (b : List ℚ) (hv : ∀ e ∈ v, e.1 < b.length) (hn : (v.length : ℚ) * u ≤ 1) :
    ∃ r, dotSparseDense rnd true v b = some r ∧
      |r - (v.map fun e => e.2 * b.getD e.1 0).sum| ≤
        (6 * u + 11 * v.length * u ^ 2) * (v.map fun e => |e.2 * b.getD e.1 0|).sum := by
  have h1 := dotSparseDenseLoop_fold rnd b v ⟨0, 0⟩ hv
  have h2 := kFold_error hr hu (v.map fun e => (e.2, b.getD e.1 0)) (by simpa using hn)
  have e1 : pSum (v.map fun e => (e.2, b.getD e.1 0)) = (v.map fun e => e.2 * b.getD e.1 0).sum := by
    simp [pSum, Function.comp_def]
  have e2 : pAbs (v.map fun e => (e.2, b.getD e.1 0)) = (v.map fun e => |e.2 * b.getD e.1 0|).sum := by
    simp only [pAbs, List.map_map, Function.comp_def]
  rw [e1, e2, List.length_map] at h2
  exact ⟨_, by simp [dotSparseDense, h1], h2⟩

/-- **C131 (two packed vectors).** For vectors with increasing indices below `n`. -/
theorem dotSparse_kahan_error {u : ℚ} {rnd : ℚ → ℚ} (hr : RelRnd u rnd) (hu : u ≤ 1 / 64) (v w : SVec)
    (hv : Sorted v) (hw : Sorted w) (n : ℕ) (hn : ∀ e ∈ v, e.1 < n) (hl : (v.length : ℚ) * u ≤ 1) :
    |dotSparse rnd true v w - ∑ i ∈ Finset.range n, scoef v i * scoef w i| ≤
      (6 * u + 11 * v.length * u ^ 2) * ∑ i ∈ Finset.range n, |scoef v i * scoef w i| := by
  have hm := (matched_length v w).1
  have hmq : ((matched v w).length : ℚ) ≤ v.length := by exact_mod_cast hm
  have h2 := kFold_error hr hu (matched v w) ((mul_le_mul_of_nonneg_right hmq hr.1).trans hl)
  have e1 : pSum (matched v w) = ∑ i ∈ Finset.range n, scoef v i * scoef w i := by
    rw [← dotSparse_exact true v w hv hw n hn, dotSparse, dotSparseLoop_fold, (kFold_exact _ _ rfl).1]
    simp
  have e2 : pAbs (matched v w) = ∑ i ∈ Finset.range n, |scoef v i * scoef w i| := by
    have h3 : ∀ e ∈ svAbs v, e.1 < n := by
      intro e he
      obtain ⟨e', he', rfl⟩ := List.mem_map.mp he
      exact hn e' he'
    have h4 := dotSparse_exact true (svAbs v) (svAbs w) (svAbs_sorted hv) (svAbs_sorted hw) n h3
    rw [dotSparse, dotSparseLoop_fold, (kFold_exact _ _ rfl).1, matched_abs] at h4
    have h5 : pAbs (matched v w) = pSum ((matched v w).map fun e => (|e.1|, |e.2|)) := by
      simp only [pAbs, pSum, List.map_map, Function.comp_def, abs_mul]
    rw [h5]
    simp only [zero_add] at h4
    rw [h4]
    exact Finset.sum_congr rfl fun i _ => by rw [svAbs_scoef hv, svAbs_scoef hw, abs_mul]
  rw [dotSparse, dotSparseLoop_fold]
  rw [e1, e2] at h2
  refine h2.trans (mul_le_mul_of_nonneg_right ?_ (Finset.sum_nonneg fun _ _ => abs_nonneg _))
  have := mul_le_mul_of_nonneg_right hmq (sq_nonneg u)
  linarith

/-- **C131 (doubles).** With the arithmetic of `double` (no overflow or underflow) and up to `2^53` entries. -/
theorem dotDense_double_error (a b : List ℚ) (n : ℕ) (ha : n ≤ a.length) (hb : n ≤ b.length) (hn : n ≤ 2 ^ 53) :
    ∃ r, dotDense (fl 53) true a b n = some r ∧
      |r - ∑ i ∈ Finset.range n, a.getD i 0 * b.getD i 0| ≤
        (6 / 2 ^ 53 + 11 * n / 2 ^ 106) * ∑ i ∈ Finset.range n, |a.getD i 0 * b.getD i 0| := by
  have hnq : (n : ℚ) ≤ 2 ^ 53 := by exact_mod_cast hn
  obtain ⟨r, h1, h2⟩ := dotDense_kahan_error (fl_relRnd 53) (by norm_num) a b n ha hb (by
    rw [mul_one_div, div_le_one (by positivity)]; exact hnq)
  refine ⟨r, h1, h2.trans (le_of_eq ?_)⟩
  congr 1
  ring

/-- **C131 (no cancellation).** If no product is negative, the relative error of the result is at most
`6u + 11 n u²`. -/
theorem dotDense_kahan_relative {u : ℚ} {rnd : ℚ → ℚ} (hr : RelRnd u rnd) (hu : u ≤ 1 / 64) (a b : List ℚ) (n : ℕ)
    (ha : n ≤ a.length) (hb : n ≤ b.length) (hn : (n : ℚ) * u ≤ 1)
    (h0 : ∀ i < n, 0 ≤ a.getD i 0 * b.getD i 0) :
    ∃ r, dotDense rnd true a b n = some r ∧
      |r - ∑ i ∈ Finset.range n, a.getD i 0 * b.getD i 0| ≤
        (6 * u + 11 * n * u ^ 2) * ∑ i ∈ Finset.range n, a.getD i 0 * b.getD i 0 := by
  obtain ⟨r, h1, h2⟩ := dotDense_kahan_error hr hu a b n ha hb hn
  refine ⟨r, h1, ?_⟩
  rwa [Finset.sum_congr rfl fun i hi => abs_of_nonneg (h0 i (Finset.mem_range.mp hi))] at h2

/-- Twenty terms of `2⁻¹⁰` after a term 1, in arithmetic with ten binary digits. -/
def kahanEx : List ℚ := 1 :: List.replicate 20 (1 / 1024)

/-- **C131 (compensation is needed).** The version without compensation violates the bound. -/
theorem dot_plain_worse :
    ∃ r, dotDense (fl 10) false kahanEx (List.replicate 21 1) 21 = some r ∧
      (6 * (1 / 2 ^ 10) + 11 * 21 * (1 / 2 ^ 10) ^ 2) *
        ∑ i ∈ Finset.range 21, |kahanEx.getD i 0 * (List.replicate 21 (1 : ℚ)).getD i 0| <
      |r - ∑ i ∈ Finset.range 21, kahanEx.getD i 0 * (List.replicate 21 (1 : ℚ)).getD i 0| :=
  ⟨1, by decide +kernel, by decide +kernel⟩

example : (1 / 2 ^ 10 : ℚ) ≤ 1 / 64 ∧ ((21 : ℕ) : ℚ) * (1 / 2 ^ 10) ≤ 1 ∧ 21 ≤ kahanEx.length ∧
    dotDense (fl 10) true kahanEx (List.replicate 21 1) 21 = some (1 + 20 / 1024) := by
  decide +kernel

/-- **C131 (zeros count).** With rounding the forms need not agree: an array with zeros and the packed vector of its
nonzero entries can give different numbers, since a zero product still adds the compensation. -/
theorem dot_forms_differ :
    dotDense (fl 3) true [7, 14, 0] [1, 1, 1] 3 = some 24 ∧
      dotSparseDense (fl 3) true [(0, 7), (1, 14)] [1, 1, 1] = some 20 := by
  decide +kernel

/-! ## Integer data -/

theorem rne_int (m : ℤ) : rne (m : ℚ) = m := by simp [rne]

/-- Every integer of at most `p` binary digits is a number of the machine. -/
theorem fl_int (p : ℕ) (hp : 1 ≤ p) (m : ℤ) (hm : |m| ≤ 2 ^ p) : fl p (m : ℚ) = m := by
  unfold fl
  split
  · next h => exact h.symm
  · next h =>
    have hx : 0 < |(m : ℚ)| := abs_pos.mpr h
    have hl : ((2 : ℕ) : ℚ) ^ Int.log 2 |(m : ℚ)| ≤ |(m : ℚ)| := Int.zpow_log_le_self (by norm_num) hx
    have hl2 : |(m : ℚ)| < ((2 : ℕ) : ℚ) ^ (Int.log 2 |(m : ℚ)| + 1) := Int.lt_zpow_succ_log_self (by norm_num) _
    push_cast at hl hl2
    generalize Int.log 2 |(m : ℚ)| = L at *
    have hmq : |(m : ℚ)| ≤ 2 ^ (p : ℤ) := by
      rw [zpow_natCast]; exact_mod_cast hm
    have hL : L ≤ p := by
      by_contra hc
      push Not at hc
      have := zpow_lt_zpow_right₀ (a := (2 : ℚ)) (by norm_num) hc
      linarith
    have hne : (2 : ℚ) ^ (L + 1 - (p : ℤ)) ≠ 0 := zpow_ne_zero _ (by norm_num)
    have key : ∃ j : ℤ, (m : ℚ) / 2 ^ (L + 1 - (p : ℤ)) = j := by
      rcases hL.lt_or_eq with h1 | h1
      · obtain ⟨k, hk⟩ : ∃ k : ℕ, (p : ℤ) - L - 1 = k := ⟨_, (Int.toNat_of_nonneg (by omega)).symm⟩
        refine ⟨m * 2 ^ k, ?_⟩
        rw [div_eq_iff hne, show L + 1 - (p : ℤ) = -(k : ℤ) by omega, zpow_neg, zpow_natCast]
        push_cast
        field_simp
      · subst h1
        have h2 : |m| = 2 ^ p := by
          rw [zpow_natCast] at hl
          exact le_antisymm hm (by exact_mod_cast hl)
        have h3 : (2 : ℤ) ∣ m := by
          rw [← dvd_abs, h2]
          exact dvd_pow_self 2 (by omega)
        obtain ⟨j, rfl⟩ := h3
        refine ⟨j, ?_⟩
        rw [show (p : ℤ) + 1 - p = 1 by ring, zpow_one]
        push_cast
        field_simp
    obtain ⟨j, hj⟩ := key
    rw [hj, rne_int, ← hj, div_mul_cancel₀ _ hne]

theorem kFold_int {rnd : ℚ → ℚ} {N : ℤ} (hr : ∀ m : ℤ, |m| ≤ N → rnd m = m) (l : List (ℤ × ℤ)) :
    ∀ z : ℤ, |z| + (l.map fun e => |e.1 * e.2|).sum ≤ N →
      kFold rnd (l.map fun e => ((e.1 : ℚ), (e.2 : ℚ))) ⟨z, 0⟩ = ⟨((z + (l.map fun e => e.1 * e.2).sum : ℤ) : ℚ), 0⟩ := by
  induction l with
  | nil => intro z _; simp [kFold]
  | cons e l ih =>
    intro z hz
    simp only [List.map_cons, List.sum_cons] at hz
    have hnn : 0 ≤ (l.map fun e => |e.1 * e.2|).sum :=
      List.sum_nonneg fun x hx => by obtain ⟨_, _, rfl⟩ := List.mem_map.mp hx; exact abs_nonneg _
    have z0 := abs_nonneg z
    have p0 := abs_nonneg (e.1 * e.2)
    have b1 : rnd ((e.1 : ℚ) * e.2) = ((e.1 * e.2 : ℤ) : ℚ) := by
      have := hr (e.1 * e.2) (by omega)
      push_cast at this ⊢
      exact this
    have b2 : rnd (((e.1 * e.2 : ℤ) : ℚ)) = ((e.1 * e.2 : ℤ) : ℚ) := hr _ (by omega)
    have b3 : rnd ((z : ℚ) + ((e.1 * e.2 : ℤ) : ℚ)) = ((z + e.1 * e.2 : ℤ) : ℚ) := by
      have := hr (z + e.1 * e.2) ((abs_add_le _ _).trans (by omega))
      push_cast at this ⊢
      exact this
    have b4 : rnd (0 : ℚ) = 0 := by simpa using hr 0 (by simp; omega)
    have hs : dotStep rnd true ⟨z, 0⟩ (e.1 : ℚ) (e.2 : ℚ) = ⟨((z + e.1 * e.2 : ℤ) : ℚ), 0⟩ := by
      have b5 : ((z + e.1 * e.2 : ℤ) : ℚ) - z = ((e.1 * e.2 : ℤ) : ℚ) := by push_cast; ring
      simp only [dotStep, b1, sub_zero, b2, b3, b5, sub_self, b4, if_true]
    have h1 : kFold rnd ((e :: l).map fun e => ((e.1 : ℚ), (e.2 : ℚ))) ⟨z, 0⟩ =
        kFold rnd (l.map fun e => ((e.1 : ℚ), (e.2 : ℚ))) ⟨((z + e.1 * e.2 : ℤ) : ℚ), 0⟩ := by
      simp only [kFold, List.map_cons, List.foldl_cons]
      rw [hs]
    rw [h1, ih (z + e.1 * e.2) (by have := abs_add_le z (e.1 * e.2); omega)]
    simp [add_assoc]

/-- **C131 (integers).** With the arithmetic of `double`, the dot product of a packed vector of integers and an array
of integers is exact as long as the sum of the moduli of the products does not exceed `2^53`. -/
theorem dotSparseDense_double_int (v : List (ℕ × ℤ)) (b : List ℤ) (hv : ∀ e ∈ v, e.1 < b.length)
    (hN : (v.map fun e => |e.2 * b.getD e.1 0|).sum ≤ 2 ^ 53) :
    dotSparseDense (fl 53) true (v.map fun e => (e.1, (e.2 : ℚ))) (b.map (Int.cast : ℤ → ℚ)) =
      some (((v.map fun e => e.2 * b.getD e.1 0).sum : ℤ) : ℚ) := by
  have h1 := dotSparseDenseLoop_fold (fl 53) (b.map (Int.cast : ℤ → ℚ)) (v.map fun e => (e.1, (e.2 : ℚ))) ⟨0, 0⟩ (by
    intro e he
    obtain ⟨e', he', rfl⟩ := List.mem_map.mp he
    simpa using hv e' he')
  have h2 := kFold_int (N := 2 ^ 53) (fl_int 53 (by norm_num)) (v.map fun e => (e.2, b.getD e.1 0)) 0 (by
    simpa [List.map_map, Function.comp_def] using hN)
  have e1 : ((v.map fun e => (e.1, (e.2 : ℚ))).map fun e => (e.2, (b.map (Int.cast : ℤ → ℚ)).getD e.1 0)) =
      ((v.map fun e => (e.2, b.getD e.1 0)).map fun e => ((e.1 : ℚ), (e.2 : ℚ))) := by
    simp only [List.map_map, Function.comp_def]
    refine List.map_congr_left fun e _ => ?_
    simp [List.getD_eq_getElem?_getD]
    cases b[e.1]? <;> simp
  rw [e1] at h1
  simp only [Int.cast_zero] at h2
  rw [dotSparseDense, h1, h2]
  simp [List.map_map, Function.comp_def]

example : (∀ e ∈ [(0, (3 : ℤ)), (2, -5)], e.1 < [(2 : ℤ), 7, 4].length) ∧
    ([(0, (3 : ℤ)), (2, -5)].map fun e => |e.2 * [(2 : ℤ), 7, 4].getD e.1 0|).sum ≤ 2 ^ 53 := by decide

/-- Beyond `2^p` integers are no longer exact (here with 3 digits). -/
theorem fl_int_sharp : fl 3 9 = 8 ∧ fl 3 8 = 8 := by
  decide +kernel

end VPC
