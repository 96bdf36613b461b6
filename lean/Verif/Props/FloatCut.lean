import Verif.Model.FloatCut
import Verif.Props.KahanErr
import Verif.Props.NBCut
import Verif.Props.CutsOff

/-!
# Rounding errors in the cut that is handed out (C157)
-/
namespace VPC

open Finset

/-! ## Specification -/

/-- The usual constant of error analysis: the relative error of a sum of which no term goes through more than `m`
operations. -/
def gam (u : ℚ) (m : ℕ) : ℚ := (1 + u) ^ m - 1

/-- Modulus of the entries of a row in column `k`. -/
def absAt : SVec → ℕ → ℚ
  | [], _ => 0
  | e :: v, k => (if e.1 = k then |e.2| else 0) + absAt v k

/-- Sum of the moduli of what the pairs (nonbasic variable, coefficient) contribute to the coefficient of column `k`: the
coefficient itself for the column, and the coefficient times the entry of the row for a slack. -/
def contribAbs (lp : LP) (pairs : List (ℕ × ℚ)) (k : ℕ) : ℚ :=
  (pairs.map fun p => if p.1 < lp.numCols then (if p.1 = k then |p.2| else 0)
    else absAt (lp.rows (p.1 - lp.numCols)) k * |p.2|).sum

/-- The value at which a nonbasic variable is: the bound of a column, the right-hand side of a row. -/
def boundOf (lp : LP) (var : ℕ) : ℚ :=
  if var < lp.numCols then
    match lp.colStat var with
    | .atUpper => lp.colUpper var
    | .atLower => lp.colLower var
    | .other => 0
  else lp.rhs (var - lp.numCols)

/-- Sum of the moduli of what the pairs contribute to the right-hand side. -/
def rhsAbs (lp : LP) (pairs : List (ℕ × ℚ)) : ℚ := (pairs.map fun p => |boundOf lp p.1| * |p.2|).sum

/-- What is removed in cleaning, in moduli: the coefficients below the tolerance times the bound by which they are
replaced. -/
def removedAbs (l u : Vec) (EC : ℚ) (row : SVec) : ℚ :=
  (row.map fun e => if |e.2| ≤ EC ∧ e.2 < 0 ∧ isNegInfinity (l e.1) = false then |e.2 * l e.1|
    else if |e.2| ≤ EC ∧ 0 < e.2 ∧ isInfinity (u e.1) = false then |e.2 * u e.1| else 0).sum

/-! ## One sum -/

theorem gam_nonneg {u : ℚ} (hu : 0 ≤ u) (m : ℕ) : 0 ≤ gam u m := by
  have := one_le_pow₀ (show (1 : ℚ) ≤ 1 + u by linarith) (n := m)
  unfold gam; linarith

theorem gam_mono {u : ℚ} (hu : 0 ≤ u) {m m' : ℕ} (h : m ≤ m') : gam u m ≤ gam u m' := by
  have := pow_le_pow_right₀ (show (1 : ℚ) ≤ 1 + u by linarith) h
  unfold gam; linarith

/-- `t` is the sum `s` computed in floating point: relative error after at most `m` operations, `A` the sum of the moduli. -/
structure Near (u : ℚ) (m : ℕ) (A s t : ℚ) : Prop where
  err : |t - s| ≤ gam u m * A
  mag : |s| ≤ A

theorem Near.nonneg (h : Near u m A s t) : 0 ≤ A := (abs_nonneg _).trans h.mag

theorem Near.mono (hu : 0 ≤ u) (h : Near u m A s t) {m' : ℕ} {A' : ℚ} (hm : m ≤ m') (hA : A ≤ A') : Near u m' A' s t :=
  ⟨h.err.trans (mul_le_mul (gam_mono hu hm) hA h.nonneg (gam_nonneg hu m')), h.mag.trans hA⟩

theorem Near.exact (hu : 0 ≤ u) (hA : |s| ≤ A) : Near u m A s s :=
  ⟨by rw [sub_self, abs_zero]; exact mul_nonneg (gam_nonneg hu m) ((abs_nonneg _).trans hA), hA⟩

theorem Near.step (hr : RelRnd u rnd) (h : Near u m A s t) (hm : 1 ≤ m) {p q : ℚ} (hq : |q - p| ≤ u * |p|) :
    Near u (m + 1) (A + |p|) (s + p) (rnd (t + q)) := by
  have hu := hr.1
  refine ⟨?_, (abs_add_le _ _).trans (by linarith [h.mag])⟩
  have h1 := hr.2 (t + q)
  have hA := h.nonneg
  have hp := abs_nonneg p
  have ht : |t| ≤ (1 + u) ^ m * A := by
    have := abs_add_le s (t - s)
    rw [show s + (t - s) = t by ring] at this
    have h2 := h.err
    have h3 := h.mag
    unfold gam at h2
    linarith
  have hq1 : |q| ≤ (1 + u) * |p| := by
    have := abs_add_le p (q - p)
    rw [show p + (q - p) = q by ring] at this
    linarith
  have htq : |t + q| ≤ (1 + u) ^ m * A + (1 + u) * |p| := (abs_add_le _ _).trans (add_le_add ht hq1)
  have h4 : |rnd (t + q) - (s + p)| ≤ |rnd (t + q) - (t + q)| + |t - s| + |q - p| := by
    rw [show rnd (t + q) - (s + p) = (rnd (t + q) - (t + q)) + (t - s) + (q - p) by ring]
    exact (abs_add_le _ _).trans (add_le_add (abs_add_le _ _) le_rfl)
  have h5 := mul_le_mul_of_nonneg_left htq hu
  have h6 := h.err
  have h7 : (1 + u) ^ 2 ≤ (1 + u) ^ (m + 1) := pow_le_pow_right₀ (by linarith) (by omega)
  have h8 := mul_le_mul_of_nonneg_right h7 hp
  unfold gam at h6 ⊢
  have e1 : ((1 + u) ^ (m + 1) - 1) * (A + |p|) = u * ((1 + u) ^ m * A) + ((1 + u) ^ m - 1) * A + ((1 + u) ^ (m + 1) * |p| - |p|) := by
    ring
  rw [e1]
  have e2 : u * ((1 + u) ^ m * A + (1 + u) * |p|) = u * ((1 + u) ^ m * A) + ((1 + u) ^ 2 * |p| - |p| - u * |p|) := by ring
  linarith

/-! ## One row -/

theorem absAt_notMem {v : SVec} {k : ℕ} (h : k ∉ v.map (·.1)) : absAt v k = 0 := by
  induction v with
  | nil => rfl
  | cons e v ih =>
    simp only [List.map_cons, List.mem_cons, not_or] at h
    unfold absAt
    rw [if_neg (fun h' => h.1 h'.symm), ih h.2, add_zero]

theorem absAt_nonneg (v : SVec) (k : ℕ) : 0 ≤ absAt v k := by
  induction v with
  | nil => exact le_rfl
  | cons e v ih => unfold absAt; split <;> positivity

theorem addScaled_notMem {v : SVec} {k : ℕ} (h : k ∉ v.map (·.1)) (d : Vec) (m : ℚ) : addScaled d v m k = d k := by
  induction v generalizing d with
  | nil => rfl
  | cons e v ih =>
    simp only [List.map_cons, List.mem_cons, not_or] at h
    show addScaled (fun k => if k = e.1 then d k + m * e.2 else d k) v m k = d k
    rw [ih h.2, if_neg h.1]

theorem addScaledR_notMem {v : SVec} {k : ℕ} (h : k ∉ v.map (·.1)) (rnd : ℚ → ℚ) (d : Vec) (m val : ℚ) :
    addScaledR rnd d v m val k = d k := by
  induction v generalizing d with
  | nil => rfl
  | cons e v ih =>
    simp only [List.map_cons, List.mem_cons, not_or] at h
    show addScaledR rnd (fun k => if k = e.1 then rnd (d k + rnd (m * e.2 * val)) else d k) v m val k = d k
    rw [ih h.2, if_neg h.1]

theorem addScaledR_near (hr : RelRnd u rnd) (hm : 1 ≤ m) {v : SVec} (hv : (v.map (·.1)).Nodup) {mult val : ℚ}
    (hmult : |mult| = 1) {d dR : Vec} {k : ℕ} (h : Near u m A (d k) (dR k)) :
    Near u (m + 1) (A + absAt v k * |val|) (addScaled d v (mult * val) k) (addScaledR rnd dR v mult val k) := by
  induction v generalizing d dR with
  | nil => exact h.mono hr.1 (by omega) (by simp [absAt])
  | cons e v ih =>
    rw [List.map_cons, List.nodup_cons] at hv
    show Near u (m + 1) _ (addScaled (fun k => if k = e.1 then d k + mult * val * e.2 else d k) v (mult * val) k)
      (addScaledR rnd (fun k => if k = e.1 then rnd (dR k + rnd (mult * e.2 * val)) else dR k) v mult val k)
    by_cases hk : k = e.1
    · subst hk
      rw [addScaled_notMem hv.1, addScaledR_notMem hv.1, if_pos rfl, if_pos rfl]
      unfold absAt
      rw [if_pos rfl, absAt_notMem hv.1, add_zero]
      have h1 := h.step hr hm (p := mult * val * e.2) (q := rnd (mult * e.2 * val)) (by
        rw [show mult * val * e.2 = mult * e.2 * val by ring]; exact hr.2 _)
      have e1 : |mult * val * e.2| = |e.2| * |val| := by rw [abs_mul, abs_mul, hmult]; ring
      rwa [e1] at h1
    · unfold absAt
      rw [if_neg (fun h' => hk h'.symm), zero_add]
      exact ih hv.2 (by rw [if_neg hk, if_neg hk]; exact h)

/-! ## The loop over the nonbasic variables -/

theorem scStepR_near (hr : RelRnd u rnd) (hm : 1 ≤ m) {lp : LP} (hc : ∀ r, ((lp.rows r).map (·.1)).Nodup)
    {st sR : SCState} (var : ℕ) (val : ℚ) {A : ℕ → ℚ} {B : ℚ} (h : ∀ k, Near u m (A k) (st.coeff k) (sR.coeff k))
    (hB : Near u m B st.rhs sR.rhs) :
    (∀ k, Near u (m + 1) (A k + contribAbs lp [(var, val)] k) ((scStep lp st var val).coeff k)
      ((scStepR rnd lp sR var val).coeff k)) ∧
    Near u (m + 1) (B + rhsAbs lp [(var, val)]) (scStep lp st var val).rhs (scStepR rnd lp sR var val).rhs := by
  have hu := hr.1
  have hneg : ∀ p : ℚ, |(-rnd p) - (-p)| ≤ u * |(-p)| := fun p => by
    rw [abs_neg, show -rnd p - -p = -(rnd p - p) by ring, abs_neg]; exact hr.2 p
  unfold contribAbs rhsAbs boundOf scStep scStepR
  simp only [List.map_cons, List.map_nil, List.sum_cons, List.sum_nil, add_zero]
  by_cases hv : var < lp.numCols
  · simp only [if_pos hv]
    have hk : ∀ (w : ℚ), |w| = |val| → ∀ k, Near u (m + 1) (A k + if var = k then |val| else 0)
        (if k = var then w else st.coeff k) (if k = var then w else sR.coeff k) := by
      intro w hw k
      by_cases hk : k = var
      · rw [if_pos hk, if_pos hk, if_pos hk.symm]
        exact Near.exact hu (by rw [hw]; linarith [(h k).nonneg])
      · rw [if_neg hk, if_neg hk, if_neg (fun h' => hk h'.symm)]
        exact (h k).mono hu (by omega) (by simp)
    cases lp.colStat var with
    | atUpper =>
      refine ⟨hk (-val) (abs_neg _), ?_⟩
      have h1 := hB.step hr hm (hneg (val * lp.colUpper var))
      have e1 : |(-(val * lp.colUpper var))| = |lp.colUpper var| * |val| := by rw [abs_neg, abs_mul]; ring
      rwa [e1, ← sub_eq_add_neg, ← sub_eq_add_neg] at h1
    | atLower =>
      refine ⟨hk val rfl, ?_⟩
      have h1 := hB.step hr hm (hr.2 (val * lp.colLower var))
      have e1 : |val * lp.colLower var| = |lp.colLower var| * |val| := by rw [abs_mul]; ring
      rwa [e1] at h1
    | other => exact ⟨hk val rfl, hB.mono hu (by omega) (by simp)⟩
  · simp only [if_neg hv]
    have hmul : |(if lp.sense (var - lp.numCols) = Sense.G then (1 : ℚ) else -1)| = 1 := by split <;> simp
    refine ⟨fun k => addScaledR_near hr hm (hc _) hmul (h k), ?_⟩
    have h1 := hB.step hr hm (hr.2 ((if lp.sense (var - lp.numCols) = Sense.G then (1 : ℚ) else -1) *
      lp.rhs (var - lp.numCols) * val))
    have e1 : |(if lp.sense (var - lp.numCols) = Sense.G then (1 : ℚ) else -1) * lp.rhs (var - lp.numCols) * val| =
        |lp.rhs (var - lp.numCols)| * |val| := by rw [abs_mul, abs_mul, hmul, one_mul]
    rwa [e1] at h1

theorem sc_foldR_near (hr : RelRnd u rnd) {lp : LP} (hc : ∀ r, ((lp.rows r).map (·.1)).Nodup)
    (ps : List (ℕ × ℚ)) (hm : 1 ≤ m) {st sR : SCState} {A : ℕ → ℚ} {B : ℚ}
    (h : ∀ k, Near u m (A k) (st.coeff k) (sR.coeff k)) (hB : Near u m B st.rhs sR.rhs) :
    (∀ k, Near u (m + ps.length) (A k + contribAbs lp ps k) ((ps.foldl (fun st p => scStep lp st p.1 p.2) st).coeff k)
      ((ps.foldl (fun st p => scStepR rnd lp st p.1 p.2) sR).coeff k)) ∧
    Near u (m + ps.length) (B + rhsAbs lp ps) (ps.foldl (fun st p => scStep lp st p.1 p.2) st).rhs
      (ps.foldl (fun st p => scStepR rnd lp st p.1 p.2) sR).rhs := by
  induction ps generalizing m st sR A B with
  | nil => exact ⟨fun k => by simpa [contribAbs] using h k, by simpa [rhsAbs] using hB⟩
  | cons p ps ih =>
    obtain ⟨h1, h2⟩ := scStepR_near hr hm hc p.1 p.2 h hB
    obtain ⟨h3, h4⟩ := ih (by omega) h1 h2
    simp only [List.foldl_cons, List.length_cons]
    have e : m + 1 + ps.length = m + (ps.length + 1) := by omega
    rw [e] at h3 h4
    constructor
    · intro k
      have := h3 k
      unfold contribAbs at this ⊢
      simpa [add_assoc] using this
    · unfold rhsAbs at h4 ⊢
      simpa [add_assoc] using h4

/-! ## The cut -/

/-- **C157, deriving a cut.** The slack of the cut computed in floating-point arithmetic differs at every point from the
slack of the inequality in the nonbasic space by no more than the rounding errors of its coefficients and right-hand side,
and the coefficients that are not stored. -/
theorem derived_slack_error (hr : RelRnd u rnd) {lp : LP} (hc : ∀ r, ((lp.rows r).map (·.1)).Nodup) {nz : List ℕ}
    {coeff : List ℚ} {beta EPS : ℚ} (hE : 0 ≤ EPS) {nbVar : List ℕ}
    (ho : NBOrder lp ((scPairs lp.numCols nz coeff nbVar).map (·.1))) (x : Vec) :
    |violAt (setCutFromNBCoefficientsR rnd lp nz coeff beta nbVar EPS) x -
        (beta - nbDot lp (scPairs lp.numCols nz coeff nbVar) x)| ≤
      gam u ((scPairs lp.numCols nz coeff nbVar).length + 1) *
        (∑ k ∈ range lp.numCols, contribAbs lp (scPairs lp.numCols nz coeff nbVar) k * |x k| +
          (|beta| + rhsAbs lp (scPairs lp.numCols nz coeff nbVar))) +
      EPS * ∑ k ∈ range lp.numCols, |x k| := by
  set ps := scPairs lp.numCols nz coeff nbVar with hps
  have he := sc_fold_exact lp x ps beta ho
  simp only at he
  obtain ⟨h1, h2⟩ := sc_foldR_near hr hc ps (le_refl 1) (st := { coeff := fun _ => 0, rhs := beta })
    (sR := { coeff := fun _ => 0, rhs := beta }) (A := fun _ => 0) (B := |beta|)
    (fun _ => Near.exact hr.1 (by simp)) (Near.exact hr.1 le_rfl)
  rw [Nat.add_comm] at h2
  simp only [zero_add, Nat.add_comm 1] at h1
  set st := ps.foldl (fun st p => scStep lp st p.1 p.2) { coeff := fun _ => 0, rhs := beta } with hst
  set sR := ps.foldl (fun st p => scStepR rnd lp st p.1 p.2) { coeff := fun _ => 0, rhs := beta } with hsR
  have hv : violAt (setCutFromNBCoefficientsR rnd lp nz coeff beta nbVar EPS) x =
      sR.rhs - ∑ k ∈ range lp.numCols, (if |sR.coeff k| < EPS then 0 else sR.coeff k * x k) := by
    rw [← setOsiRowCut_sdot lp.numCols sR.coeff x sR.rhs EPS]
    rfl
  have hk : ∀ k ∈ range lp.numCols, |(if |sR.coeff k| < EPS then 0 else sR.coeff k * x k) - st.coeff k * x k| ≤
      gam u (ps.length + 1) * (contribAbs lp ps k * |x k|) + EPS * |x k| := by
    intro k _
    have h3 := (h1 k).err
    have h4 : |sR.coeff k * x k - st.coeff k * x k| ≤ gam u (ps.length + 1) * (contribAbs lp ps k * |x k|) := by
      rw [← sub_mul, abs_mul, ← mul_assoc]
      exact mul_le_mul_of_nonneg_right h3 (abs_nonneg _)
    split
    · rename_i ht
      have h5 : |0 - st.coeff k * x k| ≤ |sR.coeff k * x k - st.coeff k * x k| + |sR.coeff k * x k| := by
        have := abs_sub (sR.coeff k * x k - st.coeff k * x k) (sR.coeff k * x k)
        rwa [show sR.coeff k * x k - st.coeff k * x k - sR.coeff k * x k = 0 - st.coeff k * x k by ring] at this
      have h6 : |sR.coeff k * x k| ≤ EPS * |x k| := by
        rw [abs_mul]; exact mul_le_mul_of_nonneg_right ht.le (abs_nonneg _)
      linarith
    · have := mul_nonneg hE (abs_nonneg (x k))
      linarith
  have hs := (abs_sum_le_sum_abs (fun k => (if |sR.coeff k| < EPS then 0 else sR.coeff k * x k) - st.coeff k * x k)
    (range lp.numCols)).trans (sum_le_sum hk)
  rw [sum_sub_distrib, sum_add_distrib, ← mul_sum, ← mul_sum] at hs
  rw [hv]
  have hd : ∑ k ∈ range lp.numCols, st.coeff k * x k - st.rhs = nbDot lp ps x - beta := he
  have h7 : sR.rhs - ∑ k ∈ range lp.numCols, (if |sR.coeff k| < EPS then 0 else sR.coeff k * x k) -
      (beta - nbDot lp ps x) = (sR.rhs - st.rhs) -
      (∑ k ∈ range lp.numCols, (if |sR.coeff k| < EPS then 0 else sR.coeff k * x k) - ∑ k ∈ range lp.numCols, st.coeff k * x k) := by
    linarith
  rw [h7]
  refine (abs_sub _ _).trans ?_
  have := h2.err
  rw [mul_add]
  linarith

/-! ## Cleaning -/

theorem rscStepR_eq {rnd : ℚ → ℚ} {l u obj : Vec} {EPS EC : ℚ} {e : ℕ × ℚ} (he : EPS ≤ |e.2|) :
    (rscStepR rnd l u obj EPS EC e).1 = (rscStep l u obj EPS EC e).1 ∧
    (((rscStepR rnd l u obj EPS EC e).2 = none ∧ (rscStep l u obj EPS EC e).2 = 0) ∨
      (rscStepR rnd l u obj EPS EC e).2 = some (rnd (rscStep l u obj EPS EC e).2)) ∧
    |(rscStep l u obj EPS EC e).2| = removedAbs l u EC [e] := by
  have h0 : isZero |e.2| EPS = false := isZero_false_iff.2 (by rwa [abs_abs])
  unfold rscStepR rscStep removedAbs
  simp only [h0, Bool.false_and, Bool.false_eq_true, if_false, List.map_cons, List.map_nil, List.sum_cons, List.sum_nil,
    add_zero, Bool.and_eq_true, decide_eq_true_eq, Bool.not_eq_true']
  by_cases h1 : |e.2| ≤ EC
  · by_cases h2 : e.2 < 0 ∧ isNegInfinity (l e.1) = false
    · simp [h1, h2]
    · by_cases h3 : 0 < e.2 ∧ isInfinity (u e.1) = false
      · simp [h1, h2, h3]
      · simp [h1, h2, h3]
  · simp [h1]

theorem removedAbs_cons (l u : Vec) (EC : ℚ) (e : ℕ × ℚ) (row : SVec) :
    removedAbs l u EC (e :: row) = removedAbs l u EC [e] + removedAbs l u EC row := by
  unfold removedAbs; simp

theorem rsc_foldR_near (hr : RelRnd δ rnd) {l u obj : Vec} {EPS EC : ℚ} (row : SVec) (hrow : ∀ e ∈ row, EPS ≤ |e.2|)
    (hm : 1 ≤ m) (h : Near δ m A s t) :
    Near δ (m + row.length) (A + removedAbs l u EC row) (s - ((row.map (rscStep l u obj EPS EC)).map (·.2)).sum)
      ((row.map (rscStepR rnd l u obj EPS EC)).foldl (fun r s => match s.2 with | none => r | some q => rnd (r - q)) t) := by
  induction row generalizing m A s t with
  | nil => simpa [removedAbs] using h
  | cons e row ih =>
    obtain ⟨-, h2, h3⟩ := rscStepR_eq (rnd := rnd) (l := l) (u := u) (obj := obj) (EC := EC) (hrow e (by simp))
    have hstep : Near δ (m + 1) (A + removedAbs l u EC [e]) (s - (rscStep l u obj EPS EC e).2)
        (match (rscStepR rnd l u obj EPS EC e).2 with | none => t | some q => rnd (t - q)) := by
      rcases h2 with ⟨h2, h4⟩ | h2
      · rw [h2, h4, sub_zero]
        exact h.mono hr.1 (by omega) (by rw [← h3]; linarith [abs_nonneg (rscStep l u obj EPS EC e).2])
      · rw [h2]
        have h1 := h.step hr hm (p := -(rscStep l u obj EPS EC e).2) (q := -rnd (rscStep l u obj EPS EC e).2) (by
          rw [abs_neg, show -rnd (rscStep l u obj EPS EC e).2 - -(rscStep l u obj EPS EC e).2 =
            -(rnd (rscStep l u obj EPS EC e).2 - (rscStep l u obj EPS EC e).2) by ring, abs_neg]
          exact hr.2 _)
        rw [abs_neg, h3, ← sub_eq_add_neg, ← sub_eq_add_neg] at h1
        exact h1
    have := ih (fun e he => hrow e (by simp [he])) (by omega) hstep
    simp only [List.map_cons, List.foldl_cons, List.sum_cons, List.length_cons]
    rw [removedAbs_cons, show m + (row.length + 1) = m + 1 + row.length by omega, ← add_assoc, ← sub_sub]
    exact this

/-- **C157, cleaning a cut.** Cleaning in floating-point arithmetic changes the violation at a point by the losses of the
coefficients removed, and by no more than the rounding errors of the right-hand side and the tolerance. -/
theorem cleaned_violation_error (hr : RelRnd δ rnd) {l u obj : Vec} {EPS EC : ℚ} (hE : 0 ≤ EPS) {cut : RowCut}
    (hrow : ∀ e ∈ cut.row, EPS ≤ |e.2|) (x : Vec) :
    |violAt (removeSmallCoefficientsR rnd l u obj EPS EC cut) x -
        (violAt cut x - (cut.row.map (dropLoss l u obj EPS EC x)).sum)| ≤
      gam δ (cut.row.length + 1) * (|cut.lb| + removedAbs l u EC cut.row) + EPS := by
  have h1 := rsc_foldR_near hr (l := l) (u := u) (obj := obj) (EC := EC) cut.row hrow (le_refl 1)
    (Near.exact hr.1 (le_refl |cut.lb|))
  have hf : (cut.row.map (rscStepR rnd l u obj EPS EC)).filterMap (·.1) =
      (cut.row.map (rscStep l u obj EPS EC)).filterMap (·.1) := by
    rw [List.filterMap_map, List.filterMap_map]
    exact List.filterMap_congr fun e he => (rscStepR_eq (hrow e he)).1
  rw [dropLoss_sum]
  unfold violAt removeSmallCoefficientsR
  simp only [hf]
  rw [Nat.add_comm] at h1
  have h2 := h1.err
  generalize (cut.row.map (rscStepR rnd l u obj EPS EC)).foldl
    (fun r s => match s.2 with | none => r | some q => rnd (r - q)) cut.lb = t at h2 ⊢
  have h3 : |(if isZero t EPS then 0 else t) - t| ≤ EPS := by
    split
    · rename_i h; rw [zero_sub, abs_neg]; exact (isZero_iff.1 h).le
    · rw [sub_self, abs_zero]; exact hE
  generalize ((cut.row.map (rscStep l u obj EPS EC)).filterMap (·.1)) = row' at *
  generalize ((cut.row.map (rscStep l u obj EPS EC)).map (·.2)).sum = a at *
  have e1 : (if isZero t EPS then 0 else t) - sdot row' x - (cut.lb - sdot cut.row x - (sdot row' x + a - sdot cut.row x)) =
      ((if isZero t EPS then 0 else t) - t) + (t - (cut.lb - a)) := by ring
  rw [e1]
  exact (abs_add_le _ _).trans (by linarith)

theorem derived_noTiny (rnd : ℚ → ℚ) (lp : LP) (nz : List ℕ) (coeff : List ℚ) (beta : ℚ) (nbVar : List ℕ) (EPS : ℚ) :
    ∀ e ∈ (setCutFromNBCoefficientsR rnd lp nz coeff beta nbVar EPS).row, EPS ≤ |e.2| := by
  intro e he
  unfold setCutFromNBCoefficientsR setOsiRowCut at he
  simp only [List.mem_filterMap] at he
  obtain ⟨⟨c, i⟩, -, h⟩ := he
  split at h
  · cases h
  · rename_i h'
    simp only [Option.some.injEq] at h
    subst h
    simpa using h'

/-! ## Both -/

/-- The bound on all the errors made between a solution of the point-ray LP and the cut that is handed out. -/
def floatErr (u : ℚ) (rnd : ℚ → ℚ) (lp : LP) (l hi : Vec) (nz : List ℕ) (coeff : List ℚ) (beta : ℚ) (nbVar : List ℕ)
    (EPS EC : ℚ) (x : Vec) : ℚ :=
  gam u ((scPairs lp.numCols nz coeff nbVar).length + 1) *
    (∑ k ∈ range lp.numCols, contribAbs lp (scPairs lp.numCols nz coeff nbVar) k * |x k| +
      (|beta| + rhsAbs lp (scPairs lp.numCols nz coeff nbVar))) +
  EPS * ∑ k ∈ range lp.numCols, |x k| +
  (gam u ((setCutFromNBCoefficientsR rnd lp nz coeff beta nbVar EPS).row.length + 1) *
    (|(setCutFromNBCoefficientsR rnd lp nz coeff beta nbVar EPS).lb| +
      removedAbs l hi EC (setCutFromNBCoefficientsR rnd lp nz coeff beta nbVar EPS).row) + EPS)

/-- **C157, validity.** A point within the bounds of the columns that satisfies the inequality in the nonbasic space, up to
`d` (such as the tolerance of the LP solver), violates the cut that is handed out, computed in floating-point arithmetic, by
at most `floatErr` and `d`. -/
theorem float_cut_valid (hr : RelRnd u rnd) {lp : LP} (hc : ∀ r, ((lp.rows r).map (·.1)).Nodup) {nz : List ℕ}
    {coeff : List ℚ} {beta EPS EC : ℚ} (hE : 0 ≤ EPS) {nbVar : List ℕ}
    (ho : NBOrder lp ((scPairs lp.numCols nz coeff nbVar).map (·.1))) {l hi obj : Vec} {x : Vec} (hx : InBox l hi x)
    {d : ℚ} (h : beta - d ≤ nbDot lp (scPairs lp.numCols nz coeff nbVar) x) :
    violAt (removeSmallCoefficientsR rnd l hi obj EPS EC (setCutFromNBCoefficientsR rnd lp nz coeff beta nbVar EPS)) x ≤
      floatErr u rnd lp l hi nz coeff beta nbVar EPS EC x + d := by
  have h1 := derived_slack_error hr hc hE ho x (beta := beta)
  have hbig := derived_noTiny rnd lp nz coeff beta nbVar EPS
  have h2 := cleaned_violation_error hr hE hbig x (l := l) (u := hi) (obj := obj) (EC := EC)
  have hs : 0 ≤ ((setCutFromNBCoefficientsR rnd lp nz coeff beta nbVar EPS).row.map (dropLoss l hi obj EPS EC x)).sum := by
    refine List.sum_nonneg fun q hq => ?_
    obtain ⟨d, hd, rfl⟩ := List.mem_map.1 hq
    exact dropLoss_nonneg hx (hbig d hd)
  have h3 := (le_abs_self _).trans h1
  have h4 := (le_abs_self _).trans h2
  unfold floatErr
  linarith

/-- **C157, violation.** At a point all of whose nonbasic coordinates are 0 the cut that is handed out is violated by at
least the right-hand side of the point-ray LP less `floatErr` and the losses of the coefficients removed. -/
theorem float_cut_violation (hr : RelRnd u rnd) {lp : LP} (hc : ∀ r, ((lp.rows r).map (·.1)).Nodup) {nz : List ℕ}
    {coeff : List ℚ} {beta EPS EC : ℚ} (hE : 0 ≤ EPS) {nbVar : List ℕ}
    (ho : NBOrder lp ((scPairs lp.numCols nz coeff nbVar).map (·.1))) {l hi obj : Vec} {x : Vec}
    (h : nbDot lp (scPairs lp.numCols nz coeff nbVar) x = 0) :
    beta - ((setCutFromNBCoefficientsR rnd lp nz coeff beta nbVar EPS).row.map (dropLoss l hi obj EPS EC x)).sum -
        floatErr u rnd lp l hi nz coeff beta nbVar EPS EC x ≤
      violAt (removeSmallCoefficientsR rnd l hi obj EPS EC (setCutFromNBCoefficientsR rnd lp nz coeff beta nbVar EPS)) x := by
  have h1 := derived_slack_error hr hc hE ho x (beta := beta)
  have hbig := derived_noTiny rnd lp nz coeff beta nbVar EPS
  have h2 := cleaned_violation_error hr hE hbig x (l := l) (u := hi) (obj := obj) (EC := EC)
  have h3 := (neg_le_neg h1).trans (neg_abs_le _)
  have h4 := (neg_le_neg h2).trans (neg_abs_le _)
  unfold floatErr
  linarith

/-- **C157.** Without rounding the functions are those of the exact model. -/
theorem float_exact (lp : LP) (l hi obj : Vec) (nz : List ℕ) (coeff : List ℚ) (beta : ℚ) (nbVar : List ℕ) (EPS EC : ℚ)
    (cut : RowCut) :
    setCutFromNBCoefficientsR id lp nz coeff beta nbVar EPS = setCutFromNBCoefficients lp nz coeff beta nbVar EPS ∧
    removeSmallCoefficientsR id l hi obj EPS EC cut = removeSmallCoefficients l hi obj EPS EC cut := by
  have ha : ∀ (v : SVec) (d : Vec) (m val : ℚ), addScaledR id d v m val = addScaled d v (m * val) := by
    intro v
    induction v with
    | nil => intros; rfl
    | cons e v ih =>
      intro d m val
      show addScaledR id (fun k => if k = e.1 then id (d k + id (m * e.2 * val)) else d k) v m val =
        addScaled (fun k => if k = e.1 then d k + m * val * e.2 else d k) v (m * val)
      rw [ih]
      congr 1
      funext k
      simp only [id]
      split
      · ring
      · rfl
  have hst : ∀ st var val, scStepR id lp st var val = scStep lp st var val := by
    intro st var val
    unfold scStepR scStep
    simp only [ha, id]
    by_cases hv : var < lp.numCols
    · simp only [if_pos hv]
      cases lp.colStat var <;> rfl
    · simp only [if_neg hv]
  constructor
  · unfold setCutFromNBCoefficientsR setCutFromNBCoefficients
    simp only [hst]
  · have hf : ∀ (row : SVec) (t : ℚ), (row.map (rscStepR id l hi obj EPS EC)).foldl
        (fun r s => match s.2 with | none => r | some q => id (r - q)) t =
        (row.map (rscStep l hi obj EPS EC)).foldl (fun r s => r - s.2) t := by
      intro row
      induction row with
      | nil => intro t; rfl
      | cons e row ih =>
        intro t
        simp only [List.map_cons, List.foldl_cons]
        rw [← ih]
        congr 1
        unfold rscStepR rscStep
        simp only [id]
        split_ifs <;> simp
    have hg : (cut.row.map (rscStepR id l hi obj EPS EC)).filterMap (·.1) =
        (cut.row.map (rscStep l hi obj EPS EC)).filterMap (·.1) := by
      rw [List.filterMap_map, List.filterMap_map]
      refine List.filterMap_congr fun e _ => ?_
      simp only [Function.comp]
      unfold rscStepR rscStep
      simp only [id]
      split_ifs <;> rfl
    unfold removeSmallCoefficientsR removeSmallCoefficients
    simp only [hg]
    exact congrArg (fun t => (⟨_, if isZero t EPS then 0 else t⟩ : RowCut)) (hf cut.row cut.lb)

/-! ## Non-vacuity, and the size of the bound -/

namespace FloatCutEx

/-- Two columns at their lower bounds 0 and one row `x₀ / 3 + x₁ ≤ 1`, whose slack is nonbasic together with `x₀`. -/
def lp : LP :=
  { numCols := 2, rows := fun _ => [(0, 1 / 3), (1, 1)], sense := fun _ => .L, rhs := fun _ => 1
    colLower := fun _ => 0, colUpper := fun _ => 10, colStat := fun i => if i = 0 then .atLower else .other }

/-- `3/4 + 2⁻⁵³`, a double. -/
def a : ℚ := 3 / 4 + 1 / 2 ^ 53

/-- Columns `0 ≤ x₀, x₁ ≤ 1`, row `a x₀ + x₁ ≤ 1`; `x₀` and the slack are nonbasic. -/
def lp2 : LP :=
  { numCols := 2, rows := fun _ => [(0, a), (1, 1)], sense := fun _ => .L, rhs := fun _ => 1
    colLower := fun _ => 0, colUpper := fun _ => 1, colStat := fun i => if i = 0 then .atLower else .other }

/-- A point at which the row and the inequality in the nonbasic space hold with equality. -/
def pt : Vec := fun i => if i = 0 then 1 else 1 - a

end FloatCutEx

/-- Non-vacuity of the theorems of this file: with 53 binary digits the coefficients `1/10` and `1/7` are not computed exactly,
and the cut differs from the exact one. -/
example : RelRnd (1 / 2 ^ 53) (fl 53) ∧ (∀ r, ((FloatCutEx.lp.rows r).map (·.1)).Nodup) ∧
    NBOrder FloatCutEx.lp ((scPairs FloatCutEx.lp.numCols [0, 1] [1 / 10, 1 / 7] [0, 2]).map (·.1)) ∧
    InBox FloatCutEx.lp.colLower FloatCutEx.lp.colUpper (fun i => if i = 0 then 10 else 0) ∧
    setCutFromNBCoefficientsR (fl 53) FloatCutEx.lp [0, 1] [1 / 10, 1 / 7] 1 [0, 2] (1 / 10 ^ 7) ≠
      setCutFromNBCoefficients FloatCutEx.lp [0, 1] [1 / 10, 1 / 7] 1 [0, 2] (1 / 10 ^ 7) := by
  refine ⟨fl_relRnd 53, fun r => by show ([0, 1] : List ℕ).Nodup; decide, ⟨⟨[0], [2], rfl, by decide, by decide, by decide⟩, ?_⟩,
    fun i => ?_, ?_⟩
  · intro r e he
    simp only [FloatCutEx.lp, List.mem_cons, List.not_mem_nil, or_false] at he
    rcases he with rfl | rfl <;> decide
  · simp only [FloatCutEx.lp]
    split <;> norm_num
  · decide +kernel

/-- **C157.** Rounding alone makes a cut invalid: all numbers are doubles, the solution `(1, a)` of the point-ray LP is valid
at the point `pt` of the LP relaxation, no coefficient is small, and `pt` violates the cut that is handed out (by `2⁻⁵⁴`
and a little less). -/
theorem rounding_cuts_off :
    (fl 53 FloatCutEx.a = FloatCutEx.a ∧ fl 53 (1 - FloatCutEx.a) = 1 - FloatCutEx.a) ∧
    InBox FloatCutEx.lp2.colLower FloatCutEx.lp2.colUpper FloatCutEx.pt ∧
    sdot (FloatCutEx.lp2.rows 0) FloatCutEx.pt = 1 ∧
    nbDot FloatCutEx.lp2 (scPairs 2 [0, 1] [1, FloatCutEx.a] [0, 2]) FloatCutEx.pt = 1 ∧
    (setCutFromNBCoefficients FloatCutEx.lp2 [0, 1] [1, FloatCutEx.a] 1 [0, 2] (1 / 10 ^ 7)).Sat FloatCutEx.pt ∧
    1 / 2 ^ 55 < violAt (removeSmallCoefficientsR (fl 53) FloatCutEx.lp2.colLower FloatCutEx.lp2.colUpper (fun _ => 1) (1 / 10 ^ 7)
      (1 / 10 ^ 5) (setCutFromNBCoefficientsR (fl 53) FloatCutEx.lp2 [0, 1] [1, FloatCutEx.a] 1 [0, 2] (1 / 10 ^ 7)))
      FloatCutEx.pt := by
  refine ⟨⟨by decide +kernel, by decide +kernel⟩, fun i => ?_, by decide +kernel, by decide +kernel,
    by unfold RowCut.Sat; decide +kernel, by decide +kernel⟩
  simp only [FloatCutEx.lp2, FloatCutEx.pt, FloatCutEx.a]
  split <;> norm_num

end VPC
