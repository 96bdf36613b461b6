import Verif.Model.NBSpace
import Mathlib.Tactic.Linarith
import Mathlib.Tactic.NormNum
import Mathlib.Tactic.Ring
import Mathlib.Tactic.Positivity
import Mathlib.Algebra.BigOperators.Ring.Finset
import Mathlib.Algebra.Order.BigOperators.Group.Finset
import Mathlib.Algebra.BigOperators.Intervals

/-! # C01: nonbasic-space and structural-space cuts agree -/
namespace VPC
open Finset

/-! ## Specification -/

/-- The complemented nonbasic coordinate of the point `x` for variable `var` (structural or slack):
distance from the bound the variable is at, or the slack of its row. -/
def nbCoord (lp : LP) (x : Vec) (var : ℕ) : ℚ :=
  if var < lp.numCols then
    match lp.colStat var with
    | .atUpper => lp.colUpper var - x var
    | .atLower => x var - lp.colLower var
    | .other => x var
  else
    let r := var - lp.numCols
    if lp.sense r = .G then sdot (lp.rows r) x - lp.rhs r else lp.rhs r - sdot (lp.rows r) x

/-- Dense inner product over the structural columns. -/
def ddot (n : ℕ) (d x : Vec) : ℚ := ∑ k ∈ range n, d k * x k

/-- The nonbasic-space row `Σ_k α_k y_k(x)` for (variable, coefficient) pairs. -/
def nbDot (lp : LP) (pairs : List (ℕ × ℚ)) (x : Vec) : ℚ :=
  (pairs.map fun p => p.2 * nbCoord lp x p.1).sum

/-- The list of nonbasic variables has distinct structural variables first, then slacks (this is
how `getProblemData` builds it), and all matrix indices are columns. -/
structure NBOrder (lp : LP) (vars : List ℕ) : Prop where
  split : ∃ ss sl, vars = ss ++ sl ∧ ss.Nodup ∧ (∀ v ∈ ss, v < lp.numCols) ∧
    (∀ v ∈ sl, lp.numCols ≤ v)
  cols : ∀ r, ∀ e ∈ lp.rows r, e.1 < lp.numCols

/-! ## Lemmas -/

theorem ddot_update (n : ℕ) (d x : Vec) (j : ℕ) (v : ℚ) (hj : j < n) :
    ddot n (fun k => if k = j then v else d k) x = ddot n d x + (v - d j) * x j := by
  unfold ddot
  have : ∀ k ∈ range n, (if k = j then v else d k) * x k
      = d k * x k + (if k = j then (v - d j) * x j else 0) := by
    intro k _
    split
    · rename_i h; subst h; ring
    · ring
  rw [sum_congr rfl this, sum_add_distrib, sum_ite_eq' (range n) j]
  rw [if_pos (mem_range.2 hj)]

theorem ddot_addScaled (n : ℕ) (v : SVec) (d x : Vec) (m : ℚ) (hv : ∀ e ∈ v, e.1 < n) :
    ddot n (addScaled d v m) x = ddot n d x + m * sdot v x := by
  induction v generalizing d with
  | nil => simp [addScaled]
  | cons e v ih =>
    have hstep : addScaled d (e :: v) m
        = addScaled (fun k => if k = e.1 then d k + m * e.2 else d k) v m := rfl
    rw [hstep, ih _ (fun e' he' => hv e' (by simp [he']))]
    have : (fun k => if k = e.1 then d k + m * e.2 else d k)
        = (fun k => if k = e.1 then d e.1 + m * e.2 else d k) := by
      funext k; split
      · rename_i h; rw [h]
      · rfl
    rw [this, ddot_update n d x e.1 _ (hv e (by simp)), sdot_cons]
    ring

theorem scStep_slack (lp : LP) (st : SCState) (var : ℕ) (val : ℚ) (x : Vec)
    (hc : ∀ r, ∀ e ∈ lp.rows r, e.1 < lp.numCols) (hv : lp.numCols ≤ var) :
    ddot lp.numCols (scStep lp st var val).coeff x - (scStep lp st var val).rhs
      = ddot lp.numCols st.coeff x - st.rhs + val * nbCoord lp x var := by
  unfold scStep nbCoord
  rw [if_neg (not_lt.2 hv), if_neg (not_lt.2 hv)]
  simp only
  rw [ddot_addScaled _ _ _ _ _ (hc _)]
  split <;> ring

theorem scStep_struct (lp : LP) (st : SCState) (var : ℕ) (val : ℚ) (x : Vec)
    (hv : var < lp.numCols) (h0 : st.coeff var = 0) :
    ddot lp.numCols (scStep lp st var val).coeff x - (scStep lp st var val).rhs
      = ddot lp.numCols st.coeff x - st.rhs + val * nbCoord lp x var := by
  unfold scStep nbCoord
  rw [if_pos hv, if_pos hv]
  cases lp.colStat var <;> simp only <;> rw [ddot_update _ _ _ _ _ hv, h0] <;> ring

theorem scStep_coeff_ne (lp : LP) (st : SCState) (var : ℕ) (val : ℚ) (k : ℕ)
    (hv : var < lp.numCols) (hk : k ≠ var) : (scStep lp st var val).coeff k = st.coeff k := by
  unfold scStep
  rw [if_pos hv]
  cases lp.colStat var <;> simp [hk]

theorem sc_fold_slack (lp : LP) (x : Vec) (hc : ∀ r, ∀ e ∈ lp.rows r, e.1 < lp.numCols)
    (ps : List (ℕ × ℚ)) (st : SCState) (hps : ∀ p ∈ ps, lp.numCols ≤ p.1) :
    let st' := ps.foldl (fun st p => scStep lp st p.1 p.2) st
    ddot lp.numCols st'.coeff x - st'.rhs = ddot lp.numCols st.coeff x - st.rhs + nbDot lp ps x := by
  induction ps generalizing st with
  | nil => simp [nbDot]
  | cons p ps ih =>
    have := ih (scStep lp st p.1 p.2) (fun q hq => hps q (by simp [hq]))
    simp only [List.foldl_cons] at this ⊢
    rw [this, scStep_slack lp st p.1 p.2 x hc (hps p (by simp))]
    simp only [nbDot, List.map_cons, List.sum_cons]; ring

theorem sc_fold_struct (lp : LP) (x : Vec)
    (ps : List (ℕ × ℚ)) (st : SCState) (hps : ∀ p ∈ ps, p.1 < lp.numCols)
    (hnd : (ps.map (·.1)).Nodup) (h0 : ∀ p ∈ ps, st.coeff p.1 = 0) :
    let st' := ps.foldl (fun st p => scStep lp st p.1 p.2) st
    ddot lp.numCols st'.coeff x - st'.rhs = ddot lp.numCols st.coeff x - st.rhs + nbDot lp ps x := by
  induction ps generalizing st with
  | nil => simp [nbDot]
  | cons p ps ih =>
    simp only [List.map_cons, List.nodup_cons] at hnd
    have := ih (scStep lp st p.1 p.2) (fun q hq => hps q (by simp [hq])) hnd.2 (by
      intro q hq
      rw [scStep_coeff_ne lp st p.1 p.2 q.1 (hps p (by simp))]
      · exact h0 q (by simp [hq])
      · intro heq
        exact hnd.1 (heq ▸ List.mem_map_of_mem hq))
    simp only [List.foldl_cons] at this ⊢
    rw [this, scStep_struct lp st p.1 p.2 x (hps p (by simp)) (h0 p (by simp))]
    simp only [nbDot, List.map_cons, List.sum_cons]; ring

theorem split_pairs {ps : List (ℕ × ℚ)} {ss sl : List ℕ} (h : ps.map (·.1) = ss ++ sl) :
    ∃ p1 p2, ps = p1 ++ p2 ∧ p1.map (·.1) = ss ∧ p2.map (·.1) = sl := by
  obtain ⟨p1, p2, h1, h2, h3⟩ := List.map_eq_append_iff.1 h
  exact ⟨p1, p2, h1, h2, h3⟩

theorem sc_fold_exact (lp : LP) (x : Vec) (ps : List (ℕ × ℚ)) (beta : ℚ)
    (ho : NBOrder lp (ps.map (·.1))) :
    let st' := ps.foldl (fun st p => scStep lp st p.1 p.2) { coeff := fun _ => 0, rhs := beta }
    ddot lp.numCols st'.coeff x - st'.rhs = nbDot lp ps x - beta := by
  obtain ⟨ss, sl, hsplit, hnd, hss, hsl⟩ := ho.split
  obtain ⟨p1, p2, rfl, hp1, hp2⟩ := split_pairs hsplit
  rw [List.foldl_append]
  have e1 := sc_fold_struct lp x p1 { coeff := fun _ => 0, rhs := beta }
    (fun p hp => hss _ (hp1 ▸ List.mem_map_of_mem hp)) (hp1 ▸ hnd) (fun _ _ => rfl)
  have e2 := sc_fold_slack lp x ho.cols p2
    (p1.foldl (fun st p => scStep lp st p.1 p.2) { coeff := fun _ => 0, rhs := beta })
    (fun p hp => hsl _ (hp2 ▸ List.mem_map_of_mem hp))
  simp only at e1 e2 ⊢
  rw [e2, e1]
  have : ddot lp.numCols (fun _ => 0) x = 0 := by simp [ddot]
  rw [this]
  unfold nbDot
  rw [List.map_append, List.sum_append]
  ring

theorem setOsiRowCut_sdot (n : ℕ) (d x : Vec) (rhs EPS : ℚ) :
    sdot (setOsiRowCut [] ((List.range n).map d) rhs EPS).row x
      = ∑ k ∈ range n, (if |d k| < EPS then 0 else d k * x k) := by
  have key : ∀ n, sdot ((((List.range n).map d).zipIdx).filterMap fun (c, i) =>
      if isZero c EPS then none
      else some (if ([] : List ℕ).length > 0 then ([] : List ℕ).getD i 0 else i, c)) x
      = ∑ k ∈ range n, (if |d k| < EPS then 0 else d k * x k) := by
    intro n
    induction n with
    | zero => simp
    | succ n ih =>
      rw [List.range_succ, List.map_append, List.zipIdx_append, List.filterMap_append, sdot_append,
        ih, sum_range_succ]
      congr 1
      simp only [List.map_cons, List.map_nil, List.length_map, List.length_range, zero_add,
        List.zipIdx_cons, List.zipIdx_nil, List.filterMap_cons, List.filterMap_nil]
      by_cases h : |d n| < EPS
      · rw [if_pos h, isZero_iff.2 h]; simp
      · rw [if_neg h, isZero_false_iff.2 (not_lt.1 h)]; simp
  exact key n

/-! ## C01 -/

/-- The dense structural coefficients the conversion computes before the sparse cut is written
(used only to express "no nonzero coefficient below EPS"). -/
def structCoeff (lp : LP) (pairs : List (ℕ × ℚ)) (beta : ℚ) : Vec :=
  (pairs.foldl (fun st p => scStep lp st p.1 p.2) { coeff := fun _ => 0, rhs := beta }).coeff

/-- C01 (general, with the exact loss). For every point `x`, the slack of the structural cut
returned to the caller equals the slack of the nonbasic inequality, minus the contribution of the
structural coefficients that are smaller than `EPS` (which are dropped). -/
theorem setCut_slack_eq (lp : LP) (nz : List ℕ) (coeff : List ℚ) (beta EPS : ℚ) (nbVar : List ℕ)
    (x : Vec) (ho : NBOrder lp ((scPairs lp.numCols nz coeff nbVar).map (·.1))) :
    let cut := setCutFromNBCoefficients lp nz coeff beta nbVar EPS
    let pairs := scPairs lp.numCols nz coeff nbVar
    sdot cut.row x - cut.lb = nbDot lp pairs x - beta -
      ∑ k ∈ range lp.numCols,
        (if |structCoeff lp pairs beta k| < EPS then structCoeff lp pairs beta k * x k else 0) := by
  intro cut pairs
  have he := sc_fold_exact lp x pairs beta ho
  simp only at he
  have hs := setOsiRowCut_sdot lp.numCols (structCoeff lp pairs beta) x
    (pairs.foldl (fun st p => scStep lp st p.1 p.2) { coeff := fun _ => 0, rhs := beta }).rhs EPS
  have hcut : cut = setOsiRowCut [] ((List.range lp.numCols).map (structCoeff lp pairs beta))
    (pairs.foldl (fun st p => scStep lp st p.1 p.2) { coeff := fun _ => 0, rhs := beta }).rhs EPS
    := rfl
  have hsum : ∑ k ∈ range lp.numCols,
      (if |structCoeff lp pairs beta k| < EPS then 0 else structCoeff lp pairs beta k * x k)
      = ddot lp.numCols (structCoeff lp pairs beta) x - ∑ k ∈ range lp.numCols,
        (if |structCoeff lp pairs beta k| < EPS then structCoeff lp pairs beta k * x k else 0) := by
    unfold ddot
    rw [← sum_sub_distrib]
    apply sum_congr rfl
    intro k _
    split <;> ring
  have hlb : cut.lb
      = (pairs.foldl (fun st p => scStep lp st p.1 p.2) { coeff := fun _ => 0, rhs := beta }).rhs := by
    rw [hcut]; rfl
  rw [hlb, hcut, hs, hsum]
  rw [← he]
  show _ = ddot lp.numCols (structCoeff lp pairs beta) x - _ - _
  ring

/-- C01 (exact). If no nonzero structural coefficient is below `EPS`, the cut in structural space
and the inequality in nonbasic space have the same slack at every point; in particular exactly the
same points satisfy them. -/
theorem setCut_exact (lp : LP) (nz : List ℕ) (coeff : List ℚ) (beta EPS : ℚ) (nbVar : List ℕ)
    (ho : NBOrder lp ((scPairs lp.numCols nz coeff nbVar).map (·.1)))
    (hbig : ∀ k < lp.numCols, structCoeff lp (scPairs lp.numCols nz coeff nbVar) beta k = 0 ∨
      EPS ≤ |structCoeff lp (scPairs lp.numCols nz coeff nbVar) beta k|) (x : Vec) :
    let cut := setCutFromNBCoefficients lp nz coeff beta nbVar EPS
    let pairs := scPairs lp.numCols nz coeff nbVar
    sdot cut.row x - cut.lb = nbDot lp pairs x - beta ∧
    (cut.Sat x ↔ beta ≤ nbDot lp pairs x) := by
  intro cut pairs
  have h := setCut_slack_eq lp nz coeff beta EPS nbVar x ho
  simp only at h
  have hz : ∑ k ∈ range lp.numCols,
      (if |structCoeff lp pairs beta k| < EPS then structCoeff lp pairs beta k * x k else 0) = 0 := by
    apply sum_eq_zero
    intro k hk
    split
    · rename_i hlt
      rcases hbig k (mem_range.1 hk) with h0 | h0
      · rw [h0, zero_mul]
      · exact absurd hlt (not_lt.2 h0)
    · rfl
  have h2 : sdot cut.row x - cut.lb = nbDot lp pairs x - beta := by
    rw [h, hz, sub_zero]
  refine ⟨h2, ?_⟩
  unfold RowCut.Sat
  constructor <;> intro hh <;> linarith

/-- C01 (bound on the loss). Dropping coefficients below `EPS` changes the slack by at most
`EPS · Σ|x_k|`. -/
theorem setCut_error_bound (lp : LP) (nz : List ℕ) (coeff : List ℚ) (beta EPS : ℚ)
    (nbVar : List ℕ) (x : Vec)
    (ho : NBOrder lp ((scPairs lp.numCols nz coeff nbVar).map (·.1))) (he : 0 ≤ EPS) :
    let cut := setCutFromNBCoefficients lp nz coeff beta nbVar EPS
    |(sdot cut.row x - cut.lb) - (nbDot lp (scPairs lp.numCols nz coeff nbVar) x - beta)|
      ≤ EPS * ∑ k ∈ range lp.numCols, |x k| := by
  intro cut
  have h := setCut_slack_eq lp nz coeff beta EPS nbVar x ho
  simp only at h
  rw [h]
  set pairs := scPairs lp.numCols nz coeff nbVar
  have : (nbDot lp pairs x - beta - ∑ k ∈ range lp.numCols,
        (if |structCoeff lp pairs beta k| < EPS then structCoeff lp pairs beta k * x k else 0))
        - (nbDot lp pairs x - beta) = - ∑ k ∈ range lp.numCols,
        (if |structCoeff lp pairs beta k| < EPS then structCoeff lp pairs beta k * x k else 0) := by
    ring
  rw [this, abs_neg, mul_sum]
  refine le_trans (abs_sum_le_sum_abs _ _) (sum_le_sum ?_)
  intro k _
  split
  · rename_i hlt
    rw [abs_mul]
    exact mul_le_mul_of_nonneg_right hlt.le (abs_nonneg _)
  · rw [abs_zero]; exact mul_nonneg he (abs_nonneg _)

/-- C01 relies on the order of the nonbasic variables: were a slack listed before a structural
column that its row uses, the assignment `struct_coeff[var] = val` would overwrite the slack's
contribution and the identity would fail (row `x₀ ≤ 1`, both nonbasic, `α = (1,1)`). -/
theorem setCut_order_matters :
    let lp : LP := { numCols := 2, rows := fun _ => [(0, 1)], sense := fun _ => .L, rhs := fun _ => 1
                     colLower := fun _ => 0, colUpper := fun _ => 1, colStat := fun _ => .atLower }
    let x : Vec := fun _ => 1
    let cut := setCutFromNBCoefficients lp [] [1, 1] 1 [2, 0] (1/10^7)
    sdot cut.row x - cut.lb ≠ nbDot lp (scPairs 2 [] [1, 1] [2, 0]) x - 1 := by
  decide +kernel

/-- Non-vacuity: two columns (one nonbasic at its upper bound) and the slack of a `>=` row. -/
example :
    let lp : LP := { numCols := 2, rows := fun _ => [(0, 1), (1, 3)], sense := fun _ => .G
                     rhs := fun _ => 2, colLower := fun _ => 0, colUpper := fun _ => 4
                     colStat := fun k => if k = 0 then .atUpper else .atLower }
    NBOrder lp ((scPairs 2 [] [5, 7] [0, 2]).map (·.1)) ∧
    setCutFromNBCoefficients lp [] [5, 7] 1 [0, 2] (1/10^7) = ⟨[(0, 2), (1, 21)], -5⟩ := by
  refine ⟨⟨⟨[0], [2], by decide, by decide, by simp, by simp⟩, ?_⟩, by decide +kernel⟩
  intro r e he
  simp only [List.mem_cons, List.not_mem_nil, or_false] at he
  rcases he with rfl | rfl <;> decide

/-- C01 for the coordinates themselves: for every point satisfying the original bounds and rows
(of type `<=`, `>=` or `=`), where the nonbasic columns sit at the bound they are recorded at, the
nonnegative coordinate computed by the code is the complemented nonbasic coordinate. -/
theorem compCoor_eq_nbCoord (lp : LP) (orig x : Vec) (var : ℕ)
    (hbox : ∀ k < lp.numCols, lp.colLower k ≤ x k ∧ x k ≤ lp.colUpper k)
    (hrow : ∀ r, match lp.sense r with
      | .L => sdot (lp.rows r) x ≤ lp.rhs r
      | .G => lp.rhs r ≤ sdot (lp.rows r) x
      | .E => sdot (lp.rows r) x = lp.rhs r
      | .R => False)
    (horig : var < lp.numCols → match lp.colStat var with
      | .atLower => orig var = lp.colLower var
      | .atUpper => orig var = lp.colUpper var
      | .other => False) :
    compCoor lp orig x var = nbCoord lp x var ∧ 0 ≤ nbCoord lp x var := by
  unfold compCoor nbCoord
  by_cases hv : var < lp.numCols
  · rw [if_pos hv, if_pos hv]
    obtain ⟨h1, h2⟩ := hbox var hv
    have ho := horig hv
    cases hst : lp.colStat var <;> rw [hst] at ho <;> simp only at ho ⊢
    · rw [ho, abs_of_nonneg (by linarith)]; exact ⟨rfl, by linarith⟩
    · rw [ho, abs_of_nonpos (by linarith)]; exact ⟨by ring, by linarith⟩
  · rw [if_neg hv, if_neg hv]
    have hr := hrow (var - lp.numCols)
    simp only [sub_zero]
    cases hse : lp.sense (var - lp.numCols) <;> rw [hse] at hr <;> simp only [reduceCtorEq, if_false, if_true] at hr ⊢
    · rw [abs_of_nonneg (by linarith)]; exact ⟨rfl, by linarith⟩
    · rw [abs_of_nonpos (by linarith)]; exact ⟨by ring, by linarith⟩
    · rw [hr]; simp

/-- The ranged-row case is excluded above because it is wrong in the code: a ranged row
`1 ≤ x₀ ≤ 3` stores `rhs = 3`, so when its slack is nonbasic at the *lower* side (activity 1) the
point of the original vertex itself gets coordinate 2 instead of 0. -/
theorem compCoor_ranged_wrong :
    let lp : LP := { numCols := 1, rows := fun _ => [(0, 1)], sense := fun _ => .R, rhs := fun _ => 3
                     colLower := fun _ => 0, colUpper := fun _ => 9, colStat := fun _ => .other }
    let vertex : Vec := fun _ => 1
    compCoor lp vertex vertex 1 = 2 := by
  decide +kernel

example :
    let lp : LP := { numCols := 1, rows := fun _ => [(0, 1)], sense := fun _ => .G, rhs := fun _ => 1
                     colLower := fun _ => 0, colUpper := fun _ => 9, colStat := fun _ => .atLower }
    compCoor lp (fun _ => 1) (fun _ => 4) 1 = 3 := by decide +kernel

end VPC
