import Verif.Model.Cond
import Verif.Props.SolverMem
import Mathlib.Data.Matrix.Basic
import Mathlib.LinearAlgebra.Matrix.NonsingularInverse
import Mathlib.Tactic

/-!
# Condition number of the basis (C140)

Specification: `basisMatrix l` is the matrix of the basic columns of the LP (basic structural columns in order,
then unit vectors of the basic slacks), `IsNorm1 M x` says that `x` is the largest absolute column sum of `M`.
-/
namespace VPC

/-- Coefficient of column `i` in row `r`. -/
def BasisLP.coef (l : BasisLP) (r i : ℕ) : ℚ := ((l.col i).lookup r).getD 0

/-- Basic structural columns. -/
def BasisLP.basicS (l : BasisLP) : List ℕ := (List.range l.n).filter fun i => l.cstat i = 1

/-- Rows whose slack is basic. -/
def BasisLP.basicR (l : BasisLP) : List ℕ := (List.range l.m).filter fun i => l.rstat i = 1

/-- Entry of the basis matrix in row `r` and column `k`. -/
def basisEntry (l : BasisLP) (r k : ℕ) : ℚ :=
  if k < l.basicS.length then l.coef r (l.basicS.getD k 0)
  else if r = l.basicR.getD (k - l.basicS.length) 0 then 1 else 0

/-- The basis matrix. -/
def basisMatrix (l : BasisLP) : Matrix (Fin l.m) (Fin l.m) ℚ := Matrix.of fun r k => basisEntry l r k

/-- The largest absolute column sum. -/
def IsNorm1 {m : ℕ} (M : Matrix (Fin m) (Fin m) ℚ) (x : ℚ) : Prop :=
  IsGreatest (Set.range fun k => ∑ r, |M r k|) x

/-- A packed LP with a square basis. -/
structure BasisLP.Ok (l : BasisLP) : Prop where
  avail : l.available = true
  square : l.basicS.length + l.basicR.length = l.m
  rows : ∀ i < l.n, ∀ e ∈ l.col i, e.1 < l.m
  nodup : ∀ i < l.n, ((l.col i).map (·.1)).Nodup

/-- The columns of the inverse are those of the inverse of the basis matrix, where the solver may order the
basic variables in its own way and count slacks with the other sign. -/
def BasisLP.GoodInv (l : BasisLP) : Prop :=
  ∃ (p : Equiv.Perm (Fin l.m)) (s : Fin l.m → ℚ), (∀ k, |s k| = 1) ∧
    (Matrix.of fun r k => s k * basisMatrix l r (p k)) * (Matrix.of fun j i : Fin l.m => l.binvCol i j) = 1

/-! ## Loops -/

theorem getD_of_lt {l : List ℕ} {k : ℕ} (hk : k < l.length) : l.getD k 0 = l[k] := by simp [hk]

theorem list_range_sum (f : ℕ → ℚ) (m : ℕ) : ((List.range m).map f).sum = ∑ i : Fin m, f i := by
  rw [← Finset.sum_range]
  induction m with
  | zero => simp
  | succ m ih => rw [List.range_succ, List.map_append, List.sum_append, ih, Finset.sum_range_succ]; simp

theorem colAbs_eq (l : List ℚ) : ∀ s, colAbs l s = s + (l.map abs).sum := by
  induction l with
  | nil => intro s; simp [colAbs]
  | cons v vs ih => intro s; simp [colAbs, ih]; ring

theorem condMax_spec (l : List ℚ) : ∀ s, s ≤ condMax l s ∧ (∀ v ∈ l, v ≤ condMax l s) ∧
    (condMax l s = s ∨ condMax l s ∈ l) := by
  induction l with
  | nil => intro s; simp [condMax]
  | cons v vs ih =>
    intro s
    obtain ⟨h1, h2, h3⟩ := ih (if v > s then v else s)
    simp only [condMax]
    have hs : s ≤ (if v > s then v else s) := by split <;> [exact le_of_lt (by assumption); exact le_rfl]
    have hv : v ≤ (if v > s then v else s) := by
      split
      · exact le_rfl
      · rename_i h; exact not_lt.1 h
    refine ⟨hs.trans h1, ?_, ?_⟩
    · intro w hw
      rcases List.mem_cons.1 hw with rfl | hw
      · exact hv.trans h1
      · exact h2 w hw
    · rcases h3 with h3 | h3
      · rw [h3]
        split
        · right; simp
        · left; rfl
      · right; simp [h3]

/-- Sum of the absolute values of a packed column over all rows. -/
theorem packed_absSum (m : ℕ) (c : List (ℕ × ℚ)) (hr : ∀ e ∈ c, e.1 < m) (hn : (c.map (·.1)).Nodup) :
    ∑ r : Fin m, |(c.lookup (r : ℕ)).getD 0| = colAbs (c.map (·.2)) 0 := by
  rw [colAbs_eq, zero_add, List.map_map]
  induction c with
  | nil => simp
  | cons e es ih =>
    have he : e.1 < m := hr e (by simp)
    have hn' : e.1 ∉ es.map (·.1) ∧ (es.map (·.1)).Nodup := by
      simpa using hn
    rw [List.map_cons, List.sum_cons, ← ih (fun x hx => hr x (by simp [hx])) hn'.2]
    have hnot : es.lookup e.1 = none := by
      rw [List.lookup_eq_none_iff]
      intro p hp
      simp only [beq_eq_false_iff_ne, ne_eq, bne_iff_ne]
      intro h
      exact hn'.1 (List.mem_map.2 ⟨p, hp, h.symm⟩)
    rw [← Finset.add_sum_erase _ _ (Finset.mem_univ (⟨e.1, he⟩ : Fin m)),
      ← Finset.add_sum_erase (a := (⟨e.1, he⟩ : Fin m)) (f := fun r : Fin m => |(es.lookup (r : ℕ)).getD 0|)
        _ (Finset.mem_univ _)]
    obtain ⟨i, v⟩ := e
    simp only at hnot he ⊢
    simp only [hnot, List.lookup_cons, beq_self_eq_true, Option.getD_some, Option.getD_none, abs_zero,
      zero_add, Function.comp_apply]
    congr 1
    apply Finset.sum_congr rfl
    intro r hr'
    have : (r : ℕ) ≠ i := fun h => (Finset.mem_erase.1 hr').1 (Fin.ext h)
    rw [show ((r : ℕ) == i) = false by simpa using this]

theorem basicS_lt (l : BasisLP) {k : ℕ} (hk : k < l.basicS.length) : l.basicS.getD k 0 < l.n := by
  rw [getD_of_lt hk]
  have := List.getElem_mem hk
  simpa using (List.mem_filter.1 this).1

theorem basicR_lt (l : BasisLP) {k : ℕ} (hk : k < l.basicR.length) : l.basicR.getD k 0 < l.m := by
  rw [getD_of_lt hk]
  have := List.getElem_mem hk
  simpa using (List.mem_filter.1 this).1

/-- Column sums of the basis matrix. -/
theorem basis_colSum (l : BasisLP) (h : l.Ok) (k : Fin l.m) :
    ∑ r, |basisMatrix l r k| = if (k : ℕ) < l.basicS.length
      then colAbs ((l.col (l.basicS.getD k 0)).map (·.2)) 0 else 1 := by
  simp only [basisMatrix, Matrix.of_apply, basisEntry]
  split
  · rename_i hk
    have hi := basicS_lt l hk
    exact packed_absSum l.m _ (h.rows _ hi) (h.nodup _ hi)
  · rename_i hk
    have hk' : (k : ℕ) - l.basicS.length < l.basicR.length := by have := h.square; have := k.2; omega
    have hlt := basicR_lt l hk'
    rw [Finset.sum_eq_single (⟨_, hlt⟩ : Fin l.m)]
    · simp
    · intro r _ hr
      have : (r : ℕ) ≠ l.basicR.getD (k - l.basicS.length) 0 := fun h => hr (Fin.ext h)
      simp only [this, if_false, abs_zero]
    · intro h; exact absurd (Finset.mem_univ _) h

theorem basicColNorms_eq (l : BasisLP) : basicColNorms l =
    l.basicS.map fun i => colAbs ((l.col i).map (·.2)) 0 := rfl

theorem colAbs_nonneg (l : List ℚ) : 0 ≤ colAbs l 0 := by
  rw [colAbs_eq, zero_add]
  exact List.sum_nonneg (by intro x hx; obtain ⟨y, -, rfl⟩ := List.mem_map.1 hx; exact abs_nonneg y)

/-- The first factor. -/
def codeNormB (l : BasisLP) : ℚ := if condMax (basicColNorms l) 0 < 1 then 1 else condMax (basicColNorms l) 0

/-- The first factor is the norm of the basis matrix, but never below 1. -/
theorem codeNormB_eq (l : BasisLP) (h : l.Ok) (hm : 0 < l.m) :
    ∃ a, IsNorm1 (basisMatrix l) a ∧ codeNormB l = max a 1 := by
  obtain ⟨h1, h2, h3⟩ := condMax_spec (basicColNorms l) 0
  rw [basicColNorms_eq] at h1 h2 h3
  have up : ∀ k : Fin l.m, (k : ℕ) < l.basicS.length →
      ∑ r, |basisMatrix l r k| ≤ condMax (l.basicS.map fun i => colAbs ((l.col i).map (·.2)) 0) 0 := by
    intro k hk
    rw [basis_colSum l h k, if_pos hk]
    apply h2
    rw [getD_of_lt hk]
    exact List.mem_map.2 ⟨_, List.getElem_mem hk, rfl⟩
  haveI : Nonempty (Fin l.m) := ⟨⟨0, hm⟩⟩
  obtain ⟨k0, hk0⟩ := Finite.exists_max (fun k : Fin l.m => ∑ r, |basisMatrix l r k|)
  refine ⟨_, ⟨⟨k0, rfl⟩, ?_⟩, ?_⟩
  · rintro _ ⟨k, rfl⟩; exact hk0 k
  · unfold codeNormB
    rw [basicColNorms_eq]
    set b := condMax (l.basicS.map fun i => colAbs ((l.col i).map (·.2)) 0) 0 with hb
    have cb : (if b < 1 then 1 else b) = max b 1 := by
      split
      · rename_i h; rw [max_eq_right h.le]
      · rename_i h; rw [max_eq_left (not_lt.1 h)]
    simp only [cb]
    apply le_antisymm
    · apply max_le _ (le_max_right _ _)
      rcases h3 with h3 | h3
      · rw [h3]; exact le_max_of_le_right (by norm_num)
      · obtain ⟨i, hi, hie⟩ := List.mem_map.1 h3
        obtain ⟨k, hk, rfl⟩ := List.getElem_of_mem hi
        have hkm : k < l.m := by have := h.square; omega
        have := hk0 ⟨k, hkm⟩
        rw [basis_colSum l h ⟨k, hkm⟩] at this
        simp only [hk, if_true, getD_of_lt hk] at this
        rw [hie] at this
        exact le_max_of_le_left this
    · apply max_le _ (le_max_right _ _)
      by_cases hk : (k0 : ℕ) < l.basicS.length
      · exact le_max_of_le_left (up k0 hk)
      · rw [basis_colSum l h k0, if_neg hk]
        exact le_max_right _ _

/-- The second factor is the norm of the matrix of the columns of the inverse. -/
theorem binv_norm (l : BasisLP) (hm : 0 < l.m) :
    IsNorm1 (Matrix.of fun j i : Fin l.m => l.binvCol i j) (condMax (binvNorms l) 0) := by
  have hs : ∀ k : Fin l.m, ∑ j : Fin l.m, |(Matrix.of fun j i : Fin l.m => l.binvCol i j) j k| =
      colAbs ((List.range l.m).map fun j => l.binvCol k j) 0 := by
    intro k
    rw [colAbs_eq, zero_add, List.map_map]
    exact (list_range_sum (fun j => |l.binvCol k j|) l.m).symm
  obtain ⟨h1, h2, h3⟩ := condMax_spec (binvNorms l) 0
  have hne : condMax (binvNorms l) 0 ∈ binvNorms l := by
    rcases h3 with h3 | h3
    · have hz : colAbs ((List.range l.m).map fun j => l.binvCol 0 j) 0 ∈ binvNorms l :=
        List.mem_map.2 ⟨0, by simpa using hm, rfl⟩
      have := h2 _ hz
      rw [h3] at this ⊢
      have he := le_antisymm this (colAbs_nonneg _)
      rw [← he]; exact hz
    · exact h3
  constructor
  · obtain ⟨i, hi, hie⟩ := List.mem_map.1 hne
    exact ⟨⟨i, by simpa using hi⟩, (hs _).trans hie⟩
  · rintro _ ⟨k, rfl⟩
    simp only [hs]
    exact h2 _ (List.mem_map.2 ⟨k, by simp, rfl⟩)

theorem cond1_eq (l : BasisLP) (h : l.available = true) : cond1 l = codeNormB l * condMax (binvNorms l) 0 := by
  unfold cond1 codeNormB
  simp [h]

/-- Norms of matrices that are inverse to each other. -/
theorem norm_mul_ge_one {m : ℕ} (hm : 0 < m) {A B : Matrix (Fin m) (Fin m) ℚ} (h : A * B = 1) {a b : ℚ}
    (ha : IsNorm1 A a) (hb : IsNorm1 B b) : 1 ≤ a * b := by
  set k : Fin m := ⟨0, hm⟩
  have h0 : (1 : ℚ) = ∑ r, |(A * B) r k| := by
    rw [h, Finset.sum_eq_single k]
    · simp
    · intro r _ hr; simp [Matrix.one_apply_ne hr]
    · intro h; exact absurd (Finset.mem_univ _) h
  have ha0 : 0 ≤ a := by
    obtain ⟨j, hj⟩ := ha.1
    rw [← hj]
    exact Finset.sum_nonneg fun _ _ => abs_nonneg _
  calc (1 : ℚ) = ∑ r, |∑ j, A r j * B j k| := h0
    _ ≤ ∑ r, ∑ j, |A r j| * |B j k| := by
        apply Finset.sum_le_sum
        intro r _
        refine (Finset.abs_sum_le_sum_abs _ _).trans (le_of_eq ?_)
        simp [abs_mul]
    _ = ∑ j, (∑ r, |A r j|) * |B j k| := by
        rw [Finset.sum_comm]
        simp [Finset.sum_mul]
    _ ≤ ∑ j, a * |B j k| := by
        apply Finset.sum_le_sum
        intro j _
        exact mul_le_mul_of_nonneg_right (ha.2 ⟨j, rfl⟩) (abs_nonneg _)
    _ = a * ∑ j, |B j k| := by rw [Finset.mul_sum]
    _ ≤ a * b := mul_le_mul_of_nonneg_left (hb.2 ⟨k, rfl⟩) ha0

/-- The order of the basic variables and the signs of the slacks do not change the norm. -/
theorem norm_perm {m : ℕ} (A : Matrix (Fin m) (Fin m) ℚ) (p : Equiv.Perm (Fin m)) (s : Fin m → ℚ)
    (hs : ∀ k, |s k| = 1) {a : ℚ} (ha : IsNorm1 A a) :
    IsNorm1 (Matrix.of fun r k => s k * A r (p k)) a := by
  have : (fun k => ∑ r, |(Matrix.of fun r k => s k * A r (p k)) r k|) =
      (fun k => ∑ r, |A r k|) ∘ p := by
    funext k
    simp [abs_mul, hs]
  unfold IsNorm1
  rw [this, p.surjective.range_comp]
  exact ha

/-! ## The property -/

/-- **C140**, norm 1: with a basis that contains a slack, or whose norm is at least 1, the result is the
product of the norms of the basis matrix and of its inverse (as given by the solver, in its order of the basic
variables). Missing: other bases, where the result is too large (`cond1_excess`, `cond1_wrong`). -/
theorem cond1_correct_partial (l : BasisLP) (h : l.Ok) (hm : 0 < l.m)
    (hb : 0 < l.basicR.length ∨ ∃ k : Fin l.m, 1 ≤ ∑ r, |basisMatrix l r k|) :
    ∃ a b, IsNorm1 (basisMatrix l) a ∧ IsNorm1 (Matrix.of fun j i : Fin l.m => l.binvCol i j) b ∧
      condNumber l 1 = .ok (.num (a * b)) := by
  obtain ⟨a, ha, he⟩ := codeNormB_eq l h hm
  refine ⟨a, _, ha, binv_norm l hm, ?_⟩
  have h1 : 1 ≤ a := by
    rcases hb with hb | ⟨k, hk⟩
    · have hlt : l.basicS.length < l.m := by have := h.square; omega
      have := basis_colSum l h ⟨l.basicS.length, hlt⟩
      rw [if_neg (by simp)] at this
      rw [← this]
      exact ha.2 ⟨_, rfl⟩
    · exact hk.trans (ha.2 ⟨k, rfl⟩)
  rw [max_eq_left h1] at he
  unfold condNumber
  rw [cond1_eq l h.avail, he]
  simp

/-- **C140**, norm 1, all bases: the result is the product in which the norm of the basis matrix counts as at
least 1. -/
theorem cond1_excess (l : BasisLP) (h : l.Ok) (hm : 0 < l.m) :
    ∃ a b, IsNorm1 (basisMatrix l) a ∧ IsNorm1 (Matrix.of fun j i : Fin l.m => l.binvCol i j) b ∧
      condNumber l 1 = .ok (.num (max a 1 * b)) := by
  obtain ⟨a, ha, he⟩ := codeNormB_eq l h hm
  refine ⟨a, _, ha, binv_norm l hm, ?_⟩
  unfold condNumber
  rw [cond1_eq l h.avail, he]
  simp

/-- **C140**: with a correct inverse the result in norm 1 is at least 1 and at least the condition number. -/
theorem cond1_ge (l : BasisLP) (h : l.Ok) (hm : 0 < l.m) (hi : l.GoodInv) :
    ∃ q, condNumber l 1 = .ok (.num q) ∧ 1 ≤ q ∧
      ∀ a b, IsNorm1 (basisMatrix l) a → IsNorm1 (Matrix.of fun j i : Fin l.m => l.binvCol i j) b →
        1 ≤ a * b ∧ a * b ≤ q := by
  obtain ⟨a, b, ha, hb, he⟩ := cond1_excess l h hm
  obtain ⟨p, s, hs, hmul⟩ := hi
  have h1 := norm_mul_ge_one hm hmul (norm_perm _ p s hs ha) hb
  have hb0 : 0 ≤ b := by
    obtain ⟨j, hj⟩ := hb.1
    rw [← hj]
    exact Finset.sum_nonneg fun _ _ => abs_nonneg _
  have h2 : a * b ≤ max a 1 * b := mul_le_mul_of_nonneg_right (le_max_left _ _) hb0
  refine ⟨_, he, h1.trans h2, fun a' b' ha' hb' => ?_⟩
  rw [ha'.unique ha, hb'.unique hb]
  exact ⟨h1, h2⟩

/-- Two rows, one basic structural column `(2, 3)`, the slack of the second row basic. -/
def condLP : BasisLP where
  m := 2
  n := 2
  cstat := fun i => if i = 1 then 1 else 3
  rstat := fun i => if i = 1 then 1 else 3
  col := fun i => if i = 1 then [(1, 3), (0, 2)] else [(0, 5)]
  binvCol := fun i j => if i = 0 then (if j = 0 then 1 / 2 else -3 / 2) else (if j = 0 then 0 else 1)

theorem condLP_ok : condLP.Ok := by
  constructor
  · rfl
  · decide +kernel
  · intro i _ e he
    simp only [condLP] at he ⊢
    split at he <;> simp at he
    · rcases he with rfl | rfl <;> simp
    · rw [he]; simp
  · intro i _
    simp only [condLP]
    split <;> simp

theorem condLP_inv : condLP.GoodInv := by
  refine ⟨Equiv.refl _, fun _ => 1, by simp, ?_⟩
  have e : ∀ r k : Fin 2, ∑ j : Fin 2, (1 * basisEntry condLP r j) * condLP.binvCol k j =
      if r = k then 1 else 0 := by decide +kernel
  ext r k
  exact e r k

/-- Non-vacuity: a basis with a slack; the result is `5 * 2`. -/
example : condLP.Ok ∧ 0 < condLP.m ∧ 0 < condLP.basicR.length ∧ condLP.GoodInv ∧
    condNumber condLP 1 = .ok (.num 10) :=
  ⟨condLP_ok, by decide, by decide +kernel, condLP_inv, by
    have : cond1 condLP = 10 := by decide +kernel
    unfold condNumber; rw [this]; simp⟩

/-- One row, one basic column with the coefficient 1/2. -/
def condSmall : BasisLP where
  m := 1
  n := 1
  cstat := fun _ => 1
  rstat := fun _ => 3
  col := fun _ => [(0, 1 / 2)]
  binvCol := fun _ _ => 2

/-- **C140** fails for a basis of small coefficients without slacks: the condition number of the matrix (1/2) is
1, the result is 2. -/
theorem cond1_wrong : condSmall.Ok ∧ condSmall.GoodInv ∧ IsNorm1 (basisMatrix condSmall) (1 / 2) ∧
    IsNorm1 (Matrix.of fun j i : Fin 1 => condSmall.binvCol i j) 2 ∧ condNumber condSmall 1 = .ok (.num 2) := by
  refine ⟨⟨rfl, by decide +kernel, ?_, ?_⟩, ⟨Equiv.refl _, fun _ => 1, by simp, ?_⟩, ?_, ?_, ?_⟩
  · intro i _ e he; simp [condSmall] at he ⊢; rw [he]
  · intro i _; simp [condSmall]
  · have e : ∀ r k : Fin 1, ∑ j : Fin 1, (1 * basisEntry condSmall r j) * condSmall.binvCol k j =
      if r = k then 1 else 0 := by decide +kernel
    ext r k
    exact e r k
  · have : ∀ k : Fin 1, ∑ r : Fin 1, |basisEntry condSmall r k| = 1 / 2 := by decide +kernel
    exact ⟨⟨(0 : Fin 1), this 0⟩, by rintro _ ⟨k, rfl⟩; exact (this k).le⟩
  · have : ∀ k : Fin 1, ∑ r : Fin 1, |condSmall.binvCol k r| = 2 := by
      decide +kernel
    exact ⟨⟨(0 : Fin 1), this 0⟩, by rintro _ ⟨k, rfl⟩; exact (this k).le⟩
  · have : cond1 condSmall = 2 := by decide +kernel
    unfold condNumber; rw [this]; simp

/-! ## Norm 2: the array given to LAPACK -/

theorem putCol_spec (off : ℕ) (es : List (ℕ × ℚ)) : ∀ a : List ℚ, (∀ e ∈ es, off + e.1 < a.length) →
    (es.map (·.1)).Nodup →
    ∃ a', putCol off es a = .ok a' ∧ a'.length = a.length ∧
      (∀ p, (∀ e ∈ es, off + e.1 ≠ p) → a'[p]? = a[p]?) ∧
      ∀ r, off + r < a.length → a'[off + r]? = some ((es.lookup r).getD (a.getD (off + r) 0)) := by
  induction es with
  | nil => intro a _ _; exact ⟨a, rfl, rfl, fun _ _ => rfl, fun r hr => by simp [hr]⟩
  | cons e es ih =>
    intro a hl hn
    have hn' : e.1 ∉ es.map (·.1) ∧ (es.map (·.1)).Nodup := by simpa using hn
    have h0 := hl e (by simp)
    obtain ⟨a', h1, h2, h3, h4⟩ := ih (a.set (off + e.1) e.2)
      (fun x hx => by simpa using hl x (by simp [hx])) hn'.2
    refine ⟨a', ?_, by simpa using h2, fun p hp => ?_, fun r hr => ?_⟩
    · unfold putCol putAt
      rw [if_pos h0]
      exact h1
    · rw [h3 p (fun x hx => hp x (by simp [hx])), List.getElem?_set_ne (hp e (by simp))]
    · rw [h4 r (by simpa using hr)]
      congr 1
      rw [List.lookup_cons]
      by_cases hre : r = e.1
      · have hnot : es.lookup e.1 = none := by
          rw [List.lookup_eq_none_iff]
          intro p hp
          simp only [ne_eq, bne_iff_ne]
          intro h
          exact hn'.1 (List.mem_map.2 ⟨p, hp, h.symm⟩)
        subst hre
        simp [hnot, hr]
      · rw [show (r == e.1) = false by simpa using hre]
        have hne : off + e.1 ≠ off + r := by omega
        congr 1
        simp [List.getElem?_set_ne hne]

theorem putCols_spec (m : ℕ) (cs : List (List (ℕ × ℚ))) : ∀ (k : ℕ) (a : List ℚ),
    (k + cs.length) * m ≤ a.length → (∀ c ∈ cs, ∀ e ∈ c, e.1 < m) → (∀ c ∈ cs, (c.map (·.1)).Nodup) →
    ∃ a', putCols m cs k a = .ok (a', k + cs.length) ∧ a'.length = a.length ∧
      (∀ p, p < k * m → a'[p]? = a[p]?) ∧
      ∀ j r, (hj : j < cs.length) → r < m →
        a'[(k + j) * m + r]? = some ((cs[j].lookup r).getD (a.getD ((k + j) * m + r) 0)) := by
  induction cs with
  | nil => intro k a _ _ _; exact ⟨a, rfl, rfl, fun _ _ => rfl, fun j r hj => by simp at hj⟩
  | cons c cs ih =>
    intro k a hl hr hn
    have hlen : (k + cs.length + 1) * m ≤ a.length := by simpa [Nat.add_assoc] using hl
    have hle : (k + 1) * m ≤ a.length := le_trans (Nat.mul_le_mul_right m (by omega)) hlen
    have hcr : ∀ r, r < m → k * m + r < a.length := by
      intro r hr
      have : (k + 1) * m = k * m + m := by ring
      omega
    obtain ⟨a1, h1, h2, h3, h4⟩ := putCol_spec (k * m) c a (fun e he => hcr _ (hr c (by simp) e he))
      (hn c (by simp))
    obtain ⟨a', g1, g2, g3, g4⟩ := ih (k + 1) a1 (by rw [h2]; convert hlen using 2; ring)
      (fun x hx => hr x (by simp [hx])) (fun x hx => hn x (by simp [hx]))
    refine ⟨a', ?_, by rw [g2, h2], fun p hp => ?_, fun j r hj hrm => ?_⟩
    · unfold putCols
      rw [h1]
      simp only [Res.bind]
      rw [g1]
      simp; omega
    · rw [g3 p (lt_of_lt_of_le hp (Nat.mul_le_mul_right m (by omega)))]
      exact h3 p (fun e _ => by omega)
    · cases j with
      | zero =>
        rw [g3]
        · simpa using h4 r (hcr r hrm)
        · have : (k + 1) * m = k * m + m := by ring
          simp; omega
      | succ j =>
        have := g4 j r (by simpa using hj) hrm
        rw [show k + 1 + j = k + (j + 1) by omega] at this
        rw [this]
        congr 2
        have hp : a1[(k + (j + 1)) * m + r]? = a[(k + (j + 1)) * m + r]? := by
          apply h3
          intro e he
          have he' := hr c (by simp) e he
          have : (k + (j + 1)) * m = k * m + m + j * m := by ring
          omega
        simp only [List.getD, hp]

theorem basisCols_eq (l : BasisLP) : basisCols l = l.basicS.map l.col ++ l.basicR.map fun i => [(i, 1)] := rfl

/-- **C140**, norm 2: if `m * m` fits an `int`, all writes are inside the array, and the array given to LAPACK is
the basis matrix, column by column. -/
theorem basisArray_spec (l : BasisLP) (h : l.Ok) (hm : l.m * l.m < 2 ^ 31) :
    ∃ a, basisArray l = .ok a ∧ a.length = l.m * l.m ∧
      ∀ r k : Fin l.m, a[(k : ℕ) * l.m + r]? = some (basisMatrix l r k) := by
  have hlen : (basisCols l).length = l.m := by rw [basisCols_eq]; simpa using h.square
  obtain ⟨a, h1, h2, -, h4⟩ := putCols_spec l.m (basisCols l) 0 (List.replicate (l.m * l.m) 0)
    (by simp [hlen])
    (by
      intro c hc e he
      rw [basisCols_eq, List.mem_append, List.mem_map, List.mem_map] at hc
      rcases hc with ⟨i, hi, rfl⟩ | ⟨i, hi, rfl⟩
      · exact h.rows i (by simpa using (List.mem_filter.1 hi).1) e he
      · rw [List.mem_singleton] at he
        subst he
        simpa using (List.mem_filter.1 hi).1)
    (by
      intro c hc
      rw [basisCols_eq, List.mem_append, List.mem_map, List.mem_map] at hc
      rcases hc with ⟨i, hi, rfl⟩ | ⟨i, hi, rfl⟩
      · exact h.nodup i (by simpa using (List.mem_filter.1 hi).1)
      · simp)
  refine ⟨a, ?_, by simpa using h2, fun r k => ?_⟩
  · unfold basisArray
    rw [if_neg (by omega), h1]
    rfl
  · have := h4 k r (by rw [hlen]; exact k.2) r.2
    rw [Nat.zero_add] at this
    rw [this]
    congr 1
    have hz : (List.replicate (l.m * l.m) (0 : ℚ)).getD ((k : ℕ) * l.m + r) 0 = 0 := by
      simp [List.getD, List.getElem?_replicate]
      split <;> simp
    rw [hz]
    simp only [basisMatrix, Matrix.of_apply, basisEntry]
    by_cases hk : (k : ℕ) < l.basicS.length
    · rw [if_pos hk, BasisLP.coef, getD_of_lt hk]
      congr 2
      simp only [basisCols_eq]
      rw [List.getElem_append_left (by simpa using hk)]
      simp
    · have hk' : (k : ℕ) - l.basicS.length < l.basicR.length := by have := h.square; have := k.2; omega
      rw [if_neg hk, getD_of_lt hk']
      have hcol : (basisCols l)[(k : ℕ)]'(by rw [hlen]; exact k.2) =
          [(l.basicR[(k : ℕ) - l.basicS.length], 1)] := by
        simp only [basisCols_eq]
        rw [List.getElem_append_right (by simpa using hk)]
        simp
      rw [hcol, List.lookup_cons]
      by_cases hr : (r : ℕ) = l.basicR[(k : ℕ) - l.basicS.length]
      · simp [hr]
      · rw [show ((r : ℕ) == l.basicR[(k : ℕ) - l.basicS.length]) = false by simpa using hr]
        simp [hr]

/-- **C140**, norm 2: with a square basis of at least one row and a correct LAPACK (`s` the singular values in
descending order, all positive), the result is the quotient of the largest and the smallest. -/
theorem cond2_correct_partial (l : BasisLP) (h : l.Ok) (h0 : 0 < l.m) (hm : l.m * l.m < 2 ^ 31) :
    ∃ a : List ℚ, a.length = l.m * l.m ∧ (∀ r k : Fin l.m, a[(k : ℕ) * l.m + r]? = some (basisMatrix l r k)) ∧
      (l.svd a = none → condNumber l 2 = .ok (.num 0)) ∧
      ∀ s, l.svd a = some s → s.length = l.m → (∀ x ∈ s, 0 < x) →
        ∃ x y, s.head? = some x ∧ s.getLast? = some y ∧ condNumber l 2 = .ok (.num (x / y)) := by
  obtain ⟨a, h1, h2, h3⟩ := basisArray_spec l h hm
  refine ⟨a, h2, h3, fun hs => ?_, fun s hs hl hp => ?_⟩
  · unfold condNumber cond2
    simp [h.avail, h1, Res.bind, hs]
  · have e0 : s[0]? = some (s[0]'(by omega)) := List.getElem?_eq_getElem (by omega)
    have e1 : s[l.m - 1]? = some (s[l.m - 1]'(by omega)) := List.getElem?_eq_getElem (by omega)
    refine ⟨s[0]'(by omega), s[l.m - 1]'(by omega), by rw [List.head?_eq_getElem?, e0], ?_, ?_⟩
    · have hlm : s.length - 1 = l.m - 1 := by rw [hl]
      rw [List.getLast?_eq_getElem?, hlm, e1]
    · have hy := hp _ (List.getElem_mem (l := s) (n := l.m - 1) (by omega))
      unfold condNumber cond2
      simp only [h.avail, h1, Res.bind, hs, e0, e1]
      simp [h0.ne', hy.ne']

/-- The array of the example. -/
example : basisArray condLP = .ok [2, 3, 0, 1] := by decide +kernel

example : condLP.Ok ∧ condLP.m * condLP.m < 2 ^ 31 ∧
    condNumber { condLP with svd := fun _ => some [4, 2] } 2 = .ok (.num 2) := by
  exact ⟨condLP_ok, by decide, by decide +kernel⟩

/-- Without rows the second norm reads in front of the array; from 46341 rows on the size overflows. -/
theorem cond2_undef (l : BasisLP) (ha : l.available = true) (h : 46341 ≤ l.m) : condNumber l 2 = .undef := by
  have : 2 ^ 31 ≤ l.m * l.m := le_trans (by norm_num) (Nat.mul_le_mul h h)
  unfold condNumber cond2 basisArray
  simp only [ha, this, if_true]
  rfl

theorem cond2_empty (l : BasisLP) (ha : l.available = true) (h0 : l.m = 0) (hc : ∀ i < l.n, l.cstat i ≠ 1)
    (s : List ℚ) (hs : l.svd [] = some s) : condNumber l 2 = .undef := by
  have hS : l.basicS = [] := by
    apply List.filter_eq_nil_iff.2
    intro i hi
    simpa using hc i (by simpa using hi)
  have hR : l.basicR = [] := by simp [BasisLP.basicR, h0]
  have h1 : basisArray l = .ok [] := by
    unfold basisArray
    rw [basisCols_eq, hS, hR, h0]
    simp [putCols, Res.bind]
  unfold condNumber cond2
  simp [ha, h1, Res.bind, hs, h0]

/-- The hypotheses of the two are met. -/
example : ({ condLP with m := 50000 } : BasisLP).available = true ∧ 46341 ≤ ({ condLP with m := 50000 } : BasisLP).m :=
  ⟨rfl, by decide⟩

example : condNumber ⟨0, 1, true, fun _ => 3, fun _ => 3, fun _ => [], fun _ _ => 0, fun _ => some []⟩ 2
    = .undef :=
  cond2_empty _ rfl rfl (by intro i _; simp) [] rfl

/-- Other norms and missing bases give 0. -/
theorem cond_other (l : BasisLP) (norm : ℤ) (h : norm < 1 ∨ 2 < norm ∨ l.available = false) :
    condNumber l norm = .ok (.num 0) := by
  unfold condNumber
  split
  · rfl
  · rename_i hn
    have ha : l.available = false := by
      rcases h with h | h | h
      · exact absurd (Or.inl h) hn
      · exact absurd (Or.inr h) hn
      · exact h
    split
    · simp [cond1, ha]
    · simp [cond2, ha]

/-- Norm 1 leaves one copy of the solver behind on every call (C139). -/
theorem cond1_leaks {σ : Type} (av : Bool) (work : σ → σ) {h : BMem σ} (hf : h.Fresh) {a : ℕ}
    (ha : h.Live a) : RunsTo (cond1Mem av work h a) fun h' => Bal ∅ h h' 1 := by
  unfold cond1Mem
  refine (dup_runs hf ha ∅).bind ?_
  rintro ⟨h1, b⟩ ⟨hb, b1, hl⟩
  dsimp only at hb b1 hl ⊢
  subst hb
  split
  · exact RunsTo.ok b1
  · exact ((use_runs b1.top hl work).step b1 (M' := {h.next}) (by
      intro a ha hm; simp only [Set.mem_singleton_iff] at hm; omega)).mono fun _ hx => hx.1

end VPC
