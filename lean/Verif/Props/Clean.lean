import Verif.Model.Clean
import Mathlib.Data.Finset.Card
import Mathlib.Data.Finset.Range
import Mathlib.Tactic.Linarith
import Mathlib.Tactic.NormNum

/-!
# Cleaning a problem (C06)
-/
namespace VPC

/-! ## Specification -/

/-- Integer-feasible points. -/
def MipFeas (P : Relax) (isInt : ℕ → Bool) (x : Vec) : Prop :=
  P.Feas x ∧ ∀ i, isInt i = true → ∃ k : ℤ, x i = k

/-- The answers about branches are true: a branch reported infeasible is empty. -/
def CleanEnv.SBTrue (env : CleanEnv) : Prop := ∀ Q, env.sb Q = true → ∀ x, ¬ Q.Feas x

/-- The auxiliary LPs are solved correctly: the reported solution is feasible and optimal, in the
direction of the sense that was set (`1` minimize, `-1` maximize), for the objective
`coeff * x_col`. -/
def CleanEnv.LPTrue (env : CleanEnv) : Prop :=
  ∀ s k col Q y, env.opt s k col Q = some y →
    Q.Feas y ∧ ∀ z, Q.Feas z → s * (k * y col) ≤ s * (k * z col)

/-- All bounds of `B` are at least as tight as those of `P`, and the rows are the same. -/
structure Tighter (B P : Relax) : Prop where
  rows : B.rows = P.rows
  lenLo : B.lo.length = P.lo.length
  lenHi : B.hi.length = P.hi.length
  lo : ∀ i l, P.loAt i = some l → ∃ l', B.loAt i = some l' ∧ l ≤ l'
  hi : ∀ i u, P.hiAt i = some u → ∃ u', B.hiAt i = some u' ∧ u' ≤ u

/-- Some bound of `B` is strictly tighter than that of `P`. -/
def StrictlyTighter (B P : Relax) : Prop :=
  ∃ i, (∃ l', B.loAt i = some l' ∧ ∀ l, P.loAt i = some l → l < l') ∨
    ∃ u', B.hiAt i = some u' ∧ ∀ u, P.hiAt i = some u → u' < u

theorem loAt_of_get {P : Relax} {i : ℕ} {b : Option ℚ} (h : P.lo[i]? = some b) : P.loAt i = b := by
  simp [Relax.loAt, h]

theorem hiAt_of_get {P : Relax} {i : ℕ} {b : Option ℚ} (h : P.hi[i]? = some b) : P.hiAt i = b := by
  simp [Relax.hiAt, h]

theorem lo_of_loAt {P : Relax} {i : ℕ} {l : ℚ} (h : P.loAt i = some l) : P.lo[i]? = some (some l) := by
  unfold Relax.loAt at h
  rw [List.getD_eq_getElem?_getD] at h
  cases hc : P.lo[i]? with
  | none => rw [hc] at h; simp at h
  | some b => rw [hc] at h; simp only [Option.getD_some] at h; rw [h]

theorem hi_of_hiAt {P : Relax} {i : ℕ} {l : ℚ} (h : P.hiAt i = some l) : P.hi[i]? = some (some l) := by
  unfold Relax.hiAt at h
  rw [List.getD_eq_getElem?_getD] at h
  cases hc : P.hi[i]? with
  | none => rw [hc] at h; simp at h
  | some b => rw [hc] at h; simp only [Option.getD_some] at h; rw [h]

theorem Feas.loAt {P : Relax} {x : Vec} (h : P.Feas x) {i : ℕ} {l : ℚ} (hl : P.loAt i = some l) :
    l ≤ x i := h.1 i _ (lo_of_loAt hl) l rfl

theorem Feas.hiAt {P : Relax} {x : Vec} (h : P.Feas x) {i : ℕ} {l : ℚ} (hl : P.hiAt i = some l) :
    x i ≤ l := h.2.1 i _ (hi_of_hiAt hl) l rfl

theorem Tighter.feas {B P : Relax} (h : Tighter B P) {x : Vec} (hx : B.Feas x) : P.Feas x := by
  refine ⟨fun i b hb l hl => ?_, fun i b hb u hu => ?_, ?_⟩
  · subst hl
    obtain ⟨l', h1, h2⟩ := h.lo i l (loAt_of_get hb)
    exact h2.trans (Feas.loAt hx h1)
  · subst hu
    obtain ⟨l', h1, h2⟩ := h.hi i u (hiAt_of_get hb)
    exact (Feas.hiAt hx h1).trans h2
  · rw [← h.rows]; exact hx.2.2

theorem setLo_loAt {B : Relax} {col : ℕ} {v : ℚ} (hc : col < B.lo.length) (i : ℕ) :
    (B.setLo col v).loAt i = if i = col then some v else B.loAt i := by
  unfold Relax.setLo Relax.loAt
  simp only [List.getD_eq_getElem?_getD, List.getElem?_set]
  by_cases h : col = i
  · subst h; simp [hc]
  · simp [h, Ne.symm h]

theorem setHi_hiAt {B : Relax} {col : ℕ} {v : ℚ} (hc : col < B.hi.length) (i : ℕ) :
    (B.setHi col v).hiAt i = if i = col then some v else B.hiAt i := by
  unfold Relax.setHi Relax.hiAt
  simp only [List.getD_eq_getElem?_getD, List.getElem?_set]
  by_cases h : col = i
  · subst h; simp [hc]
  · simp [h, Ne.symm h]

theorem feas_setLo {B : Relax} {x : Vec} {col : ℕ} {v : ℚ} (h : B.Feas x) (hv : v ≤ x col) :
    (B.setLo col v).Feas x := by
  refine ⟨fun i b hb l hl => ?_, h.2.1, h.2.2⟩
  simp only [Relax.setLo, List.getElem?_set] at hb
  by_cases hi : col = i
  · subst hi
    rw [if_pos rfl] at hb
    split at hb
    · cases hb; cases hl; exact hv
    · cases hb
  · rw [if_neg hi] at hb; exact h.1 i b hb l hl

theorem feas_setHi {B : Relax} {x : Vec} {col : ℕ} {v : ℚ} (h : B.Feas x) (hv : x col ≤ v) :
    (B.setHi col v).Feas x := by
  refine ⟨h.1, fun i b hb l hl => ?_, h.2.2⟩
  simp only [Relax.setHi, List.getElem?_set] at hb
  by_cases hi : col = i
  · subst hi
    rw [if_pos rfl] at hb
    split at hb
    · cases hb; cases hl; exact hv
    · cases hb
  · rw [if_neg hi] at hb; exact h.2.1 i b hb l hl

/-! ## Preservation of integer-feasible points -/

theorem cleanSB_keeps {P : Relax} {env : CleanEnv} {col : ℕ} {s s' : CleanSt} {x : Vec}
    (h : cleanSB P env col s = .ok s') (hsb : env.SBTrue) (hx : MipFeas P env.isInt x)
    (hint : env.isInt col = true) (hB : s.bs.Feas x) : s'.bs.Feas x := by
  obtain ⟨k, hk⟩ := hx.2 col hint
  unfold cleanSB at h
  split at h
  · dsimp only at h
    split at h
    · cases h
    split at h
    · rename_i hd
      simp only [Bool.not_not] at hd
      simp only [Res.ok.injEq] at h; subst h
      refine feas_setLo hB ?_
      have : ¬ x col ≤ (⌊env.x0 col⌋ : ℤ) := fun hle => hsb _ hd x (feas_setHi hx.1 hle)
      rw [hk] at this ⊢
      have h1 : ⌊env.x0 col⌋ < k := by by_contra hc; exact this (by exact_mod_cast not_lt.mp hc)
      have h2 := Int.ceil_le_floor_add_one (env.x0 col)
      exact_mod_cast (by omega : ⌈env.x0 col⌉ ≤ k)
    · split at h
      · rename_i hu
        simp only [Bool.not_not] at hu
        simp only [Res.ok.injEq] at h; subst h
        refine feas_setHi hB ?_
        have : ¬ ((⌈env.x0 col⌉ : ℤ) : ℚ) ≤ x col := fun hle => hsb _ hu x (feas_setLo hx.1 hle)
        rw [hk] at this ⊢
        have h1 : k < ⌈env.x0 col⌉ := by by_contra hc; exact this (by exact_mod_cast not_lt.mp hc)
        have h2 := Int.ceil_le_floor_add_one (env.x0 col)
        exact_mod_cast (by omega : k ≤ ⌊env.x0 col⌋)
      · simp only [Res.ok.injEq] at h; subst h; exact hB
  · simp only [Res.ok.injEq] at h; subst h; exact hB

theorem cleanLB_keeps {P : Relax} {col : ℕ} {s : CleanSt} {x : Vec} (hx : P.Feas x)
    (hint : ∃ k : ℤ, x col = k) (hB : s.bs.Feas x) : (cleanLB P col s).bs.Feas x := by
  obtain ⟨k, hk⟩ := hint
  unfold cleanLB
  split
  · exact hB
  · rename_i l hl
    split
    · refine feas_setLo hB ?_
      have := Feas.loAt hx hl
      rw [hk] at this ⊢
      exact_mod_cast Int.ceil_le.mpr this
    · exact hB

theorem cleanUB_keeps {P : Relax} {col : ℕ} {s : CleanSt} {x : Vec} (hx : P.Feas x)
    (hint : ∃ k : ℤ, x col = k) (hB : s.bs.Feas x) : (cleanUB P col s).bs.Feas x := by
  obtain ⟨k, hk⟩ := hint
  unfold cleanUB
  split
  · exact hB
  · rename_i l hl
    split
    · refine feas_setHi hB ?_
      have := Feas.hiAt hx hl
      rw [hk] at this ⊢
      exact_mod_cast Int.le_floor.mpr this
    · exact hB

theorem cleanTightLB_keeps {P : Relax} {env : CleanEnv} {col : ℕ} {s : CleanSt} {x : Vec}
    (hlp : env.LPTrue) (hs : env.sense = 1) (hB : s.bs.Feas x) :
    (cleanTightLB P env col s).bs.Feas x := by
  unfold cleanTightLB
  split
  · exact hB
  · rename_i y hy
    split
    · refine feas_setLo hB ?_
      have := (hlp _ _ _ _ _ hy).2 x hB
      rw [hs] at this; linarith
    · exact hB

theorem cleanTightUB_keeps {P : Relax} {env : CleanEnv} {col : ℕ} {s : CleanSt} {x : Vec}
    (hlp : env.LPTrue) (hs : env.sense = 1) (hB : s.bs.Feas x) :
    (cleanTightUB P env col s).bs.Feas x := by
  unfold cleanTightUB
  split
  · exact hB
  · rename_i y hy
    split
    · refine feas_setHi hB ?_
      have := (hlp _ _ _ _ _ hy).2 x hB
      rw [hs] at this; linarith
    · exact hB

theorem cleanCol_keeps {P : Relax} {env : CleanEnv} {col : ℕ} {s s' : CleanSt} {x : Vec}
    (h : cleanCol P env col s = .ok s') (hsb : env.SBTrue) (hlp : env.LPTrue) (hs : env.sense = 1)
    (hx : MipFeas P env.isInt x) (hB : s.bs.Feas x) : s'.bs.Feas x := by
  unfold cleanCol at h
  obtain ⟨s1, h1, h2⟩ := Res.bind_ok h
  simp only [Res.ok.injEq] at h2; subst h2
  refine cleanTightUB_keeps hlp hs (cleanTightLB_keeps hlp hs ?_)
  split at h1
  · rename_i hint
    obtain ⟨s2, h3, h4⟩ := Res.bind_ok h1
    simp only [Res.ok.injEq] at h4; subst h4
    exact cleanUB_keeps hx.1 (hx.2 _ hint) (cleanLB_keeps hx.1 (hx.2 _ hint)
      (cleanSB_keeps h3 hsb hx hint hB))
  · simp only [Res.ok.injEq] at h1; subst h1; exact hB

theorem cleanCols_keeps {P : Relax} {env : CleanEnv} {cols : List ℕ} {s s' : CleanSt} {x : Vec}
    (h : cleanCols P env cols s = .ok s') (hsb : env.SBTrue) (hlp : env.LPTrue) (hs : env.sense = 1)
    (hx : MipFeas P env.isInt x) (hB : s.bs.Feas x) : s'.bs.Feas x := by
  induction cols generalizing s with
  | nil => simp only [cleanCols, Res.ok.injEq] at h; subst h; exact hB
  | cons c cs ih =>
    obtain ⟨s1, h1, h2⟩ := Res.bind_ok h
    exact ih h2 (cleanCol_keeps h1 hsb hlp hs hx hB)

/-! ## Bounds only get tighter -/

/-- What the loop maintains about the auxiliary problem. -/
structure CleanInv (P : Relax) (s : CleanSt) : Prop where
  tight : Tighter s.bs P
  same : s.clean = true → s.bs = P ∧ s.numBounds = 0 ∧ s.numSB = 0
  changed : s.clean = false → StrictlyTighter s.bs P ∧ 0 < s.numBounds + s.numSB

theorem inv_setLo {P : Relax} {s : CleanSt} (h : CleanInv P s) {col : ℕ} {v : ℚ} {nb ns : ℕ}
    (hc : col < P.lo.length) (hv : ∀ l, P.loAt col = some l → l < v) (hn : 0 < nb + ns) :
    CleanInv P { bs := s.bs.setLo col v, numBounds := nb, numSB := ns, clean := false } := by
  have hc' : col < s.bs.lo.length := by rw [h.tight.lenLo]; exact hc
  refine ⟨⟨h.tight.rows, by simp [Relax.setLo, h.tight.lenLo], h.tight.lenHi, fun i l hl => ?_,
    h.tight.hi⟩, by simp, fun _ => ⟨⟨col, Or.inl ⟨v, ?_, hv⟩⟩, hn⟩⟩
  · dsimp only
    rw [setLo_loAt hc']
    split
    · rename_i hi; subst hi; exact ⟨v, rfl, (hv l hl).le⟩
    · exact h.tight.lo i l hl
  · dsimp only; rw [setLo_loAt hc', if_pos rfl]

theorem inv_setHi {P : Relax} {s : CleanSt} (h : CleanInv P s) {col : ℕ} {v : ℚ} {nb ns : ℕ}
    (hc : col < P.hi.length) (hv : ∀ u, P.hiAt col = some u → v < u) (hn : 0 < nb + ns) :
    CleanInv P { bs := s.bs.setHi col v, numBounds := nb, numSB := ns, clean := false } := by
  have hc' : col < s.bs.hi.length := by rw [h.tight.lenHi]; exact hc
  refine ⟨⟨h.tight.rows, h.tight.lenLo, by simp [Relax.setHi, h.tight.lenHi], h.tight.lo,
    fun i l hl => ?_⟩, by simp, fun _ => ⟨⟨col, Or.inr ⟨v, ?_, hv⟩⟩, hn⟩⟩
  · dsimp only
    rw [setHi_hiAt hc']
    split
    · rename_i hi; subst hi; exact ⟨v, rfl, (hv l hl).le⟩
    · exact h.tight.hi i l hl
  · dsimp only; rw [setHi_hiAt hc', if_pos rfl]

theorem frac_not_int {away v : ℚ} (ha : 0 < away) (h : cleanFrac away v = true) :
    ((⌊v⌋ : ℤ) : ℚ) < v ∧ v < ((⌈v⌉ : ℤ) : ℚ) := by
  unfold cleanFrac at h
  simp only [Bool.and_eq_true, Bool.not_eq_true', ← Bool.not_eq_true, isVal_iff] at h
  constructor
  · refine lt_of_le_of_ne (Int.floor_le v) fun he => h.1 ?_
    rw [he]; simpa using ha
  · refine lt_of_le_of_ne (Int.le_ceil v) fun he => h.2 ?_
    rw [← he]; simpa using ha

theorem cleanSB_inv {P : Relax} {env : CleanEnv} {col : ℕ} {s s' : CleanSt}
    (h : cleanSB P env col s = .ok s') (hI : CleanInv P s) (ha : 0 < env.away)
    (hx0 : (∀ l, P.loAt col = some l → l ≤ env.x0 col) ∧ ∀ u, P.hiAt col = some u → env.x0 col ≤ u)
    (hc : col < P.lo.length) (hc' : col < P.hi.length) : CleanInv P s' := by
  unfold cleanSB at h
  split at h
  · rename_i hf
    have hfr := frac_not_int ha hf
    dsimp only at h
    split at h
    · cases h
    split at h
    · simp only [Res.ok.injEq] at h; subst h
      exact inv_setLo hI hc (fun l hl => lt_of_le_of_lt (hx0.1 l hl) hfr.2) (by omega)
    · split at h
      · simp only [Res.ok.injEq] at h; subst h
        exact inv_setHi hI hc' (fun l hl => lt_of_lt_of_le hfr.1 (hx0.2 l hl)) (by omega)
      · simp only [Res.ok.injEq] at h; subst h; exact hI
  · simp only [Res.ok.injEq] at h; subst h; exact hI

theorem cleanLB_inv {P : Relax} {col : ℕ} {s : CleanSt} (hI : CleanInv P s)
    (hc : col < P.lo.length) : CleanInv P (cleanLB P col s) := by
  unfold cleanLB
  split
  · exact hI
  · rename_i l hl
    split
    · rename_i hv
      simp only [Bool.not_eq_true', ← Bool.not_eq_true, isVal_iff] at hv
      refine inv_setLo hI hc (fun l' hl' => ?_) (by omega)
      rw [hl] at hl'; cases hl'
      refine lt_of_le_of_ne (Int.le_ceil l) fun he => hv ?_
      have : ((⌊l⌋ : ℤ) : ℚ) = l := by
        rw [he, Int.floor_intCast]
      rw [this]; norm_num [defEps]
    · exact hI

theorem cleanUB_inv {P : Relax} {col : ℕ} {s : CleanSt} (hI : CleanInv P s)
    (hc : col < P.hi.length) : CleanInv P (cleanUB P col s) := by
  unfold cleanUB
  split
  · exact hI
  · rename_i l hl
    split
    · rename_i hv
      simp only [Bool.not_eq_true', ← Bool.not_eq_true, isVal_iff] at hv
      refine inv_setHi hI hc (fun l' hl' => ?_) (by omega)
      rw [hl] at hl'; cases hl'
      refine lt_of_le_of_ne (Int.floor_le l) fun he => hv ?_
      have : ((⌈l⌉ : ℤ) : ℚ) = l := by
        rw [← he, Int.ceil_intCast]
      rw [this]; norm_num [defEps]
    · exact hI

theorem cleanTightLB_inv {P : Relax} {env : CleanEnv} {col : ℕ} {s : CleanSt} (hI : CleanInv P s)
    (hc : col < P.lo.length) : CleanInv P (cleanTightLB P env col s) := by
  unfold cleanTightLB
  split
  · exact hI
  · split
    · rename_i y _ hg
      refine inv_setLo hI hc (fun l hl => ?_) (by omega)
      rw [hl] at hg
      simp only [gtLo, greaterThanVal_iff] at hg
      have : (0 : ℚ) < defEps := by norm_num [defEps]
      linarith
    · exact hI

theorem cleanTightUB_inv {P : Relax} {env : CleanEnv} {col : ℕ} {s : CleanSt} (hI : CleanInv P s)
    (hc : col < P.hi.length) : CleanInv P (cleanTightUB P env col s) := by
  unfold cleanTightUB
  split
  · exact hI
  · split
    · rename_i y _ hg
      refine inv_setHi hI hc (fun l hl => ?_) (by omega)
      rw [hl] at hg
      simp only [ltHi, lessThanVal_iff] at hg
      have : (0 : ℚ) < defEps := by norm_num [defEps]
      linarith
    · exact hI

theorem cleanCols_inv {P : Relax} {env : CleanEnv} {cols : List ℕ} {s s' : CleanSt}
    (h : cleanCols P env cols s = .ok s') (hI : CleanInv P s) (ha : 0 < env.away)
    (hx0 : ∀ i, (∀ l, P.loAt i = some l → l ≤ env.x0 i) ∧ ∀ u, P.hiAt i = some u → env.x0 i ≤ u)
    (hw : P.hi.length = P.lo.length) (hcols : ∀ c ∈ cols, c < P.lo.length) : CleanInv P s' := by
  induction cols generalizing s with
  | nil => simp only [cleanCols, Res.ok.injEq] at h; subst h; exact hI
  | cons c cs ih =>
    obtain ⟨s1, h1, h2⟩ := Res.bind_ok h
    have hc := hcols c (by simp)
    have hc' : c < P.hi.length := by rw [hw]; exact hc
    refine ih h2 ?_ fun c hc => hcols c (by simp [hc])
    unfold cleanCol at h1
    obtain ⟨s3, h3, h4⟩ := Res.bind_ok h1
    simp only [Res.ok.injEq] at h4; subst h4
    refine cleanTightUB_inv (cleanTightLB_inv ?_ hc) hc'
    split at h3
    · obtain ⟨s2, h5, h6⟩ := Res.bind_ok h3
      simp only [Res.ok.injEq] at h6; subst h6
      exact cleanUB_inv (cleanLB_inv (cleanSB_inv h5 hI ha (hx0 c) hc hc') hc) hc'
    · simp only [Res.ok.injEq] at h3; subst h3; exact hI

theorem cleanInv_init (P : Relax) : CleanInv P { bs := P } :=
  ⟨⟨rfl, rfl, rfl, fun _ l h => ⟨l, h, le_rfl⟩, fun _ l h => ⟨l, h, le_rfl⟩⟩, fun _ => ⟨rfl, rfl, rfl⟩,
    by simp⟩

theorem cleanProblem_cols {P : Relax} {env : CleanEnv} {s : CleanSt} (h : cleanProblem P env = .ok s)
    : ∃ s0, cleanCols P env (List.range P.lo.length) { bs := P } = .ok s0 ∧
      s = { s0 with bs := { P with lo := s0.bs.lo, hi := s0.bs.hi } } := by
  obtain ⟨s0, h1, h2⟩ := Res.bind_ok h
  simp only [Res.ok.injEq] at h2
  exact ⟨s0, h1, h2.symm⟩

/-- The auxiliary solver keeps the rows of the problem. -/
theorem cleanCols_rows {P : Relax} {env : CleanEnv} {cols : List ℕ} {s s' : CleanSt}
    (h : cleanCols P env cols s = .ok s') : s'.bs.rows = s.bs.rows := by
  induction cols generalizing s with
  | nil => simp only [cleanCols, Res.ok.injEq] at h; subst h; rfl
  | cons c cs ih =>
    obtain ⟨s1, h1, h2⟩ := Res.bind_ok h
    rw [ih h2]
    have e1 : ∀ s, (cleanTightLB P env c s).bs.rows = s.bs.rows := by
      intro s; unfold cleanTightLB; split
      · rfl
      · split <;> rfl
    have e2 : ∀ s, (cleanTightUB P env c s).bs.rows = s.bs.rows := by
      intro s; unfold cleanTightUB; split
      · rfl
      · split <;> rfl
    have e3 : ∀ s, (cleanLB P c s).bs.rows = s.bs.rows := by
      intro s; unfold cleanLB; split
      · rfl
      · split <;> rfl
    have e4 : ∀ s, (cleanUB P c s).bs.rows = s.bs.rows := by
      intro s; unfold cleanUB; split
      · rfl
      · split <;> rfl
    have e5 : ∀ s s', cleanSB P env c s = .ok s' → s'.bs.rows = s.bs.rows := by
      intro s s' h
      unfold cleanSB at h
      split at h
      · dsimp only at h
        split at h
        · cases h
        split at h
        · simp only [Res.ok.injEq] at h; subst h; rfl
        · split at h
          · simp only [Res.ok.injEq] at h; subst h; rfl
          · simp only [Res.ok.injEq] at h; subst h; rfl
      · simp only [Res.ok.injEq] at h; subst h; rfl
    unfold cleanCol at h1
    obtain ⟨s3, h3, h4⟩ := Res.bind_ok h1
    simp only [Res.ok.injEq] at h4; subst h4
    rw [e2, e1]
    split at h3
    · obtain ⟨s2, h5, h6⟩ := Res.bind_ok h3
      simp only [Res.ok.injEq] at h6; subst h6
      rw [e4, e3]; exact e5 _ _ h5
    · simp only [Res.ok.injEq] at h3; subst h3; rfl

/-- **C06 (minimization problems).** Cleaning keeps every integer-feasible point, whatever the (true)
answers of the LP solver.  Missing for the full property: maximization problems, see
`clean_max_loses_points`. -/
theorem clean_preserves_partial {P : Relax} {env : CleanEnv} {s : CleanSt}
    (h : cleanProblem P env = .ok s) (hsb : env.SBTrue) (hlp : env.LPTrue) (hs : env.sense = 1)
    {x : Vec} (hx : MipFeas P env.isInt x) : MipFeas s.bs env.isInt x := by
  obtain ⟨s0, h0, rfl⟩ := cleanProblem_cols h
  have hf := cleanCols_keeps h0 hsb hlp hs hx hx.1
  exact ⟨⟨hf.1, hf.2.1, hx.1.2.2⟩, hx.2⟩

/-- **C06.** Cleaning adds no point, keeps the rows, and only tightens bounds, provided that the LP
solution used for branching is within the bounds; this holds in both senses and for all answers of the
LP solver. -/
theorem clean_only_tightens {P : Relax} {env : CleanEnv} {s : CleanSt}
    (h : cleanProblem P env = .ok s) (ha : 0 < env.away)
    (hx0 : ∀ i, (∀ l, P.loAt i = some l → l ≤ env.x0 i) ∧ ∀ u, P.hiAt i = some u → env.x0 i ≤ u)
    (hw : P.hi.length = P.lo.length) :
    Tighter s.bs P ∧ ∀ x, MipFeas s.bs env.isInt x → MipFeas P env.isInt x := by
  obtain ⟨s0, h0, rfl⟩ := cleanProblem_cols h
  have hI := cleanCols_inv h0 (cleanInv_init P) ha hx0 hw (by simp)
  have ht : Tighter { P with lo := s0.bs.lo, hi := s0.bs.hi } P :=
    ⟨rfl, hI.tight.lenLo, hI.tight.lenHi, hI.tight.lo, hI.tight.hi⟩
  exact ⟨ht, fun x hx => ⟨ht.feas hx.1, hx.2⟩⟩

/-- **C06.** The return value tells the truth: `clean` means that no bound changed (and both counters
are 0), its negation that some bound was tightened strictly and was counted. -/
theorem clean_report {P : Relax} {env : CleanEnv} {s : CleanSt}
    (h : cleanProblem P env = .ok s) (ha : 0 < env.away)
    (hx0 : ∀ i, (∀ l, P.loAt i = some l → l ≤ env.x0 i) ∧ ∀ u, P.hiAt i = some u → env.x0 i ≤ u)
    (hw : P.hi.length = P.lo.length) :
    (s.clean = true → s.bs = P ∧ s.numBounds = 0 ∧ s.numSB = 0) ∧
    (s.clean = false → StrictlyTighter s.bs P ∧ 0 < s.numBounds + s.numSB) := by
  obtain ⟨s0, h0, rfl⟩ := cleanProblem_cols h
  have hI := cleanCols_inv h0 (cleanInv_init P) ha hx0 hw (by simp)
  refine ⟨fun hc => ?_, fun hc => ?_⟩
  · obtain ⟨h1, h2, h3⟩ := hI.same hc
    exact ⟨by dsimp only; rw [h1], h2, h3⟩
  · exact hI.changed hc

/-- The process is terminated only for a problem without integer-feasible points. -/
theorem clean_exit_infeasible {P : Relax} {env : CleanEnv} (h : cleanProblem P env = .exit)
    (hsb : env.SBTrue) : ∀ x, ¬ MipFeas P env.isInt x := by
  intro x hx
  have hcols : ∀ (cols : List ℕ) (s : CleanSt), cleanCols P env cols s ≠ .exit := by
    intro cols
    induction cols with
    | nil => intro s; simp [cleanCols]
    | cons c cs ih =>
      intro s hk
      unfold cleanCols at hk
      cases hcol : cleanCol P env c s with
      | ok s1 => rw [hcol] at hk; exact ih s1 hk
      | undef => rw [hcol] at hk; cases hk
      | exit =>
        unfold cleanCol at hcol
        by_cases hint : env.isInt c = true
        · rw [if_pos hint] at hcol
          obtain ⟨k, hkx⟩ := hx.2 c hint
          cases hsbr : cleanSB P env c s with
          | ok s1 => rw [hsbr] at hcol; simp [Res.bind] at hcol
          | undef => rw [hsbr] at hcol; simp [Res.bind] at hcol
          | exit =>
            unfold cleanSB at hsbr
            split at hsbr
            · dsimp only at hsbr
              split at hsbr
              · rename_i hb
                simp only [Bool.not_not, Bool.and_eq_true] at hb
                by_cases hle : x c ≤ (⌊env.x0 c⌋ : ℤ)
                · exact hsb _ hb.1 x (feas_setHi hx.1 hle)
                · refine hsb _ hb.2 x (feas_setLo hx.1 ?_)
                  rw [hkx] at hle ⊢
                  have h1 : ⌊env.x0 c⌋ < k := by
                    by_contra hc; exact hle (by exact_mod_cast not_lt.mp hc)
                  have h2 := Int.ceil_le_floor_add_one (env.x0 c)
                  exact_mod_cast (by omega : ⌈env.x0 c⌉ ≤ k)
              · split at hsbr
                · cases hsbr
                · split at hsbr <;> cases hsbr
            · cases hsbr
        · rw [if_neg hint] at hcol; simp [Res.bind] at hcol
  unfold cleanProblem at h
  cases hc : cleanCols P env (List.range P.lo.length) { bs := P } with
  | ok s1 => rw [hc] at h; simp [Res.bind] at h
  | undef => rw [hc] at h; simp [Res.bind] at h
  | exit => exact hcols _ _ hc

/-! ## The reported numbers of changes (C62) -/

/-- Number of lower bounds of `B` that differ from those of `P`. -/
def changedLo (P B : Relax) : ℕ := ((Finset.range P.lo.length).filter fun i => B.loAt i ≠ P.loAt i).card

/-- Number of upper bounds of `B` that differ from those of `P`. -/
def changedHi (P B : Relax) : ℕ := ((Finset.range P.lo.length).filter fun i => B.hiAt i ≠ P.hiAt i).card

theorem changedLo_set (P B : Relax) (col : ℕ) (v : ℚ) : changedLo P (B.setLo col v) ≤ changedLo P B + 1 := by
  unfold changedLo
  refine le_trans (Finset.card_le_card (t := insert col _) ?_) (Finset.card_insert_le _ _)
  intro i hi
  simp only [Finset.mem_filter, Finset.mem_insert] at hi ⊢
  by_cases h : i = col
  · exact Or.inl h
  · right
    refine ⟨hi.1, ?_⟩
    have : (B.setLo col v).loAt i = B.loAt i := by
      unfold Relax.setLo Relax.loAt
      simp only [List.getD_eq_getElem?_getD, List.getElem?_set, if_neg (Ne.symm h)]
    rw [← this]; exact hi.2

theorem changedHi_set (P B : Relax) (col : ℕ) (v : ℚ) : changedHi P (B.setHi col v) ≤ changedHi P B + 1 := by
  unfold changedHi
  refine le_trans (Finset.card_le_card (t := insert col _) ?_) (Finset.card_insert_le _ _)
  intro i hi
  simp only [Finset.mem_filter, Finset.mem_insert] at hi ⊢
  by_cases h : i = col
  · exact Or.inl h
  · right
    refine ⟨hi.1, ?_⟩
    have : (B.setHi col v).hiAt i = B.hiAt i := by
      unfold Relax.setHi Relax.hiAt
      simp only [List.getD_eq_getElem?_getD, List.getElem?_set, if_neg (Ne.symm h)]
    rw [← this]; exact hi.2

/-- All changes so far are counted. -/
def Counted (P : Relax) (s : CleanSt) : Prop :=
  changedLo P s.bs + changedHi P s.bs ≤ s.numBounds + s.numSB

theorem counted_lo {P : Relax} {s : CleanSt} (h : Counted P s) {col : ℕ} {v : ℚ} {nb ns : ℕ} {b : Bool}
    (hn : nb + ns = s.numBounds + s.numSB + 1) : Counted P ⟨s.bs.setLo col v, nb, ns, b⟩ := by
  unfold Counted at h ⊢
  have h1 := changedLo_set P s.bs col v
  have h2 : changedHi P (s.bs.setLo col v) = changedHi P s.bs := rfl
  dsimp only; omega

theorem counted_hi {P : Relax} {s : CleanSt} (h : Counted P s) {col : ℕ} {v : ℚ} {nb ns : ℕ} {b : Bool}
    (hn : nb + ns = s.numBounds + s.numSB + 1) : Counted P ⟨s.bs.setHi col v, nb, ns, b⟩ := by
  unfold Counted at h ⊢
  have h1 := changedHi_set P s.bs col v
  have h2 : changedLo P (s.bs.setHi col v) = changedLo P s.bs := rfl
  dsimp only; omega

theorem cleanCols_counted {P : Relax} {env : CleanEnv} {cols : List ℕ} {s s' : CleanSt}
    (h : cleanCols P env cols s = .ok s') (hI : Counted P s) : Counted P s' := by
  induction cols generalizing s with
  | nil => simp only [cleanCols, Res.ok.injEq] at h; subst h; exact hI
  | cons c cs ih =>
    obtain ⟨s1, h1, h2⟩ := Res.bind_ok h
    refine ih h2 ?_
    have e1 : ∀ s, Counted P s → Counted P (cleanTightLB P env c s) := by
      intro s hs; unfold cleanTightLB; split
      · exact hs
      · split
        · exact counted_lo hs (by omega)
        · exact hs
    have e2 : ∀ s, Counted P s → Counted P (cleanTightUB P env c s) := by
      intro s hs; unfold cleanTightUB; split
      · exact hs
      · split
        · exact counted_hi hs (by omega)
        · exact hs
    have e3 : ∀ s, Counted P s → Counted P (cleanLB P c s) := by
      intro s hs; unfold cleanLB; split
      · exact hs
      · split
        · exact counted_lo hs (by omega)
        · exact hs
    have e4 : ∀ s, Counted P s → Counted P (cleanUB P c s) := by
      intro s hs; unfold cleanUB; split
      · exact hs
      · split
        · exact counted_hi hs (by omega)
        · exact hs
    have e5 : ∀ s s', cleanSB P env c s = .ok s' → Counted P s → Counted P s' := by
      intro s s' h hs
      unfold cleanSB at h
      split at h
      · dsimp only at h
        split at h
        · cases h
        split at h
        · simp only [Res.ok.injEq] at h; subst h; exact counted_lo hs (by omega)
        · split at h
          · simp only [Res.ok.injEq] at h; subst h; exact counted_hi hs (by omega)
          · simp only [Res.ok.injEq] at h; subst h; exact hs
      · simp only [Res.ok.injEq] at h; subst h; exact hs
    unfold cleanCol at h1
    obtain ⟨s3, h3, h4⟩ := Res.bind_ok h1
    simp only [Res.ok.injEq] at h4; subst h4
    refine e2 _ (e1 _ ?_)
    split at h3
    · obtain ⟨s2, h5, h6⟩ := Res.bind_ok h3
      simp only [Res.ok.injEq] at h6; subst h6
      exact e4 _ (e3 _ (e5 _ _ h5 hI))
    · simp only [Res.ok.injEq] at h3; subst h3; exact hI

/-- **C62 (part that holds).** The two reported numbers together are at least the number of bounds
that differ from the original ones. Missing: equality, see `clean_counts_twice`. -/
theorem clean_counts_partial {P : Relax} {env : CleanEnv} {s : CleanSt} (h : cleanProblem P env = .ok s) :
    changedLo P s.bs + changedHi P s.bs ≤ s.numBounds + s.numSB := by
  obtain ⟨s0, h0, rfl⟩ := cleanProblem_cols h
  have h1 : Counted P s0 := cleanCols_counted h0 (by simp [Counted, changedLo, changedHi])
  exact h1

/-! ## Concrete cases -/

/-- A solver for problems in one variable without rows: the optimum is at a bound. -/
def boxOpt (s k : ℚ) (col : ℕ) (Q : Relax) : Option Vec :=
  if Q.rows = [] ∧ Q.lo.length = 1 ∧ Q.hi.length = 1 ∧ col = 0 then
    match Q.loAt 0, Q.hiAt 0 with
    | some l, some u => if l ≤ u then some fun _ => if 0 ≤ s * k then l else u else none
    | _, _ => none
  else none

/-- `x ∈ [1/2, 3]` integer, LP solution 1.4; the down branch is infeasible because of (say) an
objective cutoff: here no branch is infeasible. -/
def cleanEx (sense : ℚ) : CleanEnv :=
  { sense, x0 := fun _ => 7 / 5, away := 1 / 1000, isInt := fun _ => true, sb := fun _ => false,
    opt := boxOpt }

/-- The problem. -/
def cleanP : Relax := ⟨[some (1 / 2)], [some 3], []⟩

theorem boxOpt_true (env : CleanEnv) (he : env.opt = boxOpt) : env.LPTrue := by
  intro s k col Q y h
  rw [he] at h
  unfold boxOpt at h
  split at h
  · rename_i hq
    obtain ⟨hr, hl, hh, rfl⟩ := hq
    split at h
    · rename_i l u hlo hhi
      split at h
      · rename_i hlu
        simp only [Option.some.injEq] at h
        have hy : y 0 = if 0 ≤ s * k then l else u := by rw [← h]
        constructor
        · refine ⟨fun i b hb l' hl' => ?_, fun i b hb u' hu' => ?_, by rw [hr]; simp⟩
          · have hi : i = 0 := by
              have := (List.getElem?_eq_some_iff.mp hb).1; omega
            subst hi
            rw [loAt_of_get hb] at hlo; subst hl'; cases hlo
            rw [hy]; split
            · exact le_rfl
            · exact hlu
          · have hi : i = 0 := by
              have := (List.getElem?_eq_some_iff.mp hb).1; omega
            subst hi
            rw [hiAt_of_get hb] at hhi; subst hu'; cases hhi
            rw [hy]; split
            · exact hlu
            · exact le_rfl
        · intro z hz
          have h1 := Feas.loAt hz hlo
          have h2 := Feas.hiAt hz hhi
          rw [hy, ← mul_assoc, ← mul_assoc]
          split
          · rename_i h0; exact mul_le_mul_of_nonneg_left h1 h0
          · rename_i h0; exact mul_le_mul_of_nonpos_left h2 (not_le.mp h0).le
      · cases h
    · cases h
  · cases h

example : (cleanEx 1).LPTrue ∧ (cleanEx 1).SBTrue ∧ (cleanEx 1).sense = 1 ∧
    (0 : ℚ) < (cleanEx 1).away ∧ MipFeas cleanP (cleanEx 1).isInt (fun _ => 2) ∧
    (cleanProblem cleanP (cleanEx 1) = .ok ⟨⟨[some 1], [some 3], []⟩, 2, 0, false⟩) ∧
    ∀ i, (∀ l, cleanP.loAt i = some l → l ≤ (cleanEx 1).x0 i) ∧
      ∀ u, cleanP.hiAt i = some u → (cleanEx 1).x0 i ≤ u := by
  refine ⟨boxOpt_true _ rfl, by intro Q h; simp [cleanEx] at h, rfl, by norm_num [cleanEx], ?_, by decide +kernel, ?_⟩
  · refine ⟨⟨?_, ?_, by simp [cleanP]⟩, fun i _ => ⟨2, by norm_num⟩⟩
    · rintro (_ | i) b hb l rfl
      · simp only [cleanP, List.getElem?_cons_zero, Option.some.injEq] at hb
        linarith
      · simp [cleanP] at hb
    · rintro (_ | i) b hb l rfl
      · simp only [cleanP, List.getElem?_cons_zero, Option.some.injEq] at hb
        linarith
      · simp [cleanP] at hb
  · rintro (_ | i)
    · constructor
      · intro l hl; simp [cleanP, Relax.loAt] at hl; rw [← hl]; norm_num [cleanEx]
      · intro l hl; simp [cleanP, Relax.hiAt] at hl; rw [← hl]; norm_num [cleanEx]
    · constructor
      · intro l hl; simp [cleanP, Relax.loAt] at hl
      · intro l hl; simp [cleanP, Relax.hiAt] at hl

/-- **C06 fails for maximization problems**: the sense of the problem is copied to the auxiliary
solver, so that "the lower bound is the minimum of `x`" becomes its maximum; the variable is fixed and
integer-feasible points are lost, although all LP answers are correct. -/
theorem clean_max_loses_points : ∃ (P : Relax) (env : CleanEnv) (s : CleanSt) (x : Vec),
    env.sense = -1 ∧ env.SBTrue ∧ env.LPTrue ∧ cleanProblem P env = .ok s ∧
    MipFeas P env.isInt x ∧ ¬ s.bs.Feas x := by
  refine ⟨cleanP, cleanEx (-1), ⟨⟨[some 3], [some 3], []⟩, 2, 0, false⟩, fun _ => 2, rfl,
    by intro Q h; simp [cleanEx] at h, boxOpt_true _ rfl, by decide +kernel,
    ⟨⟨?_, ?_, by simp [cleanP]⟩, fun i _ => ⟨2, by norm_num⟩⟩, ?_⟩
  · rintro (_ | i) b hb l rfl
    · simp only [cleanP, List.getElem?_cons_zero, Option.some.injEq] at hb
      linarith
    · simp [cleanP] at hb
  · rintro (_ | i) b hb l rfl
    · simp only [cleanP, List.getElem?_cons_zero, Option.some.injEq] at hb
      linarith
    · simp [cleanP] at hb
  · intro h
    have := h.1 0 (some 3) rfl 3 rfl
    norm_num at this

/-- **C62 fails**: one bound changes, two changes are reported. -/
theorem clean_counts_twice : ∃ (P : Relax) (env : CleanEnv) (s : CleanSt), env.SBTrue ∧ env.LPTrue ∧
    cleanProblem P env = .ok s ∧ s.numBounds = 2 ∧ changedLo P s.bs + changedHi P s.bs = 1 :=
  ⟨cleanP, cleanEx 1, ⟨⟨[some 1], [some 3], []⟩, 2, 0, false⟩, by intro Q h; simp [cleanEx] at h,
    boxOpt_true _ rfl, by decide +kernel, rfl, by decide +kernel⟩

/-- A tightening found by strong branching is undone when the original bound is fractional: the bound
1 obtained by rounding replaces the bound 3. (No point is lost; the count of fixings stays 1.) -/
theorem clean_undoes_fixing : ∃ (P : Relax) (env : CleanEnv) (s : CleanSt),
    env.sense = 1 ∧ env.LPTrue ∧ cleanProblem P env = .ok s ∧ s.numSB = 1 ∧
    env.sb (P.setHi 0 2) = true ∧ s.bs.loAt 0 = some 1 := by
  refine ⟨⟨[some (1 / 2)], [some 5], []⟩,
    { cleanEx 1 with x0 := fun _ => 5 / 2, sb := fun Q => decide (Q.hiAt 0 = some 2) },
    ⟨⟨[some 1], [some 5], []⟩, 2, 1, false⟩, rfl, boxOpt_true _ rfl, by decide +kernel, rfl,
    by decide +kernel, by decide +kernel⟩

end VPC
