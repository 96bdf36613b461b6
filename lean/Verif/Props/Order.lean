import Verif.Model.Order
import Verif.Props.Num
import Mathlib.Data.List.GetD
import Mathlib.Data.List.Perm.Basic
import Mathlib.Tactic.Linarith

/-!
# Comparisons used for sorting are strict weak orders (C133)
-/
namespace VPC

/-- Requirements of the C++ standard on a comparison, on the elements of `S`. -/
structure StrictWeak {α : Type} (S : α → Prop) (lt : α → α → Bool) : Prop where
  irrefl : ∀ a, S a → lt a a = false
  trans : ∀ a b c, S a → S b → S c → lt a b = true → lt b c = true → lt a c = true
  equiv : ∀ a b c, S a → S b → S c → lt a b = false → lt b a = false → lt b c = false → lt c b = false →
    lt a c = false ∧ lt c a = false

theorem dlt_irrefl (a : DVal) : a.lt a = false := by cases a <;> simp [DVal.lt]

theorem dlt_trans {a b c : DVal} (h1 : a.lt b = true) (h2 : b.lt c = true) : a.lt c = true := by
  cases a <;> cases b <;> cases c <;> simp_all [DVal.lt]
  linarith

theorem dlt_conn {a b : DVal} (ha : a ≠ .nan) (hb : b ≠ .nan) (h1 : a.lt b = false) (h2 : b.lt a = false) : a = b := by
  cases a <;> cases b <;> simp_all [DVal.lt]
  linarith

theorem dlt_nan_left (b : DVal) : DVal.lt .nan b = false := by cases b <;> rfl

theorem dlt_nan_right (a : DVal) : DVal.lt a .nan = false := by cases a <;> rfl

/-- **C133 (sorting by numbers).** The comparison by the entries of an array, ascending or descending, is a strict
weak order on the indices of the array exactly when the array has no NaN, or all its other entries are equal. -/
theorem idx_strictWeak_iff (arr : List DVal) :
    (StrictWeak (· < arr.length) (idxAsc arr) ↔
      DVal.nan ∉ arr ∨ ∀ x ∈ arr, ∀ y ∈ arr, x ≠ .nan → y ≠ .nan → x = y) ∧
    (StrictWeak (· < arr.length) (idxDsc arr) ↔
      DVal.nan ∉ arr ∨ ∀ x ∈ arr, ∀ y ∈ arr, x ≠ .nan → y ≠ .nan → x = y) := by
  have get : ∀ i, i < arr.length → arr.getD i .nan ∈ arr := fun i h => by
    rw [List.getD_eq_getElem _ _ h]; exact List.getElem_mem h
  have ex : ∀ x ∈ arr, ∃ i, i < arr.length ∧ arr.getD i .nan = x := fun x hx => by
    obtain ⟨i, h, e⟩ := List.mem_iff_getElem.1 hx
    exact ⟨i, h, by rw [List.getD_eq_getElem _ _ h]; exact e⟩
  constructor
  · constructor
    · intro h
      by_cases hn : DVal.nan ∈ arr
      · right
        intro x hx y hy nx ny
        obtain ⟨i, hi, rfl⟩ := ex x hx
        obtain ⟨j, hj, rfl⟩ := ex y hy
        obtain ⟨k, hk, ek⟩ := ex _ hn
        have := h.equiv i k j hi hk hj (by unfold idxAsc; rw [ek, dlt_nan_right]) (by unfold idxAsc; rw [ek, dlt_nan_left])
          (by unfold idxAsc; rw [ek, dlt_nan_left]) (by unfold idxAsc; rw [ek, dlt_nan_right])
        exact dlt_conn nx ny this.1 this.2
      · exact .inl hn
    · intro h
      refine ⟨fun a _ => dlt_irrefl _, fun a b c _ _ _ h1 h2 => dlt_trans h1 h2, fun a b c ha hb hc h1 h2 h3 h4 => ?_⟩
      rcases h with h | h
      · have na : ∀ i, i < arr.length → arr.getD i .nan ≠ .nan := fun i hi e => h (e ▸ get i hi)
        have e1 := dlt_conn (na a ha) (na b hb) h1 h2
        have e2 := dlt_conn (na b hb) (na c hc) h3 h4
        unfold idxAsc
        rw [e1, e2]
        exact ⟨dlt_irrefl _, dlt_irrefl _⟩
      · unfold idxAsc
        by_cases ea : arr.getD a .nan = .nan
        · rw [ea, dlt_nan_left, dlt_nan_right]; exact ⟨rfl, rfl⟩
        · by_cases ec : arr.getD c .nan = .nan
          · rw [ec, dlt_nan_left, dlt_nan_right]; exact ⟨rfl, rfl⟩
          · rw [h _ (get a ha) _ (get c hc) ea ec]; exact ⟨dlt_irrefl _, dlt_irrefl _⟩
  · constructor
    · intro h
      by_cases hn : DVal.nan ∈ arr
      · right
        intro x hx y hy nx ny
        obtain ⟨i, hi, rfl⟩ := ex x hx
        obtain ⟨j, hj, rfl⟩ := ex y hy
        obtain ⟨k, hk, ek⟩ := ex _ hn
        have := h.equiv i k j hi hk hj (by unfold idxDsc; rw [ek, dlt_nan_left]) (by unfold idxDsc; rw [ek, dlt_nan_right])
          (by unfold idxDsc; rw [ek, dlt_nan_right]) (by unfold idxDsc; rw [ek, dlt_nan_left])
        exact dlt_conn nx ny this.2 this.1
      · exact .inl hn
    · intro h
      refine ⟨fun a _ => dlt_irrefl _, fun a b c _ _ _ h1 h2 => dlt_trans h2 h1, fun a b c ha hb hc h1 h2 h3 h4 => ?_⟩
      rcases h with h | h
      · have na : ∀ i, i < arr.length → arr.getD i .nan ≠ .nan := fun i hi e => h (e ▸ get i hi)
        have e1 := dlt_conn (na a ha) (na b hb) h2 h1
        have e2 := dlt_conn (na b hb) (na c hc) h4 h3
        unfold idxDsc
        rw [e1, e2]
        exact ⟨dlt_irrefl _, dlt_irrefl _⟩
      · unfold idxDsc
        by_cases ea : arr.getD a .nan = .nan
        · rw [ea, dlt_nan_left, dlt_nan_right]; exact ⟨rfl, rfl⟩
        · by_cases ec : arr.getD c .nan = .nan
          · rw [ec, dlt_nan_left, dlt_nan_right]; exact ⟨rfl, rfl⟩
          · rw [h _ (get a ha) _ (get c hc) ea ec]; exact ⟨dlt_irrefl _, dlt_irrefl _⟩

example : ¬ StrictWeak (· < [DVal.fin 1, .nan, .fin 2].length) (idxAsc [DVal.fin 1, .nan, .fin 2]) := by
  rw [(idx_strictWeak_iff _).1]
  rintro (h | h)
  · exact h (by simp)
  · have := h (.fin 1) (by simp) (.fin 2) (by simp) (by simp) (by simp)
    simp at this

example : DVal.nan ∉ [DVal.fin 1, .pinf, .fin 2, .ninf] := by simp

/-- What the standard promises of `std::sort` on the indices `0,...,n-1`: a permutation in which no later element
is less than an earlier one. -/
def IsSort (n : ℕ) (lt : ℕ → ℕ → Bool) (σ : List ℕ) : Prop :=
  σ.Perm (List.range n) ∧ σ.Pairwise fun a b => lt b a = false

/-- **C133 (the result does not depend on the library).** Without NaN, any two sorted orders of the indices list
the same values: only the order of equal entries is left open. -/
theorem sort_values_unique (arr : List DVal) (hn : DVal.nan ∉ arr) (lt : ℕ → ℕ → Bool)
    (hlt : lt = idxAsc arr ∨ lt = idxDsc arr) (σ τ : List ℕ) (hs : IsSort arr.length lt σ)
    (ht : IsSort arr.length lt τ) : σ.map (fun i => arr.getD i .nan) = τ.map (fun i => arr.getD i .nan) := by
  have get : ∀ i, i < arr.length → arr.getD i .nan ≠ .nan := fun i h e => by
    rw [List.getD_eq_getElem _ _ h] at e
    exact hn (e ▸ List.getElem_mem h)
  have mem : ∀ {ρ : List ℕ}, IsSort arr.length lt ρ → ∀ x ∈ ρ.map (fun i => arr.getD i .nan), x ≠ .nan := by
    intro ρ h x hx
    obtain ⟨i, hi, rfl⟩ := List.mem_map.1 hx
    exact get i (by simpa using h.1.mem_iff.1 hi)
  have hp := (hs.1.trans ht.1.symm).map (fun i => arr.getD i .nan)
  rcases hlt with rfl | rfl
  · refine List.Perm.eq_of_pairwise (le := fun a b => DVal.lt b a = false) ?_ (List.pairwise_map.2 hs.2)
      (List.pairwise_map.2 ht.2) hp
    intro a b ha hb h1 h2
    exact dlt_conn (mem hs a ha) (mem ht b hb) h2 h1
  · refine List.Perm.eq_of_pairwise (le := fun a b => DVal.lt a b = false) ?_ (List.pairwise_map.2 hs.2)
      (List.pairwise_map.2 ht.2) hp
    intro a b ha hb h1 h2
    exact dlt_conn (mem hs a ha) (mem ht b hb) h1 h2

/-- Equal entries: both orders are sorted. -/
theorem sort_ties_open : IsSort 2 (idxAsc [.fin 1, .fin 1]) [0, 1] ∧ IsSort 2 (idxAsc [.fin 1, .fin 1]) [1, 0] := by
  constructor <;> exact ⟨by decide +kernel, by simp [idxAsc, DVal.lt]⟩

/-! ## Rays by orthogonality -/

/-- **C133 (violated).** The order of rays by orthogonality is not a strict weak order: two rays can each come
before the other. -/
theorem rayInfo_not_strictWeak : ¬ StrictWeak (fun _ => True) RayInfo.less := by
  intro h
  have := h.trans ⟨0, 11 / 20, 1 / 2⟩ ⟨1, 1 / 2, 1⟩ ⟨0, 11 / 20, 1 / 2⟩ trivial trivial trivial
    (by decide +kernel) (by decide +kernel)
  rw [h.irrefl _ trivial] at this
  cases this

/-- **C133 (rays, partial).** It is one on rays whose smallest orthogonalities are pairwise equal or more than 0.1
apart. -/
theorem rayInfo_strictWeak_partial (S : RayInfo → Prop)
    (hS : ∀ a b, S a → S b → a.minOrtho = b.minOrtho ∨ 1 / 10 < |a.minOrtho - b.minOrtho|) :
    StrictWeak S RayInfo.less := by
  have key : ∀ a b, S a → S b → (RayInfo.less a b = true ↔
      b.minOrtho < a.minOrtho ∨ (a.minOrtho = b.minOrtho ∧ b.avgOrtho < a.avgOrtho)) := by
    intro a b ha hb
    unfold RayInfo.less
    simp only [gt_iff_lt, Bool.or_eq_true, decide_eq_true_eq, Bool.and_eq_true, isVal_iff]
    rcases hS a b ha hb with e | e
    · simp [e]
    · constructor
      · rintro (h | ⟨h, -⟩)
        · exact .inl h
        · linarith
      · rintro (h | ⟨h, -⟩)
        · exact .inl h
        · rw [h, sub_self, abs_zero] at e; norm_num at e
  have nkey : ∀ a b, S a → S b → (RayInfo.less a b = false ↔
      a.minOrtho ≤ b.minOrtho ∧ (a.minOrtho = b.minOrtho → a.avgOrtho ≤ b.avgOrtho)) := by
    intro a b ha hb
    rw [← Bool.not_eq_true, key a b ha hb]
    push Not
    rfl
  refine ⟨fun a ha => ?_, fun a b c ha hb hc h1 h2 => ?_, fun a b c ha hb hc h1 h2 h3 h4 => ?_⟩
  · rw [nkey a a ha ha]; simp
  · rw [key _ _ ha hb] at h1
    rw [key _ _ hb hc] at h2
    rw [key _ _ ha hc]
    rcases h1 with h1 | ⟨e1, h1⟩ <;> rcases h2 with h2 | ⟨e2, h2⟩
    · exact .inl (h2.trans h1)
    · exact .inl (by rw [← e2]; exact h1)
    · exact .inl (by rw [e1]; exact h2)
    · exact .inr ⟨e1.trans e2, h2.trans h1⟩
  · rw [nkey _ _ ha hb] at h1
    rw [nkey _ _ hb ha] at h2
    rw [nkey _ _ hb hc] at h3
    rw [nkey _ _ hc hb] at h4
    have e1 := le_antisymm h1.1 h2.1
    have e2 := le_antisymm h3.1 h4.1
    have f1 := h1.2 e1
    have f2 := h2.2 e1.symm
    have f3 := h3.2 e2
    have f4 := h4.2 e2.symm
    rw [nkey _ _ ha hc, nkey _ _ hc ha]
    exact ⟨⟨(e1.trans e2).le, fun _ => f1.trans f3⟩, ⟨(e1.trans e2).ge, fun _ => f4.trans f2⟩⟩

example : ∀ a b : RayInfo, (a = ⟨0, 1, 1⟩ ∨ a = ⟨1, 1 / 2, 1⟩) → (b = ⟨0, 1, 1⟩ ∨ b = ⟨1, 1 / 2, 1⟩) →
    a.minOrtho = b.minOrtho ∨ 1 / 10 < |a.minOrtho - b.minOrtho| := by
  rintro a b (rfl | rfl) (rfl | rfl)
  · exact .inl rfl
  · right; norm_num [abs_of_pos]
  · right; rw [abs_sub_comm]; norm_num
  · exact .inl rfl

/-- **C133 (violated).** A ray is dropped if another one has the same orthogonalities, although it is a different
ray. -/
theorem rayInfo_lost (i j : ℕ) (m v : ℚ) :
    setInsert RayInfo.less ⟨j, m, v⟩ [⟨i, m, v⟩] = [⟨i, m, v⟩] := by
  have : ∀ a b : ℕ, RayInfo.less ⟨a, m, v⟩ ⟨b, m, v⟩ = false := by
    intro a b; simp [RayInfo.less]
  simp [setInsert, this]

/-- Insertion keeps the order of the set and adds the new element exactly when no element of the set is equivalent
to it, for every strict weak order. -/
theorem setInsert_spec {α : Type} (S : α → Prop) (lt : α → α → Bool) (hl : StrictWeak S lt) (x : α) (hx : S x) :
    ∀ l : List α, (∀ y ∈ l, S y) → l.Pairwise (fun a b => lt a b = true) →
      (setInsert lt x l).Pairwise (fun a b => lt a b = true) ∧
      ∀ z, z ∈ setInsert lt x l ↔ z ∈ l ∨ (z = x ∧ ∀ y ∈ l, lt y x = true ∨ lt x y = true) := by
  intro l
  induction l with
  | nil => intro _ _; simp [setInsert]
  | cons y l ih =>
    intro hS hp
    rw [List.pairwise_cons] at hp
    have ih := ih (fun z hz => hS z (List.mem_cons_of_mem _ hz)) hp.2
    have hy := hS y List.mem_cons_self
    unfold setInsert
    by_cases h1 : lt y x = true
    · rw [if_pos h1]
      refine ⟨?_, fun z => ?_⟩
      · rw [List.pairwise_cons]
        refine ⟨fun z hz => ?_, ih.1⟩
        rcases (ih.2 z).1 hz with hz | ⟨rfl, _⟩
        · exact hp.1 z hz
        · exact h1
      · rw [List.mem_cons, ih.2 z, List.mem_cons, or_assoc]
        simp [h1]
    · rw [if_neg h1]
      by_cases h2 : lt x y = true
      · rw [if_pos h2]
        have all : ∀ w ∈ y :: l, lt x w = true := by
          intro w hw
          rcases List.mem_cons.1 hw with rfl | hw
          · exact h2
          · exact hl.trans x y w hx hy (hS w (List.mem_cons_of_mem _ hw)) h2 (hp.1 w hw)
        refine ⟨?_, fun z => ?_⟩
        · rw [List.pairwise_cons]; exact ⟨all, List.pairwise_cons.2 hp⟩
        · rw [List.mem_cons]
          constructor
          · rintro (rfl | h)
            · exact .inr ⟨rfl, fun w hw => .inr (all w hw)⟩
            · exact .inl h
          · rintro (h | ⟨rfl, _⟩)
            · exact .inr h
            · exact .inl rfl
      · rw [if_neg h2]
        refine ⟨List.pairwise_cons.2 hp, fun z => ?_⟩
        constructor
        · exact .inl
        · rintro (h | ⟨_, h⟩)
          · exact h
          · rcases h y List.mem_cons_self with h | h
            · exact absurd h h1
            · exact absurd h h2

example : setInsert (fun a b : ℕ => decide (a < b)) 3 [1, 2, 5] = [1, 2, 3, 5] ∧
    setInsert (fun a b : ℕ => decide (a / 2 < b / 2)) 3 [1, 2, 5] = [1, 2, 5] := by decide +kernel

/-! ## Names -/

theorem cLess_irrefl : ∀ s, cLess s s = false := by
  intro s
  induction s with
  | nil => rfl
  | cons a s ih => simp [cLess, ih]

theorem cLess_trans : ∀ s t u, cLess s t = true → cLess t u = true → cLess s u = true := by
  intro s
  induction s with
  | nil =>
    intro t u h1 h2
    cases t with
    | nil => simp [cLess] at h1
    | cons b t => cases u with
      | nil => simp [cLess] at h2
      | cons c u => rfl
  | cons a s ih =>
    intro t u h1 h2
    cases t with
    | nil => simp [cLess] at h1
    | cons b t =>
      cases u with
      | nil => simp [cLess] at h2
      | cons c u =>
        rw [cLess] at h1 h2 ⊢
        by_cases e1 : a = b
        · subst e1
          rw [if_pos rfl] at h1
          by_cases e2 : a = c
          · subst e2
            rw [if_pos rfl] at h2 ⊢
            exact ih t u h1 h2
          · rw [if_neg e2] at h2 ⊢; exact h2
        · rw [if_neg e1] at h1
          simp only [decide_eq_true_eq] at h1
          by_cases e2 : b = c
          · subst e2
            rw [if_neg e1]; simpa using h1
          · rw [if_neg e2] at h2
            simp only [decide_eq_true_eq] at h2
            rw [if_neg (by rintro rfl; omega)]
            simp only [decide_eq_true_eq]
            omega

theorem cLess_conn : ∀ s t, cLess s t = false → cLess t s = false → s = t := by
  intro s
  induction s with
  | nil => intro t h1 _; cases t with
    | nil => rfl
    | cons b t => simp [cLess] at h1
  | cons a s ih =>
    intro t h1 h2
    cases t with
    | nil => simp [cLess] at h2
    | cons b t =>
      rw [cLess] at h1 h2
      by_cases e : a = b
      · subst e
        rw [if_pos rfl] at h1 h2
        rw [ih t h1 h2]
      · rw [if_neg e] at h1
        rw [if_neg (fun h => e h.symm)] at h2
        simp only [decide_eq_false_iff_not, not_lt] at h1 h2
        have h3 : a.toNat = b.toNat := by omega
        exact absurd (Char.toNat_inj.1 h3) e

/-- **C133 (names).** The orders of timer names and of parameters are strict weak orders on all strings; two
parameters are equivalent exactly if their names are equal, two timers exactly if their names agree up to the first
NUL character. -/
theorem names_strictWeak :
    StrictWeak (fun _ => True) ltstr ∧ StrictWeak (fun _ => True) paramLess ∧
    (∀ s t, paramLess s t = false ∧ paramLess t s = false ↔ s = t) ∧
    (∀ s t, ltstr s t = false ∧ ltstr t s = false ↔ cStr s = cStr t) := by
  refine ⟨⟨fun a _ => cLess_irrefl _, fun a b c _ _ _ => cLess_trans _ _ _, fun a b c _ _ _ h1 h2 h3 h4 => ?_⟩,
    ⟨fun a _ => cLess_irrefl _, fun a b c _ _ _ => cLess_trans _ _ _, fun a b c _ _ _ h1 h2 h3 h4 => ?_⟩,
    fun s t => ⟨fun h => cLess_conn _ _ h.1 h.2, fun h => ?_⟩, fun s t => ⟨fun h => cLess_conn _ _ h.1 h.2, fun h => ?_⟩⟩
  · unfold ltstr at *
    rw [cLess_conn _ _ h1 h2, cLess_conn _ _ h3 h4]
    exact ⟨cLess_irrefl _, cLess_irrefl _⟩
  · unfold paramLess at *
    rw [cLess_conn _ _ h1 h2, cLess_conn _ _ h3 h4]
    exact ⟨cLess_irrefl _, cLess_irrefl _⟩
  · rw [h]; exact ⟨cLess_irrefl _, cLess_irrefl _⟩
  · unfold ltstr; rw [h]; exact ⟨cLess_irrefl _, cLess_irrefl _⟩

example : ltstr "TOTAL_TIME".toList "VPC_GEN_TIME".toList = true ∧ cStr ['a', Char.ofNat 0, 'b'] = ['a'] := by
  decide +kernel

end VPC
