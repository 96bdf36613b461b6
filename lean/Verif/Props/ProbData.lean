import Verif.Model.ProbData
import Mathlib.Tactic.Linarith
import Mathlib.Tactic.NormNum
import Mathlib.Tactic.Ring
import Mathlib.Tactic.Positivity
import Mathlib.Data.List.Basic

/-!
# Problem data of an optimal basis (C40, C67, C68)
-/
namespace VPC

/-- The solver's two descriptions of the basis agree: `basics` lists one variable per row, without
repetition, and `isBasic` is membership in it. -/
structure BasisOk (B : BasisIn) : Prop where
  rows : B.basics.length = B.numRows
  nodup : B.basics.Nodup
  lt : ∀ v ∈ B.basics, v < B.numCols + B.numRows
  basic : ∀ v, v < B.numCols + B.numRows → (B.isBasic v = true ↔ v ∈ B.basics)

/-- State of the tables when the variables below `k` have been visited. -/
structure Visited (B : BasisIn) (orig : Option (List ℤ)) (k : ℕ) (t : IndexTabs) : Prop where
  nb : t.nb = (List.range k).filter fun v => !B.isBasic v
  len : t.rowOfVar.length = B.numCols + B.numRows
  nonbasic : ∀ (j v : ℕ), t.nb[j]? = some v → t.rowOfVar[v]? = some (-(1 + (j : ℤ)))
  basic : ∀ (r v : ℕ), B.basics[r]? = some v → B.numCols + r < k → t.rowOfVar[v]? = some (r : ℤ)
  rest : ∀ v, v < B.numCols + B.numRows → v ∉ t.nb →
    (∀ r, B.basics[r]? = some v → k ≤ B.numCols + r) → t.rowOfVar[v]? = some (-1)
  slack : ∀ v, B.numCols ≤ v → v < k → B.isBasic v = true → B.basics[v - B.numCols]? = some v
  origLen : ∀ o, orig = some o → t.rowOfOrig.length = B.numCols
  origBasic : ∀ o, orig = some o → ∀ (r v : ℕ), B.basics[r]? = some v → B.numCols + r < k →
    0 ≤ getVarNBIndex o v → t.rowOfOrig[(getVarNBIndex o v).toNat]? = some (r : ℤ)
  origRest : ∀ o, orig = some o → ∀ (j : ℕ), j < B.numCols →
    (∀ (r v : ℕ), B.basics[r]? = some v → B.numCols + r < k → getVarNBIndex o v ≠ (j : ℤ)) →
    t.rowOfOrig[j]? = some (-1)

/-- `o` is a table in which different variables have different nonbasic indices below `n`
(as `rowOfVar` of a problem with `n` columns is, see `index_tables`). -/
def OrigOk (n : ℕ) (o : List ℤ) : Prop :=
  (∀ v w, 0 ≤ getVarNBIndex o v → getVarNBIndex o v = getVarNBIndex o w → v = w) ∧
  ∀ v, getVarNBIndex o v < n

theorem visitRow_spec {B : BasisIn} (hB : BasisOk B) {orig : Option (List ℤ)}
    (ho : ∀ o, orig = some o → OrigOk B.numCols o) {r : ℕ} (hr : r < B.numRows) {t : IndexTabs}
    (h : Visited B orig (B.numCols + r) t) :
    ∃ t', visitRow B orig r t = .ok t' ∧ t'.nb = t.nb ∧
      t'.rowOfVar.length = t.rowOfVar.length ∧
      (∃ b, B.basics[r]? = some b ∧ t'.rowOfVar = t.rowOfVar.set b (r : ℤ) ∧
        t'.rowOfOrig = (match orig with
          | none => t.rowOfOrig
          | some o => if 0 ≤ getVarNBIndex o b then t.rowOfOrig.set (getVarNBIndex o b).toNat (r : ℤ)
            else t.rowOfOrig)) := by
  have hb : r < B.basics.length := by rw [hB.rows]; exact hr
  have hget : B.basics[r]? = some B.basics[r] := List.getElem?_eq_getElem hb
  have hlt : B.basics[r] < t.rowOfVar.length := by
    rw [h.len]; exact hB.lt _ (List.getElem_mem hb)
  unfold visitRow
  rw [hget]
  simp only [hlt, if_true]
  cases orig with
  | none => exact ⟨_, rfl, rfl, by simp, _, rfl, rfl, rfl⟩
  | some o =>
    dsimp only
    by_cases hk : 0 ≤ getVarNBIndex o B.basics[r]
    · have hlen := h.origLen o rfl
      have hlt2 : getVarNBIndex o B.basics[r] < (t.rowOfOrig.length : ℤ) := by
        rw [hlen]; exact (ho o rfl).2 _
      simp only [hk, if_true, hlt2]
      exact ⟨_, rfl, rfl, by simp, _, rfl, rfl, by simp [hk]⟩
    · simp only [hk, if_false]
      exact ⟨_, rfl, rfl, by simp, _, rfl, rfl, by simp [hk]⟩

theorem getElem?_set_ne' {α : Type} {l : List α} {i j : ℕ} {a : α} (h : i ≠ j) :
    (l.set i a)[j]? = l[j]? := List.getElem?_set_ne h

theorem nodup_get {B : BasisIn} (hB : BasisOk B) {r s v : ℕ} (h1 : B.basics[r]? = some v)
    (h2 : B.basics[s]? = some v) : r = s := by
  obtain ⟨a1, a2⟩ := List.getElem?_eq_some_iff.mp h1
  obtain ⟨b1, b2⟩ := List.getElem?_eq_some_iff.mp h2
  exact (hB.nodup.getElem_inj_iff).mp (a2.trans b2.symm)

/-- One step of the loop. -/
theorem visitVar_spec {B : BasisIn} (hB : BasisOk B) {orig : Option (List ℤ)}
    (ho : ∀ o, orig = some o → OrigOk B.numCols o) {k : ℕ} (hk : k < B.numCols + B.numRows)
    {t : IndexTabs} (h : Visited B orig k t) :
    (∃ t', visitVar B orig t k = .ok t' ∧ Visited B orig (k + 1) t') ∨
    (visitVar B orig t k = .exit ∧ B.numCols ≤ k ∧ B.isBasic k = true ∧
      B.basics[k - B.numCols]? ≠ some k) := by
  -- first half: the row entry
  have hrow : ∃ t1, (if k < B.numCols then .ok t else visitRow B orig (k - B.numCols) t) = Res.ok t1 ∧
      t1.nb = t.nb ∧ t1.rowOfVar.length = B.numCols + B.numRows ∧
      (∀ (j v : ℕ), t.nb[j]? = some v → t1.rowOfVar[v]? = some (-(1 + (j : ℤ)))) ∧
      (∀ (r v : ℕ), B.basics[r]? = some v → B.numCols + r < k + 1 → t1.rowOfVar[v]? = some (r : ℤ)) ∧
      (∀ v, v < B.numCols + B.numRows → v ∉ t.nb →
        (∀ r, B.basics[r]? = some v → k + 1 ≤ B.numCols + r) → t1.rowOfVar[v]? = some (-1)) ∧
      (∀ o, orig = some o → t1.rowOfOrig.length = B.numCols) ∧
      (∀ o, orig = some o → ∀ (r v : ℕ), B.basics[r]? = some v → B.numCols + r < k + 1 →
        0 ≤ getVarNBIndex o v → t1.rowOfOrig[(getVarNBIndex o v).toNat]? = some (r : ℤ)) ∧
      (∀ o, orig = some o → ∀ (j : ℕ), j < B.numCols →
        (∀ (r v : ℕ), B.basics[r]? = some v → B.numCols + r < k + 1 → getVarNBIndex o v ≠ (j : ℤ)) →
        t1.rowOfOrig[j]? = some (-1)) := by
    by_cases hc : k < B.numCols
    · rw [if_pos hc]
      refine ⟨t, rfl, rfl, h.len, h.nonbasic, ?_, ?_, h.origLen, ?_, ?_⟩
      · intro r v _ hlt; omega
      · intro v hv hn hr
        exact h.rest v hv hn (fun r hr' => by have := hr r hr'; omega)
      · intro o _ r v _ hlt; omega
      · intro o hoo j hj hne
        exact h.origRest o hoo j hj (fun r v hr hlt => by omega)
    · rw [if_neg hc]
      obtain ⟨r, hr⟩ : ∃ r, k = B.numCols + r := ⟨k - B.numCols, by omega⟩
      subst hr
      rw [Nat.add_sub_cancel_left]
      have hr : r < B.numRows := by omega
      obtain ⟨t', e1, e2, e3, b, hb, e4, e5⟩ := visitRow_spec hB ho hr h
      have hbmem : b ∈ B.basics := List.mem_of_getElem? hb
      have hblt := hB.lt b hbmem
      have hbb : B.isBasic b = true := (hB.basic b hblt).mpr hbmem
      have hbnb : b ∉ t.nb := by
        rw [h.nb, List.mem_filter]; rintro ⟨_, h2⟩; rw [hbb] at h2; cases h2
      refine ⟨t', e1, e2, by rw [e3, h.len], ?_, ?_, ?_, ?_, ?_, ?_⟩
      · intro j v hv
        rw [e4, getElem?_set_ne' (fun (he : b = v) => hbnb (he ▸ List.mem_of_getElem? hv))]
        exact h.nonbasic j v hv
      · intro s v hs hlt
        rw [e4]
        rcases Nat.eq_or_lt_of_le (show s ≤ r by omega) with he | hslt
        · subst he
          rw [hb] at hs; cases hs
          rw [List.getElem?_set_self (by rw [h.len]; exact hblt)]
        · have hne : b ≠ v := by
            intro he; subst he
            have := nodup_get hB hb hs; omega
          rw [getElem?_set_ne' hne]
          exact h.basic s v hs (by omega)
      · intro v hv hn hrr
        have hne : b ≠ v := by
          intro he; subst he
          have := hrr r hb; omega
        rw [e4, getElem?_set_ne' hne]
        exact h.rest v hv hn (fun s hs => by have := hrr s hs; omega)
      · intro o hoo
        have := h.origLen o hoo
        subst hoo
        rw [e5]; dsimp only
        split <;> simp [this]
      · intro o hoo s v hs hlt hpos
        have hol := h.origLen o hoo
        have hok := ho o hoo
        subst hoo
        rw [e5]; dsimp only
        rcases Nat.eq_or_lt_of_le (show s ≤ r by omega) with he | hslt
        · subst he
          rw [hb] at hs; cases hs
          rw [if_pos hpos, List.getElem?_set_self (by rw [hol]; have := hok.2 b; omega)]
        · have hold := h.origBasic o rfl s v hs (by omega) hpos
          split
          · rename_i hpb
            rw [getElem?_set_ne' ?_]
            · exact hold
            · intro he
              have : getVarNBIndex o b = getVarNBIndex o v := by omega
              have hbv := hok.1 b v hpb this
              subst hbv
              have := nodup_get hB hb hs; omega
          · exact hold
      · intro o hoo j hj hne
        have hold := h.origRest o hoo j hj (fun s v hs hlt => hne s v hs (by omega))
        have hnb := hne r b hb (by omega)
        subst hoo
        rw [e5]; dsimp only
        split
        · rw [getElem?_set_ne' (by omega)]; exact hold
        · exact hold
  obtain ⟨t1, e1, f1, f2, f3, f4, f5, f6, f7, f8⟩ := hrow
  unfold visitVar
  rw [e1]
  simp only [Res.bind]
  cases hbk : B.isBasic k with
  | false =>
    left
    simp only [Bool.not_false, if_true]
    refine ⟨_, rfl, ?_⟩
    have hknb : k ∉ t.nb := by rw [h.nb]; simp
    have hkb : k ∉ B.basics := fun hm => by
      have := (hB.basic k hk).mpr hm; rw [hbk] at this; cases this
    have hkval : t1.rowOfVar[k]? = some (-1) :=
      f5 k hk hknb (fun r hr => absurd (List.mem_of_getElem? hr) hkb)
    have hgetD : t1.rowOfVar.getD k 0 = -1 := by
      rw [List.getD_eq_getElem?_getD, hkval]; rfl
    have hnbk : (visitNonbasic k t1).nb = t.nb ++ [k] := by simp [visitNonbasic, f1]
    have hrv : (visitNonbasic k t1).rowOfVar = t1.rowOfVar.set k (-1 - (t.nb.length : ℤ)) := by
      unfold visitNonbasic; dsimp only; rw [hgetD, f1]
    exact
      { nb := by rw [hnbk, h.nb, List.range_succ, List.filter_append]; simp [hbk]
        len := by rw [hrv, List.length_set, f2]
        nonbasic := by
          intro j v hv
          rw [hnbk] at hv
          rw [hrv]
          rcases Nat.lt_trichotomy j t.nb.length with hj | hj | hj
          · rw [List.getElem?_append_left hj] at hv
            rw [getElem?_set_ne' (fun (he : k = v) => hknb (he ▸ List.mem_of_getElem? hv))]
            exact f3 j v hv
          · subst hj
            rw [List.getElem?_append_right (le_refl _), Nat.sub_self] at hv
            cases hv
            rw [List.getElem?_set_self (by rw [f2]; exact hk)]
            congr 1; ring
          · rw [List.getElem?_eq_none (by simp; omega)] at hv; cases hv
        basic := by
          intro r v hr hlt
          rw [hrv, getElem?_set_ne' (fun (he : k = v) => hkb (he ▸ List.mem_of_getElem? hr))]
          exact f4 r v hr hlt
        rest := by
          intro v hv hn hr
          rw [hnbk] at hn
          simp only [List.mem_append, List.mem_singleton, not_or] at hn
          rw [hrv, getElem?_set_ne' (fun he => hn.2 he.symm)]
          exact f5 v hv hn.1 hr
        slack := by
          intro v h1 h2 h3
          rcases Nat.eq_or_lt_of_le (show v ≤ k by omega) with he | hlt
          · subst he; rw [hbk] at h3; cases h3
          · exact h.slack v h1 hlt h3
        origLen := f6
        origBasic := f7
        origRest := f8 }
  | true =>
    simp only [Bool.not_true, Bool.false_eq_true, if_false]
    by_cases hex : B.numCols ≤ k ∧ B.basics[k - B.numCols]? ≠ some k
    · right
      rw [if_pos hex]
      exact ⟨rfl, hex.1, trivial, hex.2⟩
    · left
      rw [if_neg hex]
      refine ⟨t1, rfl, ?_⟩
      exact
        { nb := by rw [f1, h.nb, List.range_succ, List.filter_append]; simp [hbk]
          len := f2
          nonbasic := by intro j v hv; rw [f1] at hv; exact f3 j v hv
          basic := f4
          rest := by intro v hv hn hr; rw [f1] at hn; exact f5 v hv hn hr
          slack := by
            intro v h1 h2 h3
            rcases Nat.eq_or_lt_of_le (show v ≤ k by omega) with he | hlt
            · subst he
              by_contra hcon
              exact hex ⟨h1, hcon⟩
            · exact h.slack v h1 hlt h3
          origLen := f6
          origBasic := f7
          origRest := f8 }

theorem visitAll_spec {B : BasisIn} (hB : BasisOk B) {orig : Option (List ℤ)}
    (ho : ∀ o, orig = some o → OrigOk B.numCols o) :
    ∀ (m k : ℕ) (t : IndexTabs), k + m = B.numCols + B.numRows → Visited B orig k t →
      (∃ t', visitAll B orig (List.range' k m) t = .ok t' ∧
        Visited B orig (B.numCols + B.numRows) t') ∨
      (visitAll B orig (List.range' k m) t = .exit ∧
        ∃ v, B.numCols ≤ v ∧ v < B.numCols + B.numRows ∧ B.isBasic v = true ∧
          B.basics[v - B.numCols]? ≠ some v) := by
  intro m
  induction m with
  | zero =>
    intro k t hk h
    left
    exact ⟨t, rfl, by rw [← hk]; exact h⟩
  | succ m ih =>
    intro k t hk h
    rw [List.range'_succ, visitAll]
    rcases visitVar_spec hB ho (by omega) h with ⟨t', e1, h'⟩ | ⟨e1, e2, e3, e4⟩
    · rw [e1]
      exact ih (k + 1) t' (by omega) h'
    · right
      rw [e1]
      exact ⟨rfl, k, e2, by omega, e3, e4⟩

theorem indexTables_cases {B : BasisIn} (hB : BasisOk B) (hm : B.numRows ≠ 0)
    {orig : Option (List ℤ)} (ho : ∀ o, orig = some o → OrigOk B.numCols o) :
    (∃ t, indexTables B orig = .ok t ∧ Visited B orig (B.numCols + B.numRows) t) ∨
    (indexTables B orig = .exit ∧ ∃ v, B.numCols ≤ v ∧ v < B.numCols + B.numRows ∧
      B.isBasic v = true ∧ B.basics[v - B.numCols]? ≠ some v) := by
  unfold indexTables
  rw [if_neg hm, List.range_eq_range']
  refine visitAll_spec hB ho _ 0 _ (by omega) ?_
  exact
    { nb := rfl
      len := by simp
      nonbasic := by intro j v hv; cases hv
      basic := by intro r v _ h; omega
      rest := by
        intro v hv _ _
        dsimp only
        rw [List.getElem?_replicate, if_pos hv]
      slack := by intro v _ h; omega
      origLen := by intro o h; subst h; simp
      origBasic := by intro o _ r v _ h; omega
      origRest := by
        intro o h j hj _
        subst h
        dsimp only
        rw [List.getElem?_replicate, if_pos hj] }

/-- `getProblemData` returns exactly for the bases in which every basic slack is basic in its own row,
and otherwise terminates the process. -/
theorem index_tables_exit_iff (B : BasisIn) (hB : BasisOk B) (hm : B.numRows ≠ 0) :
    ((∃ t, indexTables B none = .ok t) ↔
      ∀ i, i < B.numRows → B.numCols + i ∈ B.basics → B.basics[i]? = some (B.numCols + i)) ∧
    ((∃ t, indexTables B none = .ok t) ∨ indexTables B none = .exit) := by
  rcases indexTables_cases hB hm (orig := none) (fun o h => by cases h) with ⟨t, e, h⟩ | ⟨e, v, h1, h2, h3, h4⟩
  · refine ⟨⟨fun _ i hi hmem => ?_, fun _ => ⟨t, e⟩⟩, Or.inl ⟨t, e⟩⟩
    have := h.slack (B.numCols + i) (by omega) (by omega)
      ((hB.basic _ (by omega)).mpr hmem)
    rwa [Nat.add_sub_cancel_left] at this
  · refine ⟨⟨fun ⟨t, ht⟩ => (by rw [e] at ht; cases ht), fun hall => ?_⟩, Or.inr e⟩
    exfalso
    apply h4
    have := hall (v - B.numCols) (by omega)
      (by rw [Nat.add_sub_cancel' h1]; exact (hB.basic v h2).mp h3)
    rwa [Nat.add_sub_cancel' h1] at this

/-- **C40.** For every basis for which the tables are built: the nonbasic variables are listed in
increasing order, each once, and there are as many as columns; the table entry of the `j`-th nonbasic
variable is `-(1+j)`, the entry of the variable basic in row `r` is `r`; and the lookup inverts the list:
it returns `j` exactly for the `j`-th nonbasic variable and `-1` exactly for basic variables and numbers
that are no variables. -/
theorem index_tables (B : BasisIn) (hB : BasisOk B) (t : IndexTabs)
    (h : indexTables B none = .ok t) :
    (t.nb.Pairwise (· < ·) ∧ (∀ v, v ∈ t.nb ↔ v < B.numCols + B.numRows ∧ v ∉ B.basics) ∧
      t.nb.length = B.numCols) ∧
    (∀ (j v : ℕ), t.nb[j]? = some v → t.rowOfVar[v]? = some (-(1 + (j : ℤ)))) ∧
    (∀ (r v : ℕ), B.basics[r]? = some v → t.rowOfVar[v]? = some (r : ℤ)) ∧
    (∀ v j, getVarNBIndex t.rowOfVar v = (j : ℕ) ↔ t.nb[j]? = some v) ∧
    (∀ v, getVarNBIndex t.rowOfVar v = -1 ↔ v ∈ B.basics ∨ B.numCols + B.numRows ≤ v) := by
  have hm : B.numRows ≠ 0 := by
    intro h0; unfold indexTables at h; rw [if_pos h0] at h; cases h
  rcases indexTables_cases hB hm (orig := none) (fun o h => by cases h) with ⟨t', e, hv⟩ | ⟨e, _⟩
  swap
  · rw [e] at h; cases h
  rw [e] at h; cases h
  have hmem : ∀ v, v ∈ t.nb ↔ v < B.numCols + B.numRows ∧ v ∉ B.basics := by
    intro v
    rw [hv.nb, List.mem_filter, List.mem_range]
    constructor
    · rintro ⟨h1, h2⟩
      refine ⟨h1, fun h3 => ?_⟩
      rw [(hB.basic v h1).mpr h3] at h2; cases h2
    · rintro ⟨h1, h2⟩
      refine ⟨h1, ?_⟩
      cases hb : B.isBasic v with
      | false => rfl
      | true => exact absurd ((hB.basic v h1).mp hb) h2
  have hsorted : t.nb.Pairwise (· < ·) := by
    rw [hv.nb]
    exact List.Pairwise.filter _ List.pairwise_lt_range
  have hnd : t.nb.Nodup := hsorted.imp (fun h => Nat.ne_of_lt h)
  have hlen : t.nb.length = B.numCols := by
    have hperm : (t.nb ++ B.basics).Perm (List.range (B.numCols + B.numRows)) := by
      rw [List.perm_ext_iff_of_nodup]
      · intro v
        rw [List.mem_append, hmem, List.mem_range]
        constructor
        · rintro (h | h)
          · exact h.1
          · exact hB.lt v h
        · intro h
          by_cases hvb : v ∈ B.basics
          · exact Or.inr hvb
          · exact Or.inl ⟨h, hvb⟩
      · rw [List.nodup_append]
        exact ⟨hnd, hB.nodup, fun a ha b hb he => ((hmem a).mp ha).2 (he ▸ hb)⟩
      · exact List.nodup_range
    have := hperm.length_eq
    rw [List.length_append, List.length_range, hB.rows] at this
    omega
  have hbasic : ∀ (r v : ℕ), B.basics[r]? = some v → t.rowOfVar[v]? = some (r : ℤ) := by
    intro r v hr
    obtain ⟨hlt, _⟩ := List.getElem?_eq_some_iff.mp hr
    exact hv.basic r v hr (by rw [hB.rows] at hlt; omega)
  have hcase : ∀ v, (∃ j : ℕ, t.nb[j]? = some v ∧ getVarNBIndex t.rowOfVar v = (j : ℤ)) ∨
      ((v ∈ B.basics ∨ B.numCols + B.numRows ≤ v) ∧ getVarNBIndex t.rowOfVar v = -1) := by
    intro v
    by_cases hlt : v < B.numCols + B.numRows
    · by_cases hvb : v ∈ B.basics
      · right
        obtain ⟨r, hr⟩ := List.mem_iff_getElem?.mp hvb
        refine ⟨Or.inl hvb, ?_⟩
        unfold getVarNBIndex
        rw [hbasic r v hr]
        dsimp only
        rw [if_neg (by omega)]
      · left
        obtain ⟨j, hj⟩ := List.mem_iff_getElem?.mp ((hmem v).mpr ⟨hlt, hvb⟩)
        refine ⟨j, hj, ?_⟩
        unfold getVarNBIndex
        rw [hv.nonbasic j v hj]
        dsimp only
        rw [if_pos (by omega)]
        ring
    · right
      refine ⟨Or.inr (by omega), ?_⟩
      unfold getVarNBIndex
      rw [List.getElem?_eq_none (by rw [hv.len]; omega)]
  refine ⟨⟨hsorted, hmem, hlen⟩, hv.nonbasic, hbasic, ?_, ?_⟩
  · intro v j
    rcases hcase v with ⟨j', h1, h2⟩ | ⟨h1, h2⟩
    · rw [h2]
      constructor
      · intro he; have : j' = j := by omega
        subst this; exact h1
      · intro hj
        obtain ⟨a1, a2⟩ := List.getElem?_eq_some_iff.mp h1
        obtain ⟨b1, b2⟩ := List.getElem?_eq_some_iff.mp hj
        rw [(hnd.getElem_inj_iff).mp (a2.trans b2.symm)]
    · rw [h2]
      constructor
      · intro he; omega
      · intro hj
        have := (hmem v).mp (List.mem_of_getElem? hj)
        rcases h1 with h1 | h1
        · exact absurd h1 this.2
        · omega
  · intro v
    rcases hcase v with ⟨j', h1, h2⟩ | ⟨h1, h2⟩
    · rw [h2]
      constructor
      · intro he; omega
      · intro hor
        have := (hmem v).mp (List.mem_of_getElem? h1)
        rcases hor with h | h
        · exact absurd h this.2
        · omega
    · exact ⟨fun _ => h1, fun _ => h2⟩

/-- The table of one problem is a valid table of original variables for another one with the same columns. -/
theorem index_tables_origOk (B : BasisIn) (hB : BasisOk B) (t : IndexTabs)
    (h : indexTables B none = .ok t) : OrigOk B.numCols t.rowOfVar := by
  obtain ⟨⟨_, _, hlen⟩, _, _, hinv, _⟩ := index_tables B hB t h
  constructor
  · intro v w hv he
    obtain ⟨j, hj⟩ := Int.eq_ofNat_of_zero_le hv
    have h1 := (hinv v j).mp hj
    have h2 := (hinv w j).mp (by rw [← he]; exact hj)
    rw [h1] at h2; cases h2; rfl
  · intro v
    by_cases hv : 0 ≤ getVarNBIndex t.rowOfVar v
    · obtain ⟨j, hj⟩ := Int.eq_ofNat_of_zero_le hv
      have h1 := (hinv v j).mp hj
      obtain ⟨hlt, _⟩ := List.getElem?_eq_some_iff.mp h1
      rw [hj, ← hlen]; exact_mod_cast hlt
    · omega

/-- **C40, original variables.** For a subproblem with more rows (for example a disjunctive term): the entry of the `j`-th
original nonbasic variable is the row in which it is now basic, and -1 if it is still nonbasic. The
documentation (include/CglVPC.hpp:150) promises `-(1 + new nonbasic index)` in that case, which the
code does not store, see `orig_table_not_as_documented`. -/
theorem orig_table_partial (B0 B : BasisIn) (h0 : BasisOk B0) (hB : BasisOk B)
    (hn : B.numCols = B0.numCols) (t0 t : IndexTabs)
    (e0 : indexTables B0 none = .ok t0) (e : indexTables B (some t0.rowOfVar) = .ok t) (j v : ℕ)
    (hj : t0.nb[j]? = some v) :
    (∀ r : ℕ, B.basics[r]? = some v → t.rowOfOrig[j]? = some (r : ℤ)) ∧
    (v ∉ B.basics → t.rowOfOrig[j]? = some (-1)) := by
  have hok : ∀ o, some t0.rowOfVar = some o → OrigOk B.numCols o := by
    intro o ho; cases ho; rw [hn]; exact index_tables_origOk B0 h0 t0 e0
  have hm : B.numRows ≠ 0 := by
    intro h; unfold indexTables at e; rw [if_pos h] at e; cases e
  rcases indexTables_cases hB hm hok with ⟨t', e', hv⟩ | ⟨e', _⟩
  swap
  · rw [e'] at e; cases e
  rw [e'] at e; cases e
  obtain ⟨⟨_, _, hlen⟩, _, _, hinv, _⟩ := index_tables B0 h0 t0 e0
  have hidx := (hinv v j).mpr hj
  obtain ⟨hjlt, _⟩ := List.getElem?_eq_some_iff.mp hj
  constructor
  · intro r hr
    obtain ⟨hlt, _⟩ := List.getElem?_eq_some_iff.mp hr
    have := hv.origBasic _ rfl r v hr (by rw [hB.rows] at hlt; omega) (by rw [hidx]; omega)
    rw [hidx] at this
    simpa using this
  · intro hvb
    refine hv.origRest _ rfl j (by rw [hn, ← hlen]; exact hjlt) ?_
    intro r w hw _ he
    have := (hinv w j).mp he
    rw [hj] at this
    cases this
    exact hvb (List.mem_of_getElem? hw)

/-- A basis with two columns and two rows: column 1 is basic in row 0, slack 3 in its row 1. -/
def demoBasis : BasisIn := ⟨2, 2, [1, 3], fun v => v = 1 || v = 3⟩
/-- Another basis: column 0 is basic in row 0. -/
def demoBasis2 : BasisIn := ⟨2, 2, [0, 3], fun v => v = 0 || v = 3⟩

example : BasisOk demoBasis where
  rows := rfl
  nodup := by decide
  lt := by decide
  basic := by intro v hv; simp [demoBasis]

example : BasisOk demoBasis2 where
  rows := rfl
  nodup := by decide
  lt := by decide
  basic := by intro v hv; simp [demoBasis2]

example : indexTables demoBasis none = .ok ⟨[0, 2], [-1, 0, -2, 1], []⟩ := by decide +kernel

/-- **C40 (negation, documented meaning of the table of original variables).** Slack 2 is nonbasic in both
bases, with new index 1, but its entry is -1 and not -2. -/
theorem orig_table_not_as_documented :
    indexTables demoBasis none = .ok ⟨[0, 2], [-1, 0, -2, 1], []⟩ ∧
    indexTables demoBasis2 (some [-1, 0, -2, 1]) = .ok ⟨[1, 2], [0, -1, -2, 1], [0, -1]⟩ ∧
    (-1 : ℤ) ≠ -(1 + 1) := by decide +kernel

/-- A basis whose basic slack sits in another row terminates the process. -/
example : BasisOk ⟨1, 2, [2, 0], fun v => v = 0 || v = 2⟩ ∧
    indexTables ⟨1, 2, [2, 0], fun v => v = 0 || v = 2⟩ none = .exit := by
  refine ⟨⟨rfl, by decide, by decide, ?_⟩, by decide +kernel⟩
  intro v hv; simp [or_comm]

/-- Without rows the behaviour is undefined. -/
theorem no_rows_undefined (B : BasisIn) (h : B.numRows = 0) (o : Option (List ℤ)) :
    indexTables B o = .undef := by unfold indexTables; rw [if_pos h]

/-! ## C67: reduced costs -/

/-- The solver's duals are optimal: reduced costs have the right sign for the bound at which a nonbasic
variable is. (Clp's row status is flipped, see `isNonBasicUBSlack`.) -/
def DualOk (D : DualIn) (v : ℕ) : Prop :=
  if v < D.numCols then
    (D.status v = .atLowerBound → 0 ≤ D.reducedCost v) ∧
    (D.status v = .atUpperBound → D.reducedCost v ≤ 0) ∧
    (D.status v = .isFree ∨ D.status v = .superBasic → D.reducedCost v = 0)
  else
    (D.status v = .atLowerBound → 0 ≤ D.rowPrice (v - D.numCols)) ∧
    (D.status v = .atUpperBound → D.rowPrice (v - D.numCols) ≤ 0) ∧
    (D.status v = .isFree ∨ D.status v = .superBasic → D.rowPrice (v - D.numCols) = 0)

/-- **C67.** With optimal duals the nonbasic reduced cost of every nonbasic variable that is not fixed is
nonnegative, and that of a fixed one is at least `-1e-7` (the default tolerance). -/
theorem nbReducedCost_nonneg (D : DualIn) (v : ℕ) (h : DualOk D v) (hb : D.status v ≠ .basic) :
    (D.status v ≠ .isFixed → 0 ≤ nbReducedCost D v) ∧ -defEps ≤ nbReducedCost D v := by
  have he : (0 : ℚ) ≤ defEps := by unfold defEps; norm_num
  unfold nbReducedCost isNonBasicUBCol isNonBasicUBSlack
  unfold DualOk at h
  by_cases hc : v < D.numCols
  · rw [if_pos hc] at h ⊢
    obtain ⟨h1, h2, h3⟩ := h
    cases hs : D.status v with
    | basic => exact absurd hs hb
    | isFree => have := h3 (Or.inl hs); simp [this, he]
    | superBasic => have := h3 (Or.inr hs); simp [this, he]
    | atLowerBound => have := h1 hs; simp; exact ⟨this, by linarith⟩
    | atUpperBound => have := h2 hs; simp; exact ⟨this, by linarith⟩
    | isFixed =>
      simp only [reduceCtorEq, decide_false, decide_true, Bool.true_and, Bool.false_or, ne_eq,
        not_true_eq_false, false_implies, true_and]
      split
      · rename_i hl
        unfold lessThanVal at hl
        simp only [decide_eq_true_eq] at hl
        linarith
      · rename_i hl
        unfold lessThanVal at hl
        simp only [decide_eq_true_eq, not_le] at hl
        linarith
  · rw [if_neg hc] at h ⊢
    obtain ⟨h1, h2, h3⟩ := h
    dsimp only
    cases hs : D.status v with
    | basic => exact absurd hs hb
    | isFree => have := h3 (Or.inl hs); simp [this, he]
    | superBasic => have := h3 (Or.inr hs); simp [this, he]
    | atLowerBound => have := h1 hs; simp; exact ⟨this, by linarith⟩
    | atUpperBound => have := h2 hs; simp; exact ⟨this, by linarith⟩
    | isFixed =>
      simp only [reduceCtorEq, decide_false, decide_true, Bool.true_and, Bool.false_or, ne_eq,
        not_true_eq_false, false_implies, true_and]
      split
      · rename_i hl
        unfold greaterThanVal at hl
        simp only [decide_eq_true_eq] at hl
        linarith
      · rename_i hl
        unfold greaterThanVal at hl
        simp only [decide_eq_true_eq, not_le] at hl
        linarith

/-- **C67.** The values are recorded in the order of the nonbasic variables; the process ends exactly if
some value is at most `-DIFFEPS` (for `DIFFEPS` at least the default tolerance), and a warning is counted for each
value at most minus the default tolerance. -/
theorem nbReducedCosts_spec (D : DualIn) (DIFFEPS : ℚ) (hd : defEps ≤ DIFFEPS) (nb : List ℕ) :
    (nbReducedCosts D DIFFEPS nb = .exit ↔ ∃ v ∈ nb, nbReducedCost D v ≤ -DIFFEPS) ∧
    (nbReducedCosts D DIFFEPS nb ≠ .undef) ∧
    (∀ r, nbReducedCosts D DIFFEPS nb = .ok r →
      r.1 = nb.map (nbReducedCost D) ∧
      r.2 = nb.countP fun v => decide (nbReducedCost D v ≤ -defEps)) := by
  have hlt : ∀ (x e : ℚ), lessThanVal x 0 e = decide (x ≤ -e) := by
    intro x e; unfold lessThanVal; simp
  induction nb with
  | nil => simp [nbReducedCosts]
  | cons v vs ih =>
    obtain ⟨h1, h2, h3⟩ := ih
    unfold nbReducedCosts
    dsimp only
    simp only [hlt]
    by_cases hx : nbReducedCost D v ≤ -DIFFEPS
    · have hx2 : nbReducedCost D v ≤ -defEps := by linarith
      rw [if_pos (by simp [hx, hx2])]
      refine ⟨⟨fun _ => ⟨v, by simp, hx⟩, fun _ => rfl⟩, by simp, fun r h => by cases h⟩
    · rw [if_neg (by simp [hx])]
      cases hr : nbReducedCosts D DIFFEPS vs with
      | undef => exact absurd hr h2
      | exit =>
        obtain ⟨w, hw, hw2⟩ := h1.mp hr
        simp only [Res.bind]
        exact ⟨⟨fun _ => ⟨w, by simp [hw], hw2⟩, fun _ => trivial⟩, by simp, fun r h => by cases h⟩
      | ok r =>
        obtain ⟨k1, k2⟩ := h3 r hr
        simp only [Res.bind]
        refine ⟨⟨fun h => (by cases h), ?_⟩, by simp, ?_⟩
        · rintro ⟨w, hw, hw2⟩
          rcases List.mem_cons.mp hw with hw | hw
          · subst hw; exact absurd hw2 hx
          · have := h1.mpr ⟨w, hw, hw2⟩; rw [hr] at this; cases this
        · intro r' h
          cases h
          refine ⟨by simp [k1], ?_⟩
          rw [List.countP_cons, k2]
          by_cases hh : nbReducedCost D v ≤ -defEps
          · simp [hh]; omega
          · simp [hh]

/-- Dual data for the example: column 0 at its upper bound, slack 2 of a binding row. -/
def demoDual : DualIn :=
  ⟨2, fun v => if v = 0 then .atUpperBound else .atLowerBound, fun _ => -3, fun _ => 2⟩

example : DualOk demoDual 0 ∧ DualOk demoDual 2 ∧ demoDual.status 2 ≠ .basic ∧
    nbReducedCost demoDual 0 = 3 ∧ nbReducedCost demoDual 2 = 2 ∧
    nbReducedCosts demoDual (1 / 1000) [0, 2] = .ok ([3, 2], 0) := by
  refine ⟨?_, ?_, by decide, by decide +kernel, by decide +kernel, by decide +kernel⟩ <;>
    · unfold DualOk demoDual; simp

/-! ## C68: the tolerance of the instance -/

theorem takeRef_inv (p : ℚ × ℚ) (x : ℚ) (h1 : 0 < p.1) (h2 : 1 ≤ p.2) :
    0 < (takeRef p x).1 ∧ 1 ≤ (takeRef p x).2 ∧ (takeRef p x).1 ≤ p.1 ∧ p.2 ≤ (takeRef p x).2 ∧
    |x| ≤ (takeRef p x).2 ∧ (x ≠ 0 → (takeRef p x).1 ≤ |x|) := by
  unfold takeRef
  refine ⟨?_, le_trans h2 (le_max_left _ _), ?_, le_max_left _ _, le_max_right _ _, ?_⟩
  · dsimp only
    split
    · rename_i hx; exact lt_min h1 (abs_pos.mpr hx)
    · exact h1
  · dsimp only
    split
    · exact min_le_left _ _
    · exact le_refl _
  · intro hx
    dsimp only
    rw [if_pos hx]
    exact min_le_right _ _

theorem foldl_takeRef (l : List ℚ) (p : ℚ × ℚ) (h1 : 0 < p.1) (h2 : 1 ≤ p.2) :
    0 < (l.foldl takeRef p).1 ∧ 1 ≤ (l.foldl takeRef p).2 ∧ (l.foldl takeRef p).1 ≤ p.1 ∧
    p.2 ≤ (l.foldl takeRef p).2 ∧
    ∀ x ∈ l, |x| ≤ (l.foldl takeRef p).2 ∧ (x ≠ 0 → (l.foldl takeRef p).1 ≤ |x|) := by
  induction l generalizing p with
  | nil => exact ⟨h1, h2, le_refl _, le_refl _, fun x hx => absurd hx List.not_mem_nil⟩
  | cons y ys ih =>
    obtain ⟨a1, a2, a3, a4, a5, a6⟩ := takeRef_inv p y h1 h2
    obtain ⟨b1, b2, b3, b4, b5⟩ := ih (takeRef p y) a1 a2
    rw [List.foldl_cons]
    refine ⟨b1, b2, b3.trans a3, a4.trans b4, ?_⟩
    intro x hx
    rcases List.mem_cons.mp hx with hx | hx
    · subst hx
      exact ⟨a5.trans b4, fun h => b3.trans (a6 h)⟩
    · exact b5 x hx

theorem foldl_maxAbs (l : List ℚ) (x : ℚ) :
    ∀ y ∈ x :: l, |y| ≤ |l.foldl (fun m y => if |m| < |y| then y else m) x| := by
  induction l generalizing x with
  | nil => intro y hy; simp at hy; subst hy; exact le_refl _
  | cons z zs ih =>
    intro y hy
    rw [List.foldl_cons]
    have h0 := ih (if |x| < |z| then z else x) (if |x| < |z| then z else x) (by simp)
    have hx : |x| ≤ |if |x| < |z| then z else x| := by split <;> linarith
    have hz : |z| ≤ |if |x| < |z| then z else x| := by split <;> linarith
    rcases List.mem_cons.mp hy with hy | hy
    · subst hy; exact hx.trans h0
    · rcases List.mem_cons.mp hy with hy | hy
      · subst hy; exact hz.trans h0
      · exact ih _ y (List.mem_cons_of_mem _ hy)

theorem foldl_minAbs (l : List ℚ) (x : ℚ) :
    (∀ y ∈ x :: l, |l.foldl (fun m y => if |y| < |m| then y else m) x| ≤ |y|) := by
  induction l generalizing x with
  | nil => intro y hy; simp at hy; subst hy; exact le_refl _
  | cons z zs ih =>
    intro y hy
    rw [List.foldl_cons]
    have h0 := ih (if |z| < |x| then z else x) (if |z| < |x| then z else x) (by simp)
    have hx : |if |z| < |x| then z else x| ≤ |x| := by split <;> linarith
    have hz : |if |z| < |x| then z else x| ≤ |z| := by split <;> linarith
    rcases List.mem_cons.mp hy with hy | hy
    · subst hy; exact h0.trans hx
    · rcases List.mem_cons.mp hy with hy | hy
      · subst hy; exact h0.trans hz
      · exact ih _ y (List.mem_cons_of_mem _ hy)

/-- **C68.** For every instance with at least one matrix element: the reported smallest and largest
absolute coefficients bound all elements, and the tolerance is positive, at most the parameter `EPS`, and at
most `|x| / |y|` for any two nonzero numbers `x`, `y` among the LP value, finite bounds and
right-hand sides (and any elements `y`). -/
theorem instanceEps_spec (EPS : ℚ) (hE : 0 < EPS) (R : RefData) (hR : R.elements ≠ []) :
    ∃ lo hi eps, instanceEps EPS R = .ok (lo, hi, eps) ∧
      (∀ a ∈ R.elements, lo ≤ |a| ∧ |a| ≤ hi) ∧ 0 < eps ∧ eps ≤ EPS ∧ eps ≤ 1 ∧
      (∀ x ∈ R.lpOpt :: (R.bounds ++ R.rhs), ∀ y ∈ R.elements ++ R.lpOpt :: (R.bounds ++ R.rhs),
        x ≠ 0 → y ≠ 0 → eps ≤ |x| / |y|) := by
  obtain ⟨a, as, ha⟩ : ∃ a as, R.elements = a :: as := by
    cases h : R.elements with
    | nil => exact absurd h hR
    | cons a as => exact ⟨a, as, rfl⟩
  unfold instanceEps
  rw [ha]
  simp only [minAbs, maxAbs]
  have hlo := foldl_minAbs as a
  have hhi := foldl_maxAbs as a
  generalize as.foldl (fun m y => if |y| < |m| then y else m) a = lo at *
  generalize as.foldl (fun m y => if |m| < |y| then y else m) a = hi at *
  generalize R.lpOpt :: (R.bounds ++ R.rhs) = l
  have hm : 0 < (if |lo| > 0 then min 1 |lo| else 1) := by
    split
    · rename_i h; exact lt_min one_pos h
    · exact one_pos
  have hm1 : (if |lo| > 0 then min 1 |lo| else 1) ≤ 1 := by
    split
    · exact min_le_left _ _
    · exact le_refl _
  obtain ⟨b1, b2, b3, b4, b5⟩ := foldl_takeRef l (if |lo| > 0 then min 1 |lo| else 1, max 1 |hi|) hm
    (le_max_left _ _)
  generalize l.foldl takeRef (if |lo| > 0 then min 1 |lo| else 1, max 1 |hi|) = p at *
  refine ⟨_, _, _, rfl, fun x hx => ⟨hlo x hx, hhi x hx⟩, ?_, min_le_left _ _, ?_, ?_⟩
  · exact lt_min hE (div_pos b1 (by linarith))
  · refine (min_le_right _ _).trans ?_
    rw [div_le_one (by linarith)]
    dsimp only at b3
    linarith
  · intro x hx y hy hx0 hy0
    refine (min_le_right _ _).trans ?_
    have hxb := (b5 x hx).2 hx0
    have hyb : |y| ≤ p.2 := by
      rcases List.mem_append.mp hy with hy | hy
      · exact ((hhi y hy).trans (le_max_right _ _)).trans b4
      · exact (b5 y hy).1
    have hyp : 0 < |y| := abs_pos.mpr hy0
    exact div_le_div₀ (by linarith) hxb hyp hyb

example : instanceEps (1 / 10000000) ⟨[2, -3], 10, [0, 1], [4]⟩ = .ok (2, 3, 1 / 10000000) := by
  decide +kernel

/-- **C68 (boundary).** An instance whose matrix has no elements makes the code read past the end of an
empty array. -/
theorem empty_matrix_undefined (EPS : ℚ) (R : RefData) (h : R.elements = []) :
    instanceEps EPS R = .undef := by unfold instanceEps; rw [h]; rfl

end VPC
