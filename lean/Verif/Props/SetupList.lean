import Verif.Model.SetupList
import Verif.Props.Choose
import Mathlib.Data.List.Perm.Basic
import Mathlib.Tactic.Linarith

/-!
# C108: the list of candidates for strong branching; C109: method 7
-/
namespace VPC

theorem dblMax_pos' : (0 : ℚ) < (2 ^ 53 - 1) * 2 ^ 971 := by
  have : (0 : ℚ) < 2 ^ 971 := pow_pos (by norm_num) _
  have h2 : (0 : ℚ) < 2 ^ 53 - 1 := by norm_num
  exact mul_pos h2 this

/-! ## The layout of the arrays -/

/-- `list_` is: the choices, a gap, the others. -/
structure Lay (s : SetSt) (front : List ℕ) (gap : ℕ) (others : List ℕ) : Prop where
  list : s.list = front.map some ++ (List.replicate gap none ++ others.map some)
  put : s.putOther = front.length + gap

theorem Lay.length {s : SetSt} {front others : List ℕ} {gap : ℕ} (h : Lay s front gap others) :
    s.list.length = front.length + gap + others.length := by
  rw [h.list]; simp; omega

theorem Lay.get_front {s : SetSt} {front others : List ℕ} {gap : ℕ} (h : Lay s front gap others) {j : ℕ}
    (hj : j < front.length) : s.list[j]? = some (some front[j]) := by
  rw [h.list, List.getElem?_append_left (by simpa using hj)]
  simp [hj]

theorem Lay.get_gap {s : SetSt} {front others : List ℕ} {gap : ℕ} (h : Lay s front gap others) {j : ℕ}
    (hj : front.length ≤ j) (hj2 : j < front.length + gap) : s.list[j]? = some none := by
  rw [h.list, List.getElem?_append_right (by simpa using hj),
    List.getElem?_append_left (by simp; omega)]
  simp only [List.length_map, List.getElem?_replicate]
  rw [if_pos (by omega)]

/-- Writing in the last position of the gap. -/
theorem set_gap_end (front others : List ℕ) (gap i : ℕ) :
    (front.map some ++ (List.replicate (gap + 1) none ++ others.map some)).set (front.length + gap) (some i)
      = front.map some ++ (List.replicate gap none ++ (i :: others).map some) := by
  rw [List.set_append_right _ _ (by simp)]
  congr 1
  simp only [List.length_map, Nat.add_sub_cancel_left]
  rw [List.replicate_succ', List.append_assoc, List.set_append_right _ _ (by simp)]
  simp

/-- Writing in the first position of the gap. -/
theorem set_gap_start (front others : List ℕ) (gap i : ℕ) :
    (front.map some ++ (List.replicate (gap + 1) none ++ others.map some)).set front.length (some i)
      = (front ++ [i]).map some ++ (List.replicate gap none ++ others.map some) := by
  rw [List.set_append_right _ _ (by simp)]
  simp [List.replicate_succ]

theorem putAtEnd_lay {s : SetSt} {front others : List ℕ} {gap : ℕ} (h : Lay s front (gap + 1) others)
    (i : ℕ) : ∃ s', putAtEnd i s = .ok s' ∧ Lay s' front gap (i :: others) ∧ s'.useful = s.useful ∧
      s'.maxStrong = s.maxStrong ∧ s'.check = s.check ∧ s'.checkIndex = s.checkIndex ∧
      s'.bestPrio = s.bestPrio := by
  have hp : s.putOther = front.length + gap + 1 := by rw [h.put]; omega
  have hg := h.get_gap (j := front.length + gap) (by omega) (by omega)
  refine ⟨{ s with list := s.list.set (front.length + gap) (some i), putOther := front.length + gap },
    ?_, ⟨?_, rfl⟩, rfl, rfl, rfl, rfl, rfl⟩
  · unfold putAtEnd
    rw [hp]
    dsimp only
    rw [hg]
  · dsimp only
    rw [h.list, set_gap_end]

theorem flushFrom_gap {s : SetSt} {front others : List ℕ} {gap : ℕ} (h : Lay s front gap others) :
    ∀ k, k ≤ gap → flushFrom (front.length + k) s = flushFrom front.length s
  | 0, _ => rfl
  | k + 1, hk => by
    rw [← Nat.add_assoc, flushFrom, h.get_gap (by omega) (by omega)]
    exact flushFrom_gap h k (by omega)

theorem flushFrom_front : ∀ (rev : List ℕ) {s : SetSt} {others : List ℕ} {gap : ℕ},
    Lay s rev.reverse (gap + 1) others →
    ∃ s', flushFrom rev.length s = .ok s' ∧ Lay s' [] (gap + 1) (rev.reverse ++ others) ∧
      s'.useful.length = s.useful.length ∧ s'.maxStrong = s.maxStrong
  | [], s, others, gap, h => ⟨s, rfl, by simpa using h, rfl, rfl⟩
  | o :: rev, s, others, gap, h => by
    have hp : s.putOther = rev.length + 1 + gap + 1 := by rw [h.put]; simp; omega
    have hg : s.list[rev.length]? = some (some o) := by
      rw [h.get_front (by simp)]
      simp
    have hlay : Lay { s with
        list := (s.list.set rev.length none).set (rev.length + 1 + gap) (some o)
        useful := s.useful.set rev.length 0
        putOther := rev.length + 1 + gap } rev.reverse (gap + 1) (o :: others) := by
      refine ⟨?_, by simp; omega⟩
      dsimp only
      have e1 : s.list.set rev.length none
          = rev.reverse.map some ++ (List.replicate (gap + 1 + 1) none ++ others.map some) := by
        rw [h.list]
        simp only [List.reverse_cons, List.map_append, List.map_cons, List.map_nil, List.append_assoc]
        rw [List.set_append_right _ _ (by simp)]
        simp [List.replicate_succ]
      rw [e1]
      have := set_gap_end rev.reverse others (gap + 1) o
      rw [List.length_reverse, show rev.length + (gap + 1) = rev.length + 1 + gap by omega] at this
      exact this
    obtain ⟨s', e, l, u, m⟩ := flushFrom_front rev hlay
    refine ⟨s', ?_, by simpa using l, by simpa using u, m⟩
    rw [List.length_cons, flushFrom, hg]
    dsimp only
    rw [hp]
    exact e

theorem flush_lay {s : SetSt} {front others : List ℕ} {gap : ℕ} (h : Lay s front (gap + 1) others)
    (p : ℤ) (hm : front.length ≤ s.maxStrong) (hm2 : s.maxStrong ≤ s.putOther) :
    ∃ s', flush p s = .ok s' ∧ Lay s' [] (gap + 1) (front ++ others) ∧
      s'.useful.length = s.useful.length ∧ s'.maxStrong = min s.maxStrong s'.putOther ∧
      s'.check = -dblMax ∧ s'.checkIndex = 0 ∧ s'.bestPrio = p := by
  have h' : Lay s front.reverse.reverse (gap + 1) others := by rwa [List.reverse_reverse]
  obtain ⟨s', e, l, u, m⟩ := flushFrom_front front.reverse h'
  rw [List.length_reverse] at e
  rw [List.reverse_reverse] at l
  obtain ⟨k, hk⟩ : ∃ k, s.maxStrong = front.length + k := ⟨s.maxStrong - front.length, by omega⟩
  have hf : flushFrom s.maxStrong s = .ok s' := by
    rw [hk, flushFrom_gap h k (by have := h.put; omega), e]
  refine ⟨{ s' with
    maxStrong := min s'.maxStrong s'.putOther, bestPrio := p, check := -dblMax, checkIndex := 0 },
    ?_, ⟨l.list, l.put⟩, u, by simp only [m], rfl, rfl, rfl⟩
  unfold flush
  rw [hf]
  rfl

/-! ## The worst choice -/

theorem findWorst_empty {list : List (Option ℕ)} {useful : List ℚ} {c : ℕ}
    (h1 : ∀ i < c, list.getD i none ≠ none) (h2 : list.getD c none = none) :
    ∀ (k j : ℕ) (check : ℚ) (idx : ℕ), j ≤ c → c < j + k → findWorst list useful k j check idx = (0, c)
  | 0, j, _, _, hj, hk => by omega
  | k + 1, j, check, idx, hj, hk => by
    unfold findWorst
    by_cases e : j = c
    · subst e; rw [h2]
    · have := h1 j (by omega)
      split
      · rename_i h; exact absurd h this
      · split
        · exact findWorst_empty h1 h2 k (j + 1) _ _ (by omega) (by omega)
        · exact findWorst_empty h1 h2 k (j + 1) _ _ (by omega) (by omega)

theorem findWorst_full {list : List (Option ℕ)} {useful : List ℚ} :
    ∀ (k j : ℕ) (check : ℚ) (idx : ℕ), (∀ i, j ≤ i → i < j + k → list.getD i none ≠ none) →
    (findWorst list useful k j check idx = (check, idx) ∨
      ∃ i, j ≤ i ∧ i < j + k ∧ findWorst list useful k j check idx = (useful.getD i 0, i)) ∧
    (findWorst list useful k j check idx).1 ≤ check ∧
    ∀ i, j ≤ i → i < j + k → (findWorst list useful k j check idx).1 ≤ useful.getD i 0
  | 0, j, check, idx, _ => ⟨Or.inl rfl, le_refl _, fun i h1 h2 => by omega⟩
  | k + 1, j, check, idx, h => by
    unfold findWorst
    have hj := h j (le_refl _) (by omega)
    split
    · rename_i e; exact absurd e hj
    · split
      · rename_i hlt
        obtain ⟨a, b, c⟩ := findWorst_full (useful := useful) k (j + 1) (useful.getD j 0) j
          (fun i h1 h2 => h i (by omega) (by omega))
        refine ⟨Or.inr ?_, b.trans hlt.le, ?_⟩
        · rcases a with a | ⟨i, h1, h2, e⟩
          · exact ⟨j, le_refl _, by omega, a⟩
          · exact ⟨i, by omega, by omega, e⟩
        · intro i h1 h2
          by_cases e : i = j
          · subst e; exact b
          · exact c i (by omega) (by omega)
      · rename_i hlt
        obtain ⟨a, b, c⟩ := findWorst_full (useful := useful) k (j + 1) check idx
          (fun i h1 h2 => h i (by omega) (by omega))
        refine ⟨?_, b, ?_⟩
        · rcases a with a | ⟨i, h1, h2, e⟩
          · exact Or.inl a
          · exact Or.inr ⟨i, by omega, by omega, e⟩
        · intro i h1 h2
          by_cases e : i = j
          · subst e; exact b.trans (not_lt.1 hlt)
          · exact c i (by omega) (by omega)

/-! ## The invariant of the loop -/

/-- After the objects `done`: `cap` is the most choices there can be. -/
structure SInv (n cap : ℕ) (sc : ℕ → ℚ) (pr : ℕ → ℤ) (done : List ℕ) (s : SetSt) (front others : List ℕ)
    (gap : ℕ) : Prop where
  lay : Lay s front gap others
  total : front.length + gap + others.length = n
  ulen : s.useful.length = n
  useful : ∀ k (h : k < front.length), s.useful.getD k 0 = sc front[k]
  maxS : s.maxStrong = min cap s.putOther
  perm : (front ++ others).Perm done
  small : front.length ≤ cap
  some : done ≠ [] → front ≠ []
  prF : ∀ o ∈ front, pr o = s.bestPrio
  prO : ∀ o ∈ others, s.bestPrio ≤ pr o
  best : ∀ o ∈ others, pr o = s.bestPrio → sc o ≤ 0 ∨
    (front.length = cap ∧ ∀ f ∈ front, sc o ≤ sc f)
  chk0 : front = [] → s.check = -dblMax ∧ s.checkIndex = 0
  chk1 : 0 < gap → front ≠ [] → front.length < cap → s.check = 0 ∧ s.checkIndex = front.length
  chk2 : front ≠ [] → front.length = cap →
    ∃ h : s.checkIndex < front.length, s.check = sc front[s.checkIndex] ∧ ∀ f ∈ front, s.check ≤ sc f

/-- What looking for the worst choice gives. -/
theorem worst_spec {n cap : ℕ} {sc : ℕ → ℚ} {s : SetSt} {front others : List ℕ} {gap : ℕ} (idx : ℕ)
    (lay : Lay s front gap others)
    (useful : ∀ k (h : k < front.length), s.useful.getD k 0 = sc front[k])
    (maxS : s.maxStrong = min cap s.putOther) (small : front.length ≤ cap) (ne : front ≠ [])
    (hsc : ∀ f ∈ front, sc f < dblMax) :
    let w := findWorst s.list s.useful s.maxStrong 0 dblMax idx
    (0 < gap → front.length < cap → w = (0, front.length)) ∧
      (front.length = cap → ∃ h : w.2 < front.length, w.1 = sc front[w.2] ∧ ∀ f ∈ front, w.1 ≤ sc f) := by
  have hput := lay.put
  have hg : ∀ i < front.length, s.list.getD i none ≠ none := by
    intro i hi
    rw [List.getD_eq_getElem?_getD, lay.get_front hi]; simp
  constructor
  · intro h1 h2
    apply findWorst_empty hg
    · rw [List.getD_eq_getElem?_getD, lay.get_gap (le_refl _) (by omega)]; rfl
    · omega
    · omega
  · intro h2
    have hm : s.maxStrong = front.length := by omega
    rw [hm]
    obtain ⟨a, b, c⟩ := findWorst_full (useful := s.useful) (list := s.list) front.length 0 dblMax idx
      (fun i _ h => hg i (by omega))
    have h0 : 0 < front.length := List.length_pos_iff.2 ne
    have hlt : (findWorst s.list s.useful front.length 0 dblMax idx).1 < dblMax := by
      refine lt_of_le_of_lt (c 0 (le_refl _) (by omega)) ?_
      rw [useful 0 h0]
      exact hsc _ (List.getElem_mem _)
    rcases a with a | ⟨i, -, h3, e⟩
    · rw [a] at hlt; exact absurd hlt (lt_irrefl _)
    · have hi : i < front.length := by omega
      refine ⟨by rw [e]; exact hi, ?_, ?_⟩
      · have e2 : ∀ w : ℚ × ℕ, w = (s.useful.getD i 0, i) → ∀ h : w.2 < front.length,
            w.1 = sc front[w.2] := by
          rintro w rfl h
          exact useful i hi
        exact e2 _ e _
      · intro f hf
        obtain ⟨k, hk, rfl⟩ := List.getElem_of_mem hf
        rw [← useful k hk]
        exact c k (by omega) (by omega)

/-- Bounds on the values: strictly between the extreme doubles. -/
def ProperScore (v : ℚ) : Prop := -dblMax < v ∧ v < dblMax

/-- The state after storing. -/
def stored (i : ℕ) (v : ℚ) (s : SetSt) : SetSt :=
  let w := findWorst (s.list.set s.checkIndex (some i)) (s.useful.set s.checkIndex v)
    (min s.maxStrong s.putOther) 0 dblMax s.checkIndex
  { s with
    list := s.list.set s.checkIndex (some i), useful := s.useful.set s.checkIndex v
    maxStrong := min s.maxStrong s.putOther, check := w.1, checkIndex := w.2 }

theorem store_eq {i : ℕ} {v : ℚ} {s : SetSt} (h : s.checkIndex < s.putOther) :
    store i v s = .ok (stored i v s) := by
  unfold store
  rw [if_pos h]
  rfl

theorem store_new {n cap : ℕ} {sc : ℕ → ℚ} {pr : ℕ → ℤ} {done : List ℕ} {s : SetSt}
    {front others : List ℕ} {gap i : ℕ} (lay : Lay s front (gap + 1) others)
    (total : front.length + (gap + 1) + others.length = n) (ulen : s.useful.length = n)
    (useful : ∀ k (h : k < front.length), s.useful.getD k 0 = sc front[k])
    (maxS : s.maxStrong = min cap s.putOther) (perm : (front ++ others).Perm done)
    (small : front.length < cap) (prF : ∀ o ∈ front, pr o = s.bestPrio)
    (prO : ∀ o ∈ others, s.bestPrio ≤ pr o)
    (best : ∀ o ∈ others, pr o = s.bestPrio → sc o ≤ 0)
    (ci : s.checkIndex = front.length) (hp : pr i = s.bestPrio)
    (hsc : ∀ f ∈ front ++ [i], sc f < dblMax) :
    ∃ s' , store i (sc i) s = .ok s' ∧ SInv n cap sc pr (done ++ [i]) s' (front ++ [i]) others gap ∧
      s'.bestPrio = s.bestPrio := by
  have hput := lay.put
  have lay' : Lay { s with
      list := s.list.set s.checkIndex (some i), useful := s.useful.set s.checkIndex (sc i)
      maxStrong := min s.maxStrong s.putOther } (front ++ [i]) gap others := by
    refine ⟨?_, ?_⟩
    · dsimp only
      rw [ci, lay.list, set_gap_start]
    · dsimp only; rw [hput]; simp; omega
  have useful' : ∀ k (h : k < (front ++ [i]).length),
      (s.useful.set s.checkIndex (sc i)).getD k 0 = sc (front ++ [i])[k] := by
    intro k h
    rw [ci]
    by_cases e : k = front.length
    · subst e
      rw [List.getD_eq_getElem?_getD, List.getElem?_set_self (by omega)]
      simp
    · have hk : k < front.length := by simp at h; omega
      rw [List.getD_eq_getElem?_getD, List.getElem?_set_ne (by omega), ← List.getD_eq_getElem?_getD,
        useful k hk, List.getElem_append_left hk]
  have maxS' : min s.maxStrong s.putOther = min cap s.putOther := by rw [maxS]; omega
  have hw := worst_spec (n := n) (cap := cap) (sc := sc) s.checkIndex lay' useful' maxS'
    (by simp; omega) (by simp) hsc
  refine ⟨stored i (sc i) s, store_eq (by omega), ?_, rfl⟩
  dsimp only at hw
  refine ⟨⟨lay'.list, lay'.put⟩, by simp; omega, by simpa [stored] using ulen, useful', maxS', ?_, by simp; omega,
    by simp, ?_, prO, ?_, by simp, ?_, ?_⟩
  · rw [List.append_assoc]
    refine (List.Perm.append_left front List.perm_append_comm).trans ?_
    rw [← List.append_assoc]
    exact perm.append_right [i]
  · intro o ho
    rcases List.mem_append.1 ho with h | h
    · exact prF o h
    · rw [List.mem_singleton.1 h]; exact hp
  · intro o ho h; exact Or.inl (best o ho h)
  · intro h1 _ h2
    have := hw.1 h1 h2
    exact ⟨congrArg Prod.fst this, congrArg Prod.snd this⟩
  · intro _ h2; exact hw.2 h2

theorem perm_set {l : List ℕ} {k i : ℕ} (h : k < l.length) :
    (l.set k i ++ [l[k]]).Perm (l ++ [i]) := by
  induction l generalizing k with
  | nil => simp at h
  | cons a l ih =>
    cases k with
    | zero =>
      simp only [List.set_cons_zero, List.getElem_cons_zero, List.cons_append]
      exact ((List.perm_append_comm.cons i).trans (List.Perm.swap a i l)).trans
        (List.perm_append_comm (l₁ := [i])|>.cons a)
    | succ k =>
      simp only [List.set_cons_succ, List.getElem_cons_succ, List.cons_append]
      exact (ih (by simpa using h)).cons a

theorem store_replace {n cap : ℕ} {sc : ℕ → ℚ} {pr : ℕ → ℤ} {done : List ℕ} {s : SetSt}
    {front others : List ℕ} {gap i : ℕ} (h : SInv n cap sc pr done s front others (gap + 1))
    (ne : front ≠ []) (full : front.length = cap) (hp : pr i = s.bestPrio) (hv : s.check < sc i)
    (hsc : ∀ f, f ∈ front ∨ f = i → sc f < dblMax) :
    ∃ s' front' others', (evict s).bind (store i (sc i)) = .ok s' ∧
      SInv n cap sc pr (done ++ [i]) s' front' others' gap ∧ s'.bestPrio = s.bestPrio := by
  obtain ⟨hci, hchk, hmin⟩ := h.chk2 ne full
  obtain ⟨s1, e1, lay1, u1, m1, c1, i1, b1⟩ := putAtEnd_lay h.lay front[s.checkIndex]
  have hput := lay1.put
  have lay' : Lay { s1 with
      list := s1.list.set s1.checkIndex (some i), useful := s1.useful.set s1.checkIndex (sc i)
      maxStrong := min s1.maxStrong s1.putOther } (front.set s.checkIndex i) gap
      (front[s.checkIndex] :: others) := by
    refine ⟨?_, by dsimp only; rw [hput]; simp⟩
    dsimp only
    rw [i1, lay1.list, List.set_append_left _ _ (by simpa using hci), ← List.map_set]
  have useful' : ∀ k (hk : k < (front.set s.checkIndex i).length),
      (s1.useful.set s1.checkIndex (sc i)).getD k 0 = sc (front.set s.checkIndex i)[k] := by
    intro k hk
    have hk' : k < front.length := by simpa using hk
    rw [i1, u1]
    by_cases e : k = s.checkIndex
    · subst e
      have : s.checkIndex < s.useful.length := by
        rw [h.ulen]; have := h.total; omega
      rw [List.getD_eq_getElem?_getD, List.getElem?_set_self this]
      simp
    · rw [List.getD_eq_getElem?_getD, List.getElem?_set_ne (fun e' => e e'.symm),
        ← List.getD_eq_getElem?_getD, h.useful k hk', List.getElem_set_ne (fun e' => e e'.symm)]
  have maxS' : min s1.maxStrong s1.putOther = min cap s1.putOther := by
    have := h.maxS; have := h.lay.put; rw [m1]; omega
  have memSet : ∀ f ∈ front.set s.checkIndex i, f ∈ front ∨ f = i := fun f hf =>
    List.mem_or_eq_of_mem_set hf
  have hw := worst_spec (n := n) (cap := cap) (sc := sc) s1.checkIndex lay' useful' maxS'
    (by simp; omega) (by rw [← List.length_pos_iff]; simp; exact List.length_pos_iff.2 ne)
    (fun f hf => hsc f (memSet f hf))
  have hb : (evict s).bind (store i (sc i)) = store i (sc i) s1 := by
    unfold evict
    rw [h.lay.get_front hci]
    dsimp only
    rw [e1]
    rfl
  refine ⟨stored i (sc i) s1, front.set s.checkIndex i, front[s.checkIndex] :: others, by
    rw [hb]
    exact store_eq (by rw [i1, hput]; omega), ?_, b1⟩
  dsimp only at hw
  have b1 : (stored i (sc i) s1).bestPrio = s.bestPrio := b1
  have tot := h.total
  refine ⟨⟨lay'.list, lay'.put⟩, by simp; omega, by simpa [u1, stored] using h.ulen, useful', maxS', ?_,
    by simp; omega, by simp [ne], ?_, ?_, ?_, by simp [ne], ?_, ?_⟩
  · have p1 := (perm_set (i := i) hci).append_right others
    have p2 : (front ++ [i] ++ others).Perm (done ++ [i]) := by
      rw [List.append_assoc]
      refine (List.Perm.append_left front List.perm_append_comm).trans ?_
      rw [← List.append_assoc]
      exact h.perm.append_right [i]
    simpa using p1.trans p2
  · intro o ho
    rw [b1]
    rcases memSet o ho with h' | rfl
    · exact h.prF o h'
    · exact hp
  · intro o ho
    rw [b1]
    rcases List.mem_cons.1 ho with rfl | h'
    · exact (h.prF _ (List.getElem_mem _)).ge
    · exact h.prO o h'
  · intro o ho hpo
    rw [b1] at hpo
    rcases List.mem_cons.1 ho with rfl | h'
    · refine Or.inr ⟨by simpa using full, fun f hf => ?_⟩
      rcases memSet f hf with h'' | rfl
      · rw [← hchk]; exact hmin f h''
      · rw [← hchk]; exact hv.le
    · rcases h.best o h' hpo with h0 | ⟨-, h1⟩
      · exact Or.inl h0
      · refine Or.inr ⟨by simpa using full, fun f hf => ?_⟩
        rcases memSet f hf with h'' | rfl
        · exact h1 f h''
        · have := h1 front[s.checkIndex] (List.getElem_mem _)
          rw [← hchk] at this
          linarith
  · intro _ _ h2; simp at h2; omega
  · intro _ h2; exact hw.2 h2

/-- An object that goes to the end. -/
theorem toEnd_inv {n cap : ℕ} {sc : ℕ → ℚ} {pr : ℕ → ℤ} {done : List ℕ} {s : SetSt}
    {front others : List ℕ} {gap i : ℕ} (h : SInv n cap sc pr done s front others (gap + 1))
    (ne : front ≠ []) (hp : s.bestPrio ≤ pr i)
    (hb : pr i = s.bestPrio → sc i ≤ 0 ∨ (front.length = cap ∧ ∀ f ∈ front, sc i ≤ sc f)) :
    ∃ s', (putAtEnd i s).bind (fun s => .ok s.shrink) = .ok s' ∧
      SInv n cap sc pr (done ++ [i]) s' front (i :: others) gap ∧ s'.bestPrio = s.bestPrio := by
  obtain ⟨s1, e1, lay1, u1, m1, c1, i1, b1⟩ := putAtEnd_lay h.lay i
  have hput := lay1.put
  have tot := h.total
  refine ⟨s1.shrink, by rw [e1]; rfl, ?_, b1⟩
  refine ⟨⟨lay1.list, lay1.put⟩, by simp; omega, by simpa [SetSt.shrink, u1] using h.ulen, ?_, ?_, ?_,
    h.small, fun _ => ne, ?_, ?_, ?_, fun e => absurd e ne, ?_, ?_⟩
  · intro k hk
    simp only [SetSt.shrink, u1]
    exact h.useful k hk
  · have := h.maxS; have := h.lay.put
    simp only [SetSt.shrink, m1]; omega
  · have : (front ++ i :: others).Perm (front ++ others ++ [i]) := by
      rw [List.append_assoc]
      exact List.Perm.append_left front (List.perm_append_comm (l₁ := [i]))
    exact this.trans (h.perm.append_right [i])
  · intro o ho; simp only [SetSt.shrink, b1]; exact h.prF o ho
  · intro o ho
    simp only [SetSt.shrink, b1]
    rcases List.mem_cons.1 ho with rfl | h'
    · exact hp
    · exact h.prO o h'
  · intro o ho hpo
    simp only [SetSt.shrink, b1] at hpo
    rcases List.mem_cons.1 ho with rfl | h'
    · exact hb hpo
    · exact h.best o h' hpo
  · intro _ _ h2
    simp only [SetSt.shrink, c1, i1]
    exact h.chk1 (by omega) ne h2
  · intro _ h2
    simp only [SetSt.shrink, c1, i1]
    exact h.chk2 ne h2

/-- One unsatisfied object. -/
theorem place_inv {n cap : ℕ} {sc : ℕ → ℚ} {pr : ℕ → ℤ} {done : List ℕ} {s : SetSt}
    {front others : List ℕ} {gap i : ℕ} (h : SInv n cap sc pr done s front others (gap + 1))
    (hcap : 0 < cap) (hsc : ∀ f, ProperScore (sc f)) (hpr : done = [] → pr i ≤ s.bestPrio) :
    ∃ s' front' others', place i (pr i) (sc i) s = .ok s' ∧
      SInv n cap sc pr (done ++ [i]) s' front' others' gap := by
  have tot := h.total
  have hput := h.lay.put
  unfold place
  by_cases hlt : pr i < s.bestPrio
  · rw [if_pos hlt]
    obtain ⟨s1, e1, lay1, u1, m1, c1, i1, b1⟩ := flush_lay h.lay (pr i)
      (by have := h.maxS; have := h.small; omega) (by have := h.maxS; omega)
    have hput1 := lay1.put
    have hmax : s1.maxStrong = min cap s1.putOther := by
      have := h.maxS; simp at hput1; omega
    rw [e1]
    simp only [Res.bind]
    rw [if_pos b1.symm]
    unfold offer
    rw [if_pos (by rw [c1]; exact (hsc i).1)]
    have hev : evict s1 = .ok s1 := by
      unfold evict
      rw [i1, lay1.get_gap (by simp) (by simp)]
    rw [hev]
    obtain ⟨s', e', inv', -⟩ := store_new (n := n) (cap := cap) (sc := sc) (pr := pr) (done := done) (i := i)
      lay1 (by simp; omega) (by rw [u1]; exact h.ulen) (by simp) hmax (by simpa using h.perm)
      (by simpa using hcap) (by simp)
      (by
        intro o ho
        rw [b1]
        rcases List.mem_append.1 ho with h' | h'
        · rw [h.prF o h']; exact hlt.le
        · exact hlt.le.trans (h.prO o h'))
      (by
        intro o ho hpo
        rw [b1] at hpo
        exfalso
        rcases List.mem_append.1 ho with h' | h'
        · rw [h.prF o h'] at hpo; omega
        · have := h.prO o h'; omega)
      (by simpa using i1) b1.symm (fun f _ => (hsc f).2)
    exact ⟨s', _, _, e', inv'⟩
  · rw [if_neg hlt]
    simp only [Res.bind]
    by_cases heq : pr i = s.bestPrio
    · rw [if_pos heq]
      unfold offer
      by_cases hv : sc i > s.check
      · rw [if_pos hv]
        by_cases hfull : front.length = cap
        · have ne : front ≠ [] := by rintro rfl; simp at hfull; omega
          obtain ⟨s', f', o', e', inv', -⟩ := store_replace h ne hfull heq hv (fun f _ => (hsc f).2)
          exact ⟨s', f', o', e', inv'⟩
        · have hsm : front.length < cap := lt_of_le_of_ne h.small hfull
          have hci : s.checkIndex = front.length := by
            by_cases ne : front = []
            · rw [(h.chk0 ne).2, ne]; rfl
            · exact (h.chk1 (by omega) ne hsm).2
          have hev : evict s = .ok s := by
            unfold evict
            rw [hci, h.lay.get_gap (le_refl _) (by omega)]
          rw [hev]
          obtain ⟨s', e', inv', -⟩ := store_new (i := i) h.lay tot h.ulen h.useful h.maxS h.perm hsm h.prF
            h.prO (by
              intro o ho hpo
              rcases h.best o ho hpo with h0 | ⟨h1, -⟩
              · exact h0
              · omega) hci heq (fun f _ => (hsc f).2)
          exact ⟨s', _, _, e', inv'⟩
      · rw [if_neg hv]
        have ne : front ≠ [] := by
          intro e
          rw [(h.chk0 e).1] at hv
          exact hv (hsc i).1
        obtain ⟨s', e', inv', -⟩ := toEnd_inv h ne heq.ge (by
          intro _
          by_cases hfull : front.length = cap
          · obtain ⟨-, -, hm⟩ := h.chk2 ne hfull
            exact Or.inr ⟨hfull, fun f hf => (not_lt.1 hv).trans (hm f hf)⟩
          · left
            have := (h.chk1 (by omega) ne (lt_of_le_of_ne h.small hfull)).1
            rw [this] at hv
            exact not_lt.1 hv)
        exact ⟨s', _, _, e', inv'⟩
    · rw [if_neg heq]
      have ne : front ≠ [] := by
        apply h.some
        rintro rfl
        have := hpr rfl
        omega
      obtain ⟨s', e', inv', -⟩ := toEnd_inv h ne (not_lt.1 hlt) (fun e => absurd e heq)
      exact ⟨s', _, _, e', inv'⟩

/-! ## The loop -/

/-- Value of object number `i`. -/
def scoreAt (score : SObj → ℚ) (objs : List SObj) (i : ℕ) : ℚ := (objs[i]?.map score).getD 0

/-- Priority of object number `i`. -/
def prioAt (objs : List SObj) (i : ℕ) : ℤ := (objs[i]?.map (·.prio)).getD 0

/-- Is object number `i` unsatisfied? -/
def unsatAt (objs : List SObj) (i : ℕ) : Bool := (objs[i]?.map fun o => decide (0 < o.infeas)).getD false

/-- The numbers of the unsatisfied objects among the first `k`. -/
def unsatUpTo (objs : List SObj) (k : ℕ) : List ℕ := (List.range k).filter (unsatAt objs)

/-- The numbers of the unsatisfied objects, in increasing order. -/
def unsatIdx (objs : List SObj) : List ℕ := unsatUpTo objs objs.length

theorem unsatUpTo_succ (objs : List SObj) (k : ℕ) :
    unsatUpTo objs (k + 1) = unsatUpTo objs k ++ if unsatAt objs k then [k] else [] := by
  unfold unsatUpTo
  rw [List.range_succ, List.filter_append]
  congr 1
  by_cases h : unsatAt objs k <;> simp [h]

theorem unsatUpTo_length (objs : List SObj) (k : ℕ) : (unsatUpTo objs k).length ≤ k := by
  unfold unsatUpTo
  exact (List.length_filter_le _ _).trans (by simp)

/-- The loop from object `i` on. -/
theorem setupLoop_inv {score : SObj → ℚ} {objs : List SObj} {cap : ℕ} (hcap : 0 < cap)
    (hsc : ∀ o ∈ objs, ProperScore (score o)) (hpr : ∀ o ∈ objs, o.prio ≤ 2 ^ 31 - 1) :
    ∀ (os : List SObj) (i : ℕ) (s : SetSt) (front others : List ℕ) (gap : ℕ), objs.drop i = os →
      i + os.length = objs.length →
      SInv objs.length cap (scoreAt score objs) (prioAt objs) (unsatUpTo objs i) s front others gap →
      (unsatUpTo objs i = [] → s.bestPrio = 2 ^ 31 - 1) →
      (∃ o ∈ os, 0 < o.infeas ∧ o.infeas = dblMax) ∧
        setupLoop score i os (unsatUpTo objs i).length s = .ok none ∨
      (∀ o ∈ os, 0 < o.infeas → o.infeas ≠ dblMax) ∧
      ∃ s' front' others' gap', setupLoop score i os (unsatUpTo objs i).length s
          = .ok (some (s', (unsatIdx objs).length)) ∧
        SInv objs.length cap (scoreAt score objs) (prioAt objs) (unsatIdx objs) s' front' others' gap'
  | [], i, s, front, others, gap, hd, hl, h, _ => by
    right
    have : i = objs.length := by simpa using hl
    subst this
    exact ⟨by simp, s, front, others, gap, rfl, h⟩
  | o :: os, i, s, front, others, gap, hd, hl, h, hb => by
    have hi : i < objs.length := by simp at hl; omega
    have ho : objs[i]? = some o := by
      have := congrArg (fun l => l[0]?) hd
      simpa using this
    have hmem : o ∈ objs := List.mem_of_getElem? ho
    have hd' : objs.drop (i + 1) = os := by
      rw [← List.tail_drop, hd]; rfl
    have hl' : i + 1 + os.length = objs.length := by simp at hl; omega
    have hu : unsatAt objs i = decide (0 < o.infeas) := by simp [unsatAt, ho]
    have hs0 : ∀ f, ProperScore (scoreAt score objs f) := by
      intro f
      unfold scoreAt
      cases e : objs[f]? with
      | none =>
        have : (0 : ℚ) < dblMax := by unfold dblMax; exact dblMax_pos'
        exact ⟨by simpa using this, by simpa using this⟩
      | some o' => exact hsc o' (List.mem_of_getElem? e)
    unfold setupLoop
    by_cases hpos : o.infeas > 0
    · rw [if_pos hpos]
      by_cases hinf : o.infeas = dblMax
      · rw [if_pos hinf]
        exact Or.inl ⟨⟨o, by simp, hpos, hinf⟩, rfl⟩
      · rw [if_neg hinf]
        have hS : unsatUpTo objs (i + 1) = unsatUpTo objs i ++ [i] := by
          rw [unsatUpTo_succ, hu, decide_eq_true hpos]; rfl
        have hlen : front.length + others.length = (unsatUpTo objs i).length := by
          rw [← h.perm.length_eq, List.length_append]
        have hgap : 0 < gap := by
          have := h.total; have := unsatUpTo_length objs i; omega
        obtain ⟨g', rfl⟩ : ∃ g', gap = g' + 1 := ⟨gap - 1, by omega⟩
        have e1 : o.prio = prioAt objs i := by simp [prioAt, ho]
        have e2 : score o = scoreAt score objs i := by simp [scoreAt, ho]
        obtain ⟨s', f', o', e', inv'⟩ := place_inv (i := i) h hcap hs0 (by
          intro e
          rw [hb e, ← e1]
          exact hpr o hmem)
        rw [e1, e2, e']
        simp only [Res.bind]
        have := setupLoop_inv hcap hsc hpr os (i + 1) s' f' o' g' hd' hl' (by rw [hS]; exact inv')
          (by rw [hS]; simp)
        rw [hS, List.length_append, List.length_singleton] at this
        rcases this with ⟨⟨q, hq, hq2⟩, h2⟩ | ⟨hq, h2⟩
        · exact Or.inl ⟨⟨q, by simp [hq], hq2⟩, h2⟩
        · refine Or.inr ⟨fun q hq' => ?_, h2⟩
          rcases List.mem_cons.1 hq' with rfl | hq'
          · exact fun _ => hinf
          · exact hq q hq'
    · rw [if_neg hpos]
      have hS : unsatUpTo objs (i + 1) = unsatUpTo objs i := by
        rw [unsatUpTo_succ, hu, decide_eq_false hpos]; simp
      have := setupLoop_inv hcap hsc hpr os (i + 1) s front others gap hd' hl' (by rw [hS]; exact h)
        (by rw [hS]; exact hb)
      rw [hS] at this
      rcases this with ⟨⟨q, hq, hq2⟩, h2⟩ | ⟨hq, h2⟩
      · exact Or.inl ⟨⟨q, by simp [hq], hq2⟩, h2⟩
      · refine Or.inr ⟨fun q hq' => ?_, h2⟩
        rcases List.mem_cons.1 hq' with rfl | hq'
        · exact fun h' => absurd h' hpos
        · exact hq q hq'

theorem setupInit_inv (objs : List SObj) (sc : ℕ → ℚ) (ns : ℕ) :
    SInv objs.length (min ns objs.length) sc (prioAt objs) (unsatUpTo objs 0) (setupInit objs.length ns) []
      [] objs.length := by
  refine ⟨⟨by simp [setupInit], by simp [setupInit]⟩, by simp, by simp [setupInit], by simp,
    by simp [setupInit], by simp [unsatUpTo], by simp, by simp [unsatUpTo], by simp, by simp, by simp,
    fun _ => ⟨rfl, rfl⟩, by simp, by simp⟩

/-! ## The end -/

/-- What is assumed of `CoinSort_2`: it permutes and sorts by the first component. -/
def SortsByFirst (srt : List (ℚ × ℕ) → List (ℚ × ℕ)) : Prop :=
  ∀ l, (srt l).Perm l ∧ (srt l).Pairwise fun a b => a.1 ≤ b.1

theorem moveOthers_spec : ∀ (B A G : List (Option ℕ)),
    (moveOthers B.length A.length (A.length + G.length) (A ++ (G ++ B))).take (A.length + B.length) = A ++ B
  | [], A, G => by simp [moveOthers]
  | b :: B, A, G => by
    have hget : (A ++ (G ++ b :: B)).getD (A.length + G.length) none = b := by
      rw [List.getD_eq_getElem?_getD, List.getElem?_append_right (by omega),
        List.getElem?_append_right (by omega)]
      simp
    rw [List.length_cons, moveOthers, hget]
    cases G with
    | nil =>
      have e : (A ++ ([] ++ b :: B)).set A.length b = (A ++ [b]) ++ ([] ++ B) := by
        rw [List.set_append_right _ _ (le_refl _)]; simp
      have := moveOthers_spec B (A ++ [b]) []
      rw [e]
      simp only [List.length_append, List.length_singleton, List.length_nil, Nat.add_zero] at this ⊢
      rw [show A.length + (B.length + 1) = A.length + 1 + B.length by omega, this]
      simp
    | cons g G =>
      have e : (A ++ (g :: G ++ b :: B)).set A.length b = (A ++ [b]) ++ ((G ++ [b]) ++ B) := by
        rw [List.set_append_right _ _ (le_refl _)]; simp
      have := moveOthers_spec B (A ++ [b]) (G ++ [b])
      rw [e]
      simp only [List.length_append, List.length_cons, List.length_nil, Nat.zero_add] at this ⊢
      rw [show A.length + (B.length + 1) = A.length + 1 + B.length by omega,
        show A.length + (G.length + 1) + 1 = A.length + 1 + (G.length + 1) by omega, this]
      simp

theorem onListOf_eq {s : SetSt} {sc : ℕ → ℚ} {front others : List ℕ} {gap m : ℕ} (lay : Lay s front gap others)
    (useful : ∀ k (h : k < front.length), s.useful.getD k 0 = sc front[k])
    (h1 : front.length ≤ m) (h2 : m ≤ front.length + gap) :
    onListOf s m = front.map fun o => (-(sc o), o) := by
  obtain ⟨k, rfl⟩ : ∃ k, m = front.length + k := ⟨m - front.length, by omega⟩
  have e1 : onListOf s (front.length + k) = onListOf s front.length := by
    clear h1
    induction k with
    | zero => rfl
    | succ k ih =>
      rw [← ih (by omega)]
      unfold onListOf
      rw [← Nat.add_assoc, List.range_succ, List.filterMap_append]
      have : s.list.getD (front.length + k) none = none := by
        rw [List.getD_eq_getElem?_getD, lay.get_gap (by omega) (by omega)]; rfl
      simp only [List.filterMap_cons, this, Option.map_none, List.filterMap_nil, List.append_nil]
  rw [e1]
  apply List.ext_getElem?
  intro j
  have e2 : ∀ c, c ≤ front.length →
      onListOf s c = (front.take c).map fun o => (-(sc o), o) := by
    intro c
    induction c with
    | zero => intro _; rfl
    | succ c ih =>
      intro hc
      have hc' : c < front.length := by omega
      have := ih (by omega)
      unfold onListOf at this ⊢
      rw [List.range_succ, List.filterMap_append, this, List.take_add_one, List.map_append]
      congr 1
      have hg : s.list.getD c none = some front[c] := by
        rw [List.getD_eq_getElem?_getD, lay.get_front hc']; rfl
      simp only [List.filterMap_cons, hg, Option.map_some, List.filterMap_nil, useful c hc',
        List.getElem?_eq_getElem hc', Option.toList_some, List.map_cons, List.map_nil]
  rw [e2 _ (le_refl _), List.take_length]

theorem setupEnd_spec {srt : List (ℚ × ℕ) → List (ℚ × ℕ)} (hs : SortsByFirst srt) {n ns : ℕ} {sc : ℕ → ℚ}
    {pr : ℕ → ℤ} {done : List ℕ} {s : SetSt} {front others : List ℕ} {gap : ℕ} (hns : 0 < ns)
    (h : SInv n (min ns n) sc pr done s front others gap) :
    ∃ out fs, setupEnd srt n ns done.length s = .ok out ∧ out.ret = done.length ∧
      out.onList = front.length ∧ out.list.take done.length = (fs ++ others).map some ∧ fs.Perm front ∧
      fs.Pairwise (fun a b => sc b ≤ sc a) := by
  have hput := h.lay.put
  have tot := h.total
  have hlen : front.length + others.length = done.length := by
    rw [← h.perm.length_eq, List.length_append]
  have hc := onListOf_eq (m := min s.maxStrong s.putOther) h.lay h.useful
    (by have := h.maxS; have := h.small; omega) (by omega)
  by_cases ne : front = []
  · have hd : done = [] := by
      by_contra hd
      exact h.some hd ne
    refine ⟨⟨s.list, 0, (done.length : ℕ)⟩, [], ?_, rfl, by simp [ne], ?_, by simp [ne], by simp⟩
    · unfold setupEnd
      rw [hc, ne]
      rfl
    · have : others = [] := by
        rw [hd, ne] at hlen
        exact List.length_eq_zero_iff.1 (by simpa using hlen)
      simp [hd, this]
  · obtain ⟨p1, p2⟩ := hs (front.map fun o => (-(sc o), o))
    have hne : (front.map fun o => (-(sc o), o)) ≠ [] := by simpa using ne
    set S := srt (front.map fun o => (-(sc o), o)) with hS
    have hfs : (S.map (·.2)).Perm front := by
      have := p1.map (·.2)
      simpa [Function.comp_def] using this
    have hval : ∀ q ∈ S, q.1 = -(sc q.2) := by
      intro q hq
      have := p1.mem_iff.1 hq
      obtain ⟨o, -, rfl⟩ := List.mem_map.1 this
      rfl
    have hdrop : s.list.drop (S.map (·.2)).length = List.replicate gap none ++ others.map some := by
      rw [hfs.length_eq, h.lay.list, List.drop_append_of_le_length (by simp)]
      simp
    have hothers : n - s.putOther = (others.map some : List (Option ℕ)).length := by simp; omega
    refine ⟨⟨moveOthers (n - s.putOther) front.length s.putOther (writeFront s.list (S.map (·.2))),
      front.length, (done.length : ℕ)⟩, S.map (·.2), ?_, rfl, rfl, ?_, hfs, ?_⟩
    · unfold setupEnd
      rw [hc]
      dsimp only
      rw [if_neg hne, List.length_map, if_pos (by omega), if_neg (by omega), ← hS]
    · dsimp only
      unfold writeFront
      rw [hdrop, hothers]
      have := moveOthers_spec (others.map some) ((S.map (·.2)).map some) (List.replicate gap none)
      have hl1 : ((S.map (·.2)).map some : List (Option ℕ)).length = front.length := by
        rw [List.length_map, hfs.length_eq]
      rw [hl1, List.length_replicate, List.length_map (as := others), hlen] at this
      rw [hput, List.length_map (as := others), this, List.map_append]
    · rw [List.pairwise_map]
      refine p2.imp_of_mem ?_
      intro a b ha hb hab
      rw [hval a ha, hval b hb] at hab
      linarith

/-! ## C108 -/

/-- **C108.** Whatever the objects, their priorities, pseudo-costs and the order in which ties are
sorted: building the list of candidates never fails, returns the number of unsatisfied objects, and the
list holds each of them exactly once. At least one (if there is any) and at most the requested number are
candidates; these come first, have the best priority of all, and are sorted by their value. An object of the
same priority that is not a candidate has a value that is not positive, or the list is full and it
is not better than any candidate. -/
theorem candidate_list {srt : List (ℚ × ℕ) → List (ℚ × ℕ)} (hs : SortsByFirst srt) (score : SObj → ℚ)
    (ns : ℕ) (hns : 0 < ns) (objs : List SObj) (hinf : ∀ o ∈ objs, o.infeas ≠ dblMax)
    (hpr : ∀ o ∈ objs, o.prio ≤ 2 ^ 31 - 1) (hsc : ∀ o ∈ objs, ProperScore (score o)) :
    ∃ out cands others, setupListWith srt score ns objs = .ok out ∧
      out.ret = (unsatIdx objs).length ∧ out.onList = cands.length ∧
      out.list.take (unsatIdx objs).length = (cands ++ others).map some ∧
      (cands ++ others).Perm (unsatIdx objs) ∧ cands.length ≤ ns ∧ (unsatIdx objs ≠ [] → cands ≠ []) ∧
      (∀ a ∈ cands, ∀ b ∈ cands ++ others, prioAt objs a ≤ prioAt objs b) ∧
      cands.Pairwise (fun a b => scoreAt score objs b ≤ scoreAt score objs a) ∧
      (∀ a ∈ cands, ∀ b ∈ others, prioAt objs b = prioAt objs a → scoreAt score objs b ≤ 0 ∨
        (cands.length = ns ∧ scoreAt score objs b ≤ scoreAt score objs a)) := by
  by_cases h0 : objs = []
  · subst h0
    exact ⟨⟨[], 0, 0⟩, [], [], by simp [setupListWith, setupLoop, Res.bind, setupEnd, onListOf, setupInit],
      rfl, rfl, by simp, by simp [unsatIdx, unsatUpTo], by simp,
      by simp [unsatIdx, unsatUpTo], by simp, by simp, by simp⟩
  · have hn : 0 < objs.length := List.length_pos_iff.2 h0
    have hcap : 0 < min ns objs.length := by omega
    have hloop := setupLoop_inv hcap hsc hpr objs 0 (setupInit objs.length ns) [] [] objs.length rfl (by simp)
      (setupInit_inv objs _ ns) (fun _ => rfl)
    rcases hloop with ⟨⟨o, ho, -, h1⟩, -⟩ | ⟨-, s', front, others, gap, e, inv⟩
    · exact absurd h1 (hinf o ho)
    · obtain ⟨out, fs, e2, r1, r2, r3, r4, r5⟩ := setupEnd_spec hs hns inv
      have hperm : (fs ++ others).Perm (unsatIdx objs) := (r4.append_right others).trans inv.perm
      have hsm := inv.small
      refine ⟨out, fs, others, ?_, r1, by rw [r2, r4.length_eq], r3, hperm, by rw [r4.length_eq]; omega,
        ?_, ?_, r5, ?_⟩
      · unfold setupListWith
        have e' : setupLoop score 0 objs 0 (setupInit objs.length ns)
            = .ok (some (s', (unsatIdx objs).length)) := by simpa [unsatUpTo] using e
        rw [e']
        exact e2
      · intro hu hf
        apply inv.some hu
        rw [hf] at r4
        exact List.nil_perm.1 r4
      · intro a ha b hb
        rw [inv.prF a (r4.mem_iff.1 ha)]
        rcases List.mem_append.1 hb with hb | hb
        · exact (inv.prF b (r4.mem_iff.1 hb)).ge
        · exact inv.prO b hb
      · intro a ha b hb hp
        rw [inv.prF a (r4.mem_iff.1 ha)] at hp
        rcases inv.best b hb hp with h1 | ⟨h1, h2⟩
        · exact Or.inl h1
        · refine Or.inr ⟨?_, h2 a (r4.mem_iff.1 ha)⟩
          rw [r4.length_eq, h1]
          have := inv.total
          have : 0 < others.length := List.length_pos_of_mem hb
          omega

/-- **C108.** If an object is infeasible the answer is −1 and there are no candidates. -/
theorem candidate_list_infeasible {srt : List (ℚ × ℕ) → List (ℚ × ℕ)} (score : SObj → ℚ)
    (ns : ℕ) (hns : 0 < ns) (objs : List SObj) (hinf : ∃ o ∈ objs, o.infeas = dblMax)
    (hpr : ∀ o ∈ objs, o.prio ≤ 2 ^ 31 - 1) (hsc : ∀ o ∈ objs, ProperScore (score o)) :
    ∃ out, setupListWith srt score ns objs = .ok out ∧ out.ret = -1 ∧ out.onList = 0 := by
  obtain ⟨o, ho, h1⟩ := hinf
  have hn : 0 < objs.length := List.length_pos_of_mem ho
  have hcap : 0 < min ns objs.length := by omega
  have hpos : (0 : ℚ) < dblMax := by unfold dblMax; exact dblMax_pos'
  have hloop := setupLoop_inv hcap hsc hpr objs 0 (setupInit objs.length ns) [] [] objs.length rfl (by simp)
    (setupInit_inv objs _ ns) (fun _ => rfl)
  rcases hloop with ⟨-, e⟩ | ⟨h2, -⟩
  · refine ⟨⟨[], 0, -1⟩, ?_, rfl, rfl⟩
    unfold setupListWith
    have e' : setupLoop score 0 objs 0 (setupInit objs.length ns) = .ok none := by
      simpa [unsatUpTo] using e
    rw [e']
    rfl
  · exact absurd h1 (h2 o ho (by rw [h1]; exact hpos))

/-! ## C108, methods that reverse the order -/

/-- The loop when the list has room but all values are nonpositive: everything goes to the end. -/
theorem setupLoop_nonpos {score : SObj → ℚ} {objs : List SObj} {ns : ℕ} (hns : 2 ≤ ns) {p : ℤ}
    (hsc : ∀ o ∈ objs, score o ≤ 0) (hpr : ∀ o ∈ objs, o.prio = p)
    (hinf : ∀ o ∈ objs, o.infeas ≠ dblMax) :
    ∀ (os : List SObj) (i : ℕ) (s : SetSt) (a : ℕ) (others : List ℕ) (gap : ℕ), objs.drop i = os →
      i + os.length = objs.length →
      SInv objs.length (min ns objs.length) (scoreAt score objs) (prioAt objs) (unsatUpTo objs i) s [a]
        others gap → s.bestPrio = p → unsatUpTo objs i = a :: others.reverse →
      ∃ s' others' gap', setupLoop score i os (unsatUpTo objs i).length s
          = .ok (some (s', (unsatIdx objs).length)) ∧
        SInv objs.length (min ns objs.length) (scoreAt score objs) (prioAt objs) (unsatIdx objs) s' [a]
          others' gap' ∧ unsatIdx objs = a :: others'.reverse
  | [], i, s, a, others, gap, hd, hl, h, _, hu => by
    have : i = objs.length := by simpa using hl
    subst this
    exact ⟨s, others, gap, rfl, h, hu⟩
  | o :: os, i, s, a, others, gap, hd, hl, h, hb, hun => by
    have hi : i < objs.length := by simp at hl; omega
    have ho : objs[i]? = some o := by
      have := congrArg (fun l => l[0]?) hd
      simpa using this
    have hmem : o ∈ objs := List.mem_of_getElem? ho
    have hd' : objs.drop (i + 1) = os := by
      rw [← List.tail_drop, hd]; rfl
    have hl' : i + 1 + os.length = objs.length := by simp at hl; omega
    have hu : unsatAt objs i = decide (0 < o.infeas) := by simp [unsatAt, ho]
    have e1 : o.prio = prioAt objs i := by simp [prioAt, ho]
    have e2 : score o = scoreAt score objs i := by simp [scoreAt, ho]
    unfold setupLoop
    by_cases hpos : o.infeas > 0
    · rw [if_pos hpos, if_neg (hinf o hmem)]
      have hS : unsatUpTo objs (i + 1) = unsatUpTo objs i ++ [i] := by
        rw [unsatUpTo_succ, hu, decide_eq_true hpos]; rfl
      have hlen : 1 + others.length = (unsatUpTo objs i).length := by
        rw [← h.perm.length_eq, List.length_append]; rfl
      have hgap : 0 < gap := by
        have h1 := h.total; have h2 := unsatUpTo_length objs i; simp only [List.length_singleton] at h1; omega
      obtain ⟨g', rfl⟩ : ∃ g', gap = g' + 1 := ⟨gap - 1, by omega⟩
      have hle := unsatUpTo_length objs i
      have hchk := (h.chk1 (by omega) (by simp) (by simp; omega)).1
      obtain ⟨s', e', inv', b'⟩ := toEnd_inv (i := i) h (by simp)
        (by rw [hb, ← e1]; exact (hpr o hmem).ge) (fun _ => Or.inl (by rw [← e2]; exact hsc o hmem))
      have hplace : place i o.prio (score o) s = .ok s' := by
        unfold place
        rw [if_neg (by rw [hb, hpr o hmem]; exact lt_irrefl _)]
        simp only [Res.bind]
        rw [if_pos (by rw [hb, hpr o hmem])]
        unfold offer
        rw [if_neg (by rw [hchk]; exact not_lt.2 (hsc o hmem))]
        exact e'
      rw [hplace]
      simp only [Res.bind]
      have := setupLoop_nonpos hns hsc hpr hinf os (i + 1) s' a (i :: others) g' hd' hl'
        (by rw [hS]; exact inv') (by rw [b', hb]) (by rw [hS, hun]; simp)
      rw [hS, List.length_append, List.length_singleton] at this
      exact this
    · rw [if_neg hpos]
      have hS : unsatUpTo objs (i + 1) = unsatUpTo objs i := by
        rw [unsatUpTo_succ, hu, decide_eq_false hpos]; simp
      have := setupLoop_nonpos hns hsc hpr hinf os (i + 1) s a others gap hd' hl'
        (by rw [hS]; exact h) hb (by rw [hS]; exact hun)
      rw [hS] at this
      exact this

/-- The objects before the first unsatisfied one are skipped. -/
theorem setupLoop_first {score : SObj → ℚ} {objs : List SObj} {ns : ℕ} (hns : 2 ≤ ns) {p : ℤ}
    (hsc : ∀ o ∈ objs, score o ≤ 0) (hsc2 : ∀ o ∈ objs, -dblMax < score o) (hpr : ∀ o ∈ objs, o.prio = p)
    (hp : p ≤ 2 ^ 31 - 1) (hinf : ∀ o ∈ objs, o.infeas ≠ dblMax) (hne : unsatIdx objs ≠ []) :
    ∀ (os : List SObj) (i : ℕ), objs.drop i = os → i + os.length = objs.length → unsatUpTo objs i = [] →
      ∃ s' a others' gap', setupLoop score i os 0 (setupInit objs.length ns)
          = .ok (some (s', (unsatIdx objs).length)) ∧
        SInv objs.length (min ns objs.length) (scoreAt score objs) (prioAt objs) (unsatIdx objs) s' [a]
          others' gap' ∧ unsatIdx objs = a :: others'.reverse
  | [], i, hd, hl, hu => by
    have : i = objs.length := by simpa using hl
    subst this
    exact absurd hu hne
  | o :: os, i, hd, hl, hun => by
    have hi : i < objs.length := by simp at hl; omega
    have ho : objs[i]? = some o := by
      have := congrArg (fun l => l[0]?) hd
      simpa using this
    have hmem : o ∈ objs := List.mem_of_getElem? ho
    have hd' : objs.drop (i + 1) = os := by
      rw [← List.tail_drop, hd]; rfl
    have hl' : i + 1 + os.length = objs.length := by simp at hl; omega
    have hu : unsatAt objs i = decide (0 < o.infeas) := by simp [unsatAt, ho]
    have e1 : o.prio = prioAt objs i := by simp [prioAt, ho]
    have e2 : score o = scoreAt score objs i := by simp [scoreAt, ho]
    have hmax : (0 : ℚ) < dblMax := by unfold dblMax; exact dblMax_pos'
    have hs0 : ∀ f, ProperScore (scoreAt score objs f) := by
      intro f
      unfold scoreAt
      cases e : objs[f]? with
      | none => exact ⟨by simpa using hmax, by simpa using hmax⟩
      | some o' =>
        exact ⟨hsc2 o' (List.mem_of_getElem? e), lt_of_le_of_lt (hsc o' (List.mem_of_getElem? e)) hmax⟩
    unfold setupLoop
    by_cases hpos : o.infeas > 0
    · rw [if_pos hpos, if_neg (hinf o hmem)]
      have hS : unsatUpTo objs (i + 1) = [i] := by
        rw [unsatUpTo_succ, hu, decide_eq_true hpos, hun]; rfl
      have h0 := setupInit_inv objs (scoreAt score objs) ns
      have hu0 : unsatUpTo objs 0 = [] := rfl
      rw [hu0] at h0
      obtain ⟨g', hg⟩ : ∃ g', objs.length = g' + 1 := ⟨objs.length - 1, by omega⟩
      have h0' : SInv objs.length (min ns objs.length) (scoreAt score objs) (prioAt objs) []
          (setupInit objs.length ns) [] [] (g' + 1) := by rw [← hg]; exact h0
      obtain ⟨s', f', o', e', inv'⟩ := place_inv (i := i) h0' (by omega) hs0
        (fun _ => by rw [← e1, hpr o hmem]; exact hp)
      have hperm := inv'.perm
      have hf : f' = [i] ∧ o' = [] := by
        have hl2 := hperm.length_eq
        simp only [List.length_append, List.nil_append, List.length_singleton] at hl2
        have hf1 : f' ≠ [] := inv'.some (by simp)
        have := List.length_pos_iff.2 hf1
        have ho' : o' = [] := List.length_eq_zero_iff.1 (by omega)
        subst ho'
        rw [List.append_nil, List.nil_append] at hperm
        exact ⟨List.perm_singleton.1 hperm, rfl⟩
      obtain ⟨rfl, rfl⟩ := hf
      rw [e1, e2, e']
      simp only [Res.bind]
      have hbp : s'.bestPrio = p := by
        have := inv'.prF i (by simp)
        rw [← this, ← e1, hpr o hmem]
      have := setupLoop_nonpos hns hsc hpr hinf os (i + 1) s' i [] g' hd' hl'
        (by rw [hS]; exact inv') hbp (by rw [hS]; simp)
      rw [hS] at this
      obtain ⟨s2, o2, g2, a1, a2, a3⟩ := this
      exact ⟨s2, i, o2, g2, a1, a2, a3⟩
    · rw [if_neg hpos]
      have hS : unsatUpTo objs (i + 1) = [] := by
        rw [unsatUpTo_succ, hu, decide_eq_false hpos, hun]; simp
      exact setupLoop_first hns hsc hsc2 hpr hp hinf hne os (i + 1) hd' hl' hS

/-- **C108 (negation for values that are not positive).** If no value is positive and all objects have
the same priority, the values play no role: however many candidates are requested, exactly one object is
on the list, the first unsatisfied one, followed by the others from the last to the second. -/
theorem nonpositive_values_ignored {srt : List (ℚ × ℕ) → List (ℚ × ℕ)} (hs : SortsByFirst srt)
    (score : SObj → ℚ) (ns : ℕ) (hns : 2 ≤ ns) (objs : List SObj) (p : ℤ) (hp : p ≤ 2 ^ 31 - 1)
    (hinf : ∀ o ∈ objs, o.infeas ≠ dblMax) (hpr : ∀ o ∈ objs, o.prio = p)
    (hsc : ∀ o ∈ objs, score o ≤ 0) (hsc2 : ∀ o ∈ objs, -dblMax < score o) (a : ℕ) (rest : List ℕ)
    (hu : unsatIdx objs = a :: rest) :
    ∃ out, setupListWith srt score ns objs = .ok out ∧ out.onList = 1 ∧
      out.list.take (unsatIdx objs).length = (a :: rest.reverse).map some := by
  obtain ⟨s', a', others, gap, e, inv, hun⟩ := setupLoop_first hns hsc hsc2 hpr hp hinf (by simp [hu]) objs 0
    rfl (by simp) rfl
  obtain ⟨out, fs, e2, r1, r2, r3, r4, r5⟩ := setupEnd_spec hs (by omega : 0 < ns) inv
  rw [hu] at hun
  obtain ⟨h1, h2⟩ := List.cons.inj hun
  subst h1
  refine ⟨out, ?_, by simpa using r2, ?_⟩
  · unfold setupListWith
    rw [e]
    exact e2
  · have hfs : fs = [a] := List.perm_singleton.1 r4
    rw [r3, hfs, h2]
    simp

/-- The values of method 6 and of all negative methods are not positive when the estimates and changes are
not negative. -/
theorem reverse_methods_nonpos (m trusted : ℤ) (hm : m = 6 ∨ m < 0) (ht : 0 ≤ trusted) (objs : List SObj)
    (h : ∀ o ∈ objs, 0 ≤ o.downEst ∧ 0 ≤ o.upEst ∧ 0 ≤ o.downTotal ∧ 0 ≤ o.upTotal) :
    ∀ o ∈ objs, scoreOf m trusted objs o ≤ 0 := by
  intro o ho
  have hmul : ∀ (l : List ℚ) (k : List ℕ), (∀ x ∈ l, 0 ≤ x) → 0 ≤ multiplier l k := by
    intro l k hl
    unfold multiplier
    have := List.sum_nonneg hl
    positivity
  have hside : ∀ (e t : ℚ) (n : ℕ) (mu : ℚ), 0 ≤ e → 0 ≤ t → 0 ≤ mu →
      0 ≤ sideEstimate e t n mu trusted := by
    intro e t n mu he ht' hmu
    have htr : (0 : ℚ) ≤ trusted := by exact_mod_cast ht
    unfold sideEstimate
    dsimp only
    have : (0 : ℚ) ≤ if n ≠ 0 then e * (t + 1 / 10 ^ 30) / n else e * mu := by
      split <;> positivity
    split
    · positivity
    · exact this
  obtain ⟨h1, h2, h3, h4⟩ := h o ho
  have hd := hside o.downEst o.downTotal o.downNum
    (multiplier (objs.map (·.downTotal)) (objs.map (·.downNum))) h1 h3
    (hmul _ _ (by simpa using fun q hq => (h q hq).2.2.1))
  have hup := hside o.upEst o.upTotal o.upNum
    (multiplier (objs.map (·.upTotal)) (objs.map (·.upNum))) h2 h4
    (hmul _ _ (by simpa using fun q hq => (h q hq).2.2.2))
  unfold scoreOf
  generalize sideEstimate o.downEst _ _ _ _ = d at *
  generalize sideEstimate o.upEst _ _ _ _ = u at *
  unfold calcValue
  rcases hm with rfl | hm
  · simp
  · rw [if_neg (by omega)]
    dsimp only
    rw [if_pos hm, if_neg (by simp)]
    have hc : ∀ k : ℤ, (0 : ℚ) ≤ (if k = 2 ∨ k = 4 then 1 else if k = 5 then 0 else maxminCriterion) ∧
        (if k = 2 ∨ k = 4 then 1 else if k = 5 then 0 else maxminCriterion : ℚ) ≤ 1 := by
      intro k
      unfold maxminCriterion
      split
      · norm_num
      · split <;> norm_num
    obtain ⟨c1, c2⟩ := hc (if m < 0 then -1 * (m + 1) else m)
    generalize (if (if m < 0 then -1 * (m + 1) else m) = 2 ∨ (if m < 0 then -1 * (m + 1) else m) = 4 then 1
      else if (if m < 0 then -1 * (m + 1) else m) = 5 then 0 else maxminCriterion : ℚ) = c at *
    have a1 : 0 ≤ c * min u d := mul_nonneg c1 (le_min hup hd)
    have a2 : 0 ≤ (1 - c) * max u d := mul_nonneg (by linarith) (hup.trans (le_max_left _ _))
    linarith

/-- A way to sort as assumed. -/
def exSort (l : List (ℚ × ℕ)) : List (ℚ × ℕ) := l.mergeSort fun a b => decide (a.1 ≤ b.1)

theorem exSort_sorts : SortsByFirst exSort := by
  intro l
  refine ⟨List.mergeSort_perm _ _, ?_⟩
  have := List.pairwise_mergeSort (le := fun a b : ℚ × ℕ => decide (a.1 ≤ b.1))
    (fun a b c h1 h2 => by simp only [decide_eq_true_eq] at *; exact h1.trans h2)
    (fun a b => by simp only [Bool.or_eq_true, decide_eq_true_eq]; exact le_total _ _) l
  exact this.imp fun h => by simpa using h

/-- Four objects, one of them satisfied, with smaller changes 1, 3 and 2. -/
def exObjs : List SObj :=
  [⟨1 / 2, 10, 0, 1, 1, 0, 0, 0, 0⟩, ⟨1 / 2, 10, 1, 3, 3, 0, 0, 0, 0⟩, ⟨0, 10, 2, 9, 9, 0, 0, 0, 0⟩,
   ⟨1 / 4, 10, 3, 2, 2, 0, 0, 0, 0⟩]

/-- `candidate_list` applies, and gives the two best objects, best first. -/
example : unsatIdx exObjs = [0, 1, 3] ∧ (∀ o ∈ exObjs, o.infeas ≠ dblMax) ∧
    (∀ o ∈ exObjs, o.prio ≤ 2 ^ 31 - 1) ∧
    (∀ o ∈ exObjs, -dblMax < scoreOf 2 0 exObjs o ∧ scoreOf 2 0 exObjs o < dblMax) := by
  decide +kernel

example : (setupLoop (scoreOf 2 0 exObjs) 0 exObjs 0 (setupInit 4 2)).bind (fun r => match r with
      | some (s, u) => Res.ok (s.list, u, onListOf s 2, s.putOther)
      | none => .undef)
    = .ok ([some 3, some 1, none, some 0], 3, [(-2, 3), (-3, 1)], 3) := by decide +kernel

/-- An object of better priority flushes the others. -/
example : (setupLoop (fun _ => 1) 0 [⟨1, 10, 0, 1, 1, 0, 0, 0, 0⟩, ⟨1, 10, 1, 1, 1, 0, 0, 0, 0⟩,
      ⟨1, 5, 2, 1, 1, 0, 0, 0, 0⟩] 0 (setupInit 3 2)).bind (fun r => match r with
      | some (s, u) => Res.ok (s.list, u, s.putOther)
      | none => .undef)
    = .ok ([some 2, some 0, some 1], 3, 1) := by decide +kernel

/-- **C108 (negation).** With method −1, "the reverse order of method 0", and two candidates requested,
the two objects that are looked at do not include the one the method prefers. -/
theorem reverse_method_misses : ∃ (objs : List SObj) (out : SetOut) (l : List ℕ) (b : ℕ),
    setupList exSort (-1) 0 2 objs = .ok out ∧ out.list.take 3 = l.map some ∧ b ∈ l ∧
      b ∉ l.take 2 ∧ ∀ c ∈ l, c ≠ b → scoreAt (scoreOf (-1) 0 objs) objs c < scoreAt (scoreOf (-1) 0 objs) objs b := by
  let objs : List SObj := [⟨1 / 2, 10, 0, 3, 3, 0, 0, 0, 0⟩, ⟨1 / 2, 10, 1, 1, 1, 0, 0, 0, 0⟩,
    ⟨1 / 2, 10, 2, 2, 2, 0, 0, 0, 0⟩]
  have hu : unsatIdx objs = 0 :: [1, 2] := by decide +kernel
  obtain ⟨out, e, -, e2⟩ := nonpositive_values_ignored exSort_sorts (scoreOf (-1) 0 objs) 2 (le_refl _) objs 10
    (by norm_num) (by decide +kernel) (by decide +kernel) (by decide +kernel) (by decide +kernel) 0 [1, 2] hu
  refine ⟨objs, out, [0, 2, 1], 1, e, ?_, by decide, by decide, by decide +kernel⟩
  rw [hu] at e2
  exact e2

/-! ## C109: method 7 -/

theorem firstFree_spec : ∀ (i : ℕ) (l : List FObj),
    (firstFree i l = none ↔ ∀ o ∈ l, o.hi ≤ o.lo) ∧
      ∀ j v, firstFree i l = some (j, v) → ∃ (k : ℕ) (o : FObj), j = i + k ∧ l[k]? = some o ∧ o.lo < o.hi ∧
        v = o.moved ∧ ∀ k' < k, ∀ o', l[k']? = some o' → o'.hi ≤ o'.lo
  | i, [] => by simp [firstFree]
  | i, o :: l => by
    obtain ⟨h1, h2⟩ := firstFree_spec (i + 1) l
    unfold firstFree
    by_cases h : o.hi > o.lo
    · rw [if_pos h]
      refine ⟨?_, ?_⟩
      · constructor
        · intro e; simp at e
        · intro e; exact absurd h (not_lt.2 (e o (by simp)))
      intro j v e
      cases e
      exact ⟨0, o, rfl, rfl, h, rfl, by simp⟩
    · rw [if_neg h]
      refine ⟨by rw [h1]; simp [not_lt.1 h], ?_⟩
      intro j v e
      obtain ⟨k, q, a, b, c, d, f⟩ := h2 j v e
      refine ⟨k + 1, q, by omega, by simpa using b, c, d, ?_⟩
      intro k' hk' o' ho'
      cases k' with
      | zero => simp at ho'; subst ho'; exact not_lt.1 h
      | succ k' => exact f k' (by omega) o' (by simpa using ho')

/-- **C109.** If method 7 returns 0 at a node whose LP is optimal and whose depth is less than the
number of objects, it has chosen, with the down branch first, the first object from number `depth` on
whose column is not fixed; every object from `depth` to it is fixed. -/
theorem method7_choice (infeasible : Bool) (depth : ℕ) (objs : List FObj) (c : Choice7)
    (hd : depth < objs.length) (h : choose7 true infeasible false depth objs = .ok c) :
    c.code = 0 ∧ c.way = 0 ∧ ∃ (j : ℕ) (o : FObj), c.obj = j ∧ depth ≤ j ∧ objs[j]? = some o ∧ o.lo < o.hi ∧
      c.val = o.moved ∧ ∀ k, depth ≤ k → k < j → ∀ q, objs[k]? = some q → q.hi ≤ q.lo := by
  unfold choose7 at h
  simp only [Bool.false_eq_true, if_false, Bool.true_and, decide_eq_true_eq, hd, if_true] at h
  cases e : firstFree depth (objs.drop depth) with
  | none => rw [e] at h; cases h
  | some r =>
    obtain ⟨i, v⟩ := r
    rw [e] at h
    cases h
    obtain ⟨k, o, rfl, b, c', d, f⟩ := (firstFree_spec depth (objs.drop depth)).2 i v e
    rw [List.getElem?_drop] at b
    refine ⟨rfl, rfl, depth + k, o, rfl, by omega, b, c', d, ?_⟩
    intro k' h1 h2 q hq
    refine f (k' - depth) (by omega) q ?_
    rw [List.getElem?_drop, show depth + (k' - depth) = k' by omega]
    exact hq

/-- **C109.** The value given to the chosen column is strictly inside its bounds, if the LP value is
within the bounds and these are at least 1 apart, as for integer columns. -/
theorem method7_inside (o : FObj) (h1 : o.lo ≤ o.val) (h2 : o.val ≤ o.hi) (h3 : o.lo + 1 ≤ o.hi) :
    o.lo < o.moved ∧ o.moved < o.hi := by
  unfold FObj.moved
  split
  · constructor <;> linarith
  · split
    · constructor <;> linarith
    · rename_i a b; constructor <;> linarith

example : (⟨0, 1, 1⟩ : FObj).moved = 1 / 2 := by decide +kernel

/-- **C109 (negation).** The comment in the code says that the value is made fractional. It is not when
the bounds are an even number apart: with bounds 0 and 2 and value 2 the new value is 1. -/
theorem method7_not_fractional : ∃ o : FObj, o.lo < o.hi ∧ o.lo ≤ o.val ∧ o.val ≤ o.hi ∧
    ∃ z : ℤ, o.moved = z := ⟨⟨0, 2, 2⟩, by norm_num, by norm_num, by norm_num, 1, by decide +kernel⟩

/-- Nor when the value is an integer strictly inside. -/
theorem method7_interior_unchanged (o : FObj) (h1 : o.lo + 1 ≤ o.val) (h2 : o.val ≤ o.hi - 1) :
    o.moved = o.val := by
  unfold FObj.moved
  rw [if_neg (by linarith), if_neg (by linarith)]

/-- **C109 (partial: an assertion fails if all the objects from `depth` on are fixed, or the depth is
at least the number of objects).** The choice returns if the LP is optimal and some object from number `depth` on
is free, or the LP is infeasible, or the solution is feasible; the return code is 1 exactly for a
feasible solution, and −1 only if the LP is not optimal. -/
theorem method7_returns_partial (optimal infeasible feasible : Bool) (depth : ℕ) (objs : List FObj) :
    ((∃ c, choose7 optimal infeasible feasible depth objs = .ok c) ↔
      feasible = true ∨ (optimal = true ∧ ∃ j o, depth ≤ j ∧ objs[j]? = some o ∧ o.lo < o.hi) ∨
        (¬(optimal = true ∧ depth < objs.length) ∧ infeasible = true)) ∧
    ∀ c, choose7 optimal infeasible feasible depth objs = .ok c →
      (c.code = 1 ↔ feasible = true) ∧ (c.code = -1 ↔ feasible = false ∧ optimal = false) := by
  have hfree : firstFree depth (objs.drop depth) ≠ none ↔
      ∃ j o, depth ≤ j ∧ objs[j]? = some o ∧ o.lo < o.hi := by
    rw [Ne, (firstFree_spec depth (objs.drop depth)).1]
    constructor
    · intro h
      by_contra hc
      apply h
      intro o ho
      obtain ⟨k, hk⟩ := List.getElem?_of_mem ho
      rw [List.getElem?_drop] at hk
      by_contra hlt
      exact hc ⟨depth + k, o, by omega, hk, not_le.1 hlt⟩
    · rintro ⟨j, o, h1, h2, h3⟩ h
      refine absurd (h o ?_) (not_le.2 h3)
      apply List.mem_of_getElem? (i := j - depth)
      rw [List.getElem?_drop, show depth + (j - depth) = j by omega]
      exact h2
  have hlen : (∃ j o, depth ≤ j ∧ objs[j]? = some o ∧ o.lo < o.hi) → depth < objs.length := by
    rintro ⟨j, o, h1, h2, -⟩
    have := (List.getElem?_eq_some_iff.1 h2).1
    omega
  unfold choose7
  cases feasible with
  | true => simp
  | false =>
    cases optimal with
    | false =>
      cases infeasible <;> simp
    | true =>
      by_cases hd : depth < objs.length
      · simp only [hd, decide_true, Bool.and_true, Bool.false_eq_true, if_false, if_true, not_true,
          and_true, false_or, true_and, or_false, false_and]
        cases e : firstFree depth (objs.drop depth) with
        | none =>
          rw [e] at hfree
          simp only [ne_eq, not_true, false_iff] at hfree
          generalize (∃ j o, depth ≤ j ∧ objs[j]? = some o ∧ o.lo < o.hi) = Q at hfree ⊢
          simp [hfree]
        | some r =>
          obtain ⟨i, v⟩ := r
          rw [e] at hfree
          have := hfree.1 (by simp)
          refine ⟨⟨fun _ => this, fun _ => ⟨_, rfl⟩⟩, ?_⟩
          intro c hc
          cases hc
          simp
      · have hno : ¬∃ j o, depth ≤ j ∧ objs[j]? = some o ∧ o.lo < o.hi := fun h => hd (hlen h)
        generalize (∃ j o, depth ≤ j ∧ objs[j]? = some o ∧ o.lo < o.hi) = Q at hno ⊢
        cases infeasible <;> simp [hd, hno]

/-- **C109 (negation).** At a node deeper than the number of objects with an optimal LP that is not
integer feasible, the program aborts in an assertion. -/
theorem method7_deep_aborts (depth : ℕ) (objs : List FObj) (h : objs.length ≤ depth) :
    choose7 true false false depth objs = .exit := by
  unfold choose7
  simp [not_lt.2 h]

/-- It also aborts when the remaining objects are fixed, although an earlier one is free. -/
theorem method7_fixed_aborts : ∃ (objs : List FObj) (depth : ℕ), depth < objs.length ∧
    (∃ o ∈ objs, o.lo < o.hi) ∧ choose7 true false false depth objs = .exit :=
  ⟨[⟨0, 1, 1 / 2⟩, ⟨1, 1, 1⟩], 1, by decide, ⟨_, List.mem_cons_self .., by norm_num⟩, by decide +kernel⟩

example : choose7 true false false 1 [⟨0, 1, 1 / 2⟩, ⟨1, 1, 1⟩, ⟨0, 1, 1⟩] = .ok ⟨0, 2, 0, 1 / 2⟩ := by
  decide +kernel

/-! ## The number of candidates -/

/-- **C108.** The number of candidates asked for: the number of columns for −1, the square root of it,
rounded up, for −2, the parameter itself otherwise. -/
theorem numStrong_spec (p : ℤ) (cols : ℕ) :
    (p = -1 → numStrongOf p cols = cols) ∧
      (p = -2 → ∃ r : ℕ, numStrongOf p cols = r ∧ cols ≤ r * r ∧ (0 < r → (r - 1) * (r - 1) < cols)) ∧
      (0 ≤ p → numStrongOf p cols = p) := by
  refine ⟨fun h => by simp [numStrongOf, h], fun h => ?_, fun h => ?_⟩
  · refine ⟨ceilSqrt cols, by simp [numStrongOf, h], ?_⟩
    unfold ceilSqrt
    have a := Nat.sqrt_le cols
    have b := Nat.lt_succ_sqrt cols
    split
    · rename_i e
      refine ⟨e.ge, fun hr => ?_⟩
      calc (Nat.sqrt cols - 1) * (Nat.sqrt cols - 1) < Nat.sqrt cols * Nat.sqrt cols :=
            Nat.mul_self_lt_mul_self (by omega)
        _ = cols := e
    · rename_i e
      refine ⟨b.le, fun _ => ?_⟩
      simp only [Nat.add_sub_cancel]
      exact lt_of_le_of_ne a e
  · unfold numStrongOf
    rw [if_neg (by omega), if_neg (by omega)]

end VPC
