import Verif.Model.DisjOpts
import Verif.Props.Params
import Verif.Props.Rounds

/-!
# C110: numbers of disjunctive terms by round
-/
namespace VPC

/-- The texts one after the other with `:` in between. -/
def colonText : List (List Char) → List Char
  | [] => []
  | [t] => t
  | t :: u :: ts => t ++ ':' :: colonText (u :: ts)

/-- Reading a text that has no separator just collects it. -/
theorem tokensOf_collect (sep : Char) : ∀ (t cur rest : List Char), sep ∉ t →
    tokensOf sep cur (t ++ rest) = tokensOf sep (cur ++ t) rest
  | [], cur, rest, _ => by simp
  | c :: t, cur, rest, h => by
    have hc : c ≠ sep := fun e => h (by simp [e])
    have ht : sep ∉ t := fun e => h (by simp [e])
    rw [List.cons_append, tokensOf, if_neg hc, tokensOf_collect sep t (cur ++ [c]) rest ht]
    simp

/-- Nonempty texts without `:` are recovered from the joined text, also if there is one more `:` at the
end. -/
theorem tokensOf_colonText : ∀ (ts : List (List Char)), (∀ t ∈ ts, ':' ∉ t) → (∀ t ∈ ts, t ≠ []) →
    tokensOf ':' [] (colonText ts) = ts ∧ (ts ≠ [] → tokensOf ':' [] (colonText ts ++ [':']) = ts)
  | [], _, _ => by simp [colonText, tokensOf]
  | [t], h1, h2 => by
    have a := tokensOf_collect ':' t [] [] (h1 t (by simp))
    have b := tokensOf_collect ':' t [] [':'] (h1 t (by simp))
    have hne := h2 t (by simp)
    simp only [List.append_nil, List.nil_append] at a b
    refine ⟨?_, fun _ => ?_⟩
    · rw [colonText, a]; simp [tokensOf, hne]
    · rw [colonText, b]; simp [tokensOf]
  | t :: u :: ts, h1, h2 => by
    have ih := tokensOf_colonText (u :: ts) (fun x hx => h1 x (by simp [hx]))
      (fun x hx => h2 x (by simp [hx]))
    have ht := h1 t (by simp)
    refine ⟨?_, fun _ => ?_⟩
    · rw [colonText, tokensOf_collect ':' t [] _ ht, List.nil_append, tokensOf, if_pos rfl, ih.1]
    · rw [colonText, List.append_assoc, List.cons_append, tokensOf_collect ':' t [] _ ht, List.nil_append,
        tokensOf, if_pos rfl, ih.2 (by simp)]

theorem strtol_decimal (n : Int) (h : IsInt n) : (strtol (decimal n)).1 = n ∧
    (strtol (decimal n)).2.1 = false ∧ (strtol (decimal n)).2.2.2 = false := by
  have h' := h
  simp only [IsInt, intMin, intMax] at h
  have hp := parseLong_decimal n (by simp only [longMin]; omega) (by simp only [longMax]; omega)
  unfold parseLong at hp
  obtain ⟨⟨a, b, c, d⟩, hs⟩ : ∃ q, strtol (decimal n) = q := ⟨_, rfl⟩
  rw [hs]
  rw [hs] at hp
  simp only [Prod.mk.injEq, Bool.not_eq_true', Bool.or_eq_false_iff] at hp
  obtain ⟨⟨⟨h1, h2⟩, h3⟩, h4⟩ := hp
  refine ⟨h4, h1, ?_⟩
  by_contra hd
  simp only [Bool.not_eq_false] at hd
  have hd' : (strtol (decimal n)).2.2.2 = true := by rw [hs]; exact hd
  have he : (strtol (decimal n)).1 = longMax ∨ (strtol (decimal n)).1 = longMin := by
    revert hd'
    unfold strtol
    dsimp only
    split_ifs <;> simp
  rw [hs] at he
  subst h4
  simp only [longMax, longMin] at he
  rcases he with e | e <;> omega

theorem stoi_decimal (n : Int) (h : IsInt n) : stoi (decimal n) = .ok n := by
  obtain ⟨a, b, c⟩ := strtol_decimal n h
  unfold stoi
  generalize strtol (decimal n) = q at a b c
  obtain ⟨v, no, r, er⟩ := q
  dsimp only at a b c ⊢
  subst a b c
  simp only [IsInt] at h
  simp [not_lt.2 h.1, not_lt.2 h.2]

theorem stoiAll_decimal : ∀ (ns : List ℤ), (∀ n ∈ ns, IsInt n) → stoiAll (ns.map decimal) = .ok ns
  | [], _ => rfl
  | n :: ns, h => by
    simp only [List.map_cons, stoiAll]
    rw [stoi_decimal n (h n (by simp)), stoiAll_decimal ns (fun x hx => h x (by simp [hx]))]
    rfl

theorem decimal_ne_nil (n : ℤ) : decimal n ≠ [] := by
  unfold decimal
  split
  · simp
  · exact toDigits_ne_nil _

theorem colon_notMem_decimal (n : ℤ) : ':' ∉ decimal n := by
  have hd : ':' ∉ Nat.toDigits 10 n.natAbs := by
    intro h
    have := Nat.isDigit_of_mem_toDigits (b := 10) (n := n.natAbs) (by omega) (by omega) h
    exact absurd this (by decide)
  unfold decimal
  split
  · intro h
    rcases List.mem_cons.1 h with h | h
    · exact absurd h (by decide)
    · exact hd h
  · exact hd

/-- The text a user types for the numbers `ns`. -/
def optionText (ns : List ℤ) : List Char := colonText (ns.map decimal)

theorem optionText_ne_nil {ns : List ℤ} (h : ns ≠ []) : optionText ns ≠ [] := by
  cases ns with
  | nil => exact absurd rfl h
  | cons n ns =>
    cases ns with
    | nil => exact decimal_ne_nil n
    | cons m ns => simp [optionText, colonText]

/-- **C110.** Any list of `int`s, written with `:` in between (with or without one at the end), is read
as exactly that list. -/
theorem options_read (ns : List ℤ) (hne : ns ≠ []) (h : ∀ n ∈ ns, IsInt n) (mode : Mode) (rounds : ℤ)
    (final : Bool) : ∃ p, parseDisjOptions (optionText ns ++ if final then [':'] else []) mode rounds = .ok p ∧
      p.opts = ns := by
  have hn := optionText_ne_nil hne
  have ht := tokensOf_colonText (ns.map decimal)
    (by intro t ht; obtain ⟨n, -, rfl⟩ := List.mem_map.1 ht; exact colon_notMem_decimal n)
    (by intro t ht; obtain ⟨n, -, rfl⟩ := List.mem_map.1 ht; exact decimal_ne_nil n)
  have hv : tokensOf ':' [] (optionText ns ++ if final then [':'] else []) = ns.map decimal := by
    cases final
    · simpa [optionText] using ht.1
    · simpa [optionText] using ht.2 (by simpa using hne)
  refine ⟨countOptions mode rounds ns, ?_, ?_⟩
  · unfold parseDisjOptions
    rw [if_neg (by simp [hn]), hv, stoiAll_decimal ns h]
    rfl
  · unfold countOptions; split <;> rfl

example : optionText [2, 16, -3] = "2:16:-3".toList := by decide +kernel
example : parseDisjOptions "2:16:4".toList .PARTIAL_BB 3 = .ok ⟨0, [2, 16, 4], false⟩ := by decide +kernel

/-- **C110.** Without options nothing is changed and nothing is reported. -/
theorem no_options (mode : Mode) (rounds : ℤ) (logOpen : Bool) :
    mainOptions logOpen [] mode rounds = .ok (.goesOn []) := by
  simp [mainOptions, parseDisjOptions, Res.bind, okStatus]

/-- **C110.** If the number of options is the number of rounds, or one disjunction is made from each
of them, the program goes on with them. -/
theorem right_number_goes_on (ns : List ℤ) (hne : ns ≠ []) (h : ∀ n ∈ ns, IsInt n) (mode : Mode) (rounds : ℤ)
    (logOpen : Bool) (hm : mode = .DISJ_SET_PBB ∨ (ns.length : ℤ) = rounds) :
    mainOptions logOpen (optionText ns) mode rounds = .ok (.goesOn ns) := by
  obtain ⟨p, hp, hp2⟩ := options_read ns hne h mode rounds false
  simp only [Bool.false_eq_true, if_false, List.append_nil] at hp
  have hq : p = ⟨0, ns, false⟩ := by
    unfold parseDisjOptions at hp
    rw [if_neg (optionText_ne_nil hne)] at hp
    obtain ⟨vs, -, hv⟩ := Res.bind_ok hp
    cases hv
    have hvs : vs = ns := by revert hp2; unfold countOptions; split <;> exact id
    subst hvs
    unfold countOptions
    rw [if_neg]
    · rfl
    · rintro ⟨a, b⟩
      exact hm.elim a b
  unfold mainOptions
  rw [hp, hq]
  simp [Res.bind]

example : mainOptions true "4:8".toList .PARTIAL_BB 2 = .ok (.goesOn [4, 8]) := by decide +kernel
example : mainOptions true "4:8".toList .DISJ_SET_PBB 1 = .ok (.goesOn [4, 8]) := by decide +kernel

/-- **C110 (negation).** The documented error status is never returned: the main program never stops
because of the options, whatever the text. -/
theorem error_never_reported (logOpen : Bool) (text : List Char) (mode : Mode) (rounds : ℤ) :
    (∀ p, parseDisjOptions text mode rounds = .ok p → p.status = 0) ∧
      ∀ k, mainOptions logOpen text mode rounds ≠ .ok (.stops k) := by
  have key : ∀ p, parseDisjOptions text mode rounds = .ok p → p.status = 0 := by
    intro p hp
    unfold parseDisjOptions at hp
    split at hp
    · cases hp; rfl
    · obtain ⟨vs, -, hv⟩ := Res.bind_ok hp
      cases hv
      unfold countOptions
      split <;> rfl
  refine ⟨key, ?_⟩
  intro k hk
  unfold mainOptions at hk
  obtain ⟨p, hp, hv⟩ := Res.bind_ok hk
  rw [key p hp] at hv
  revert hv
  split <;> simp

/-- **C110 (negation).** If the number of options is wrong the program goes on without a log file, and
its behaviour is undefined with one: the log was closed. -/
theorem wrong_number (ns : List ℤ) (hne : ns ≠ []) (h : ∀ n ∈ ns, IsInt n) (mode : Mode) (rounds : ℤ)
    (hm : mode ≠ .DISJ_SET_PBB) (hr : (ns.length : ℤ) ≠ rounds) :
    mainOptions false (optionText ns) mode rounds = .ok (.goesOn ns) ∧
      mainOptions true (optionText ns) mode rounds = .undef := by
  obtain ⟨p, hp, hp2⟩ := options_read ns hne h mode rounds false
  simp only [Bool.false_eq_true, if_false, List.append_nil] at hp
  have hq : p = ⟨0, ns, true⟩ := by
    unfold parseDisjOptions at hp
    rw [if_neg (optionText_ne_nil hne)] at hp
    obtain ⟨vs, -, hv⟩ := Res.bind_ok hp
    cases hv
    have hvs : vs = ns := by revert hp2; unfold countOptions; split <;> exact id
    subst hvs
    unfold countOptions
    rw [if_pos ⟨hm, hr⟩]; rfl
  unfold mainOptions
  rw [hp, hq]
  simp [Res.bind]

example : mainOptions true "4:8".toList .PARTIAL_BB 3 = .undef := by decide +kernel

/-- **C110 (negation).** Written as the help text says, with commas, or as the comment says, with
semicolons, all numbers but the first are dropped without a message if one round is asked for; in
braces the program is terminated by an exception, as it is by an empty entry or a number too large. -/
theorem documented_separators :
    mainOptions true "2,4".toList .PARTIAL_BB 1 = .ok (.goesOn [2]) ∧
      mainOptions true "2;4".toList .PARTIAL_BB 1 = .ok (.goesOn [2]) ∧
      mainOptions true "{2,4}".toList .PARTIAL_BB 2 = .exit ∧
      mainOptions true "2::4".toList .PARTIAL_BB 2 = .exit ∧
      mainOptions true "2147483648".toList .PARTIAL_BB 1 = .exit := by decide +kernel

/-! ## The number of terms in each round -/

/-- The number of terms in round `r` (from 0): its own option, the last one after the options are
used up. -/
def wantedTerms (opts : List ℤ) (r : ℕ) : Option ℤ := opts[min r (opts.length - 1)]?

theorem roundsLoop_terms (c : MainCfg) (w : ℕ → RoundWorld) (hm : c.mode ≠ .DISJ_SET_PBB)
    (ho : c.disjOptions ≠ []) : ∀ (k r : ℕ) (s s' : MainState) (r' : ℕ), 0 < k →
      (r ≠ 0 → wantedTerms c.disjOptions (r - 1) = some s.disjTerms) →
      roundsLoop c w k r s = .ok (s', r') → (r' < r + k ∧ wantedTerms c.disjOptions r' = some s'.disjTerms) ∨
        (r' = r + k ∧ wantedTerms c.disjOptions (r' - 1) = some s'.disjTerms)
  | 0, _, _, _, _, hk, _, _ => absurd hk (by simp)
  | k + 1, r, s, s', r', _, hs, h => by
    have hlen : 0 < c.disjOptions.length := List.length_pos_iff.2 ho
    have hterm : wantedTerms c.disjOptions r = some (roundTerms c r s.disjTerms) := by
      unfold roundTerms
      by_cases hr : r < c.disjOptions.length
      · rw [if_pos ⟨hm, hr⟩]
        unfold wantedTerms
        rw [min_eq_left (by omega), List.getD_eq_getElem?_getD, List.getElem?_eq_getElem hr]
        simp
      · rw [if_neg (fun e => hr e.2)]
        rw [← hs (by omega)]
        unfold wantedTerms
        rw [min_eq_right (by omega), min_eq_right (by omega)]
    unfold roundsLoop at h
    dsimp only at h
    obtain ⟨p, hp, h⟩ := Res.bind_ok h
    split at h
    · cases h
      exact Or.inl ⟨by omega, hterm⟩
    · cases k with
      | zero =>
        unfold roundsLoop at h
        cases h
        exact Or.inr ⟨rfl, hterm⟩
      | succ k =>
        have := roundsLoop_terms c w hm ho (k + 1) (r + 1) _ s' r' (by omega)
          (by intro _; simpa [recordRound] using hterm) h
        rcases this with ⟨a, b⟩ | ⟨a, b⟩
        · exact Or.inl ⟨by omega, b⟩
        · exact Or.inr ⟨by omega, b⟩

/-- **C110.** Outside set mode, if there are options: after `n` rounds (however they ended) the number of
terms in use is option number `n`, or the last option if there are fewer. -/
theorem terms_of_round (c : MainCfg) (w : ℕ → RoundWorld) (hm : c.mode ≠ .DISJ_SET_PBB)
    (ho : c.disjOptions ≠ []) (rounds : ℕ) (hr : 0 < rounds) (t : ℤ) (s : MainState) (n : ℕ)
    (h : mainRounds c w rounds t = .ok (s, n)) :
    0 < n ∧ n ≤ rounds ∧ c.disjOptions[min (n - 1) (c.disjOptions.length - 1)]? = some s.disjTerms := by
  unfold mainRounds at h
  obtain ⟨⟨s1, r1⟩, hp, h⟩ := Res.bind_ok h
  have := roundsLoop_terms c w hm ho rounds 0 _ s1 r1 hr (by simp) hp
  cases h
  rcases this with ⟨a, b⟩ | ⟨a, b⟩
  · dsimp only
    rw [if_pos (by omega)]
    exact ⟨by omega, by omega, by simpa [wantedTerms] using b⟩
  · dsimp only
    rw [if_neg (by omega)]
    have : r1 = rounds := by omega
    subst this
    exact ⟨by omega, by omega, by simpa [wantedTerms] using b⟩

/-- **C110.** Without options, or in set mode, the number of terms given by the parameter is never
changed. -/
theorem terms_unchanged (c : MainCfg) (w : ℕ → RoundWorld)
    (hm : c.mode = .DISJ_SET_PBB ∨ c.disjOptions = []) :
    ∀ (k r : ℕ) (s s' : MainState) (r' : ℕ), roundsLoop c w k r s = .ok (s', r') → s'.disjTerms = s.disjTerms
  | 0, _, _, _, _, h => by unfold roundsLoop at h; cases h; rfl
  | k + 1, r, s, s', r', h => by
    have ht : roundTerms c r s.disjTerms = s.disjTerms := by
      unfold roundTerms
      rw [if_neg]
      rintro ⟨a, b⟩
      rcases hm with h | h
      · exact a h
      · simp [h] at b
    unfold roundsLoop at h
    dsimp only at h
    obtain ⟨p, hp, h⟩ := Res.bind_ok h
    split at h
    · cases h; exact ht
    · rw [terms_unchanged c w hm k (r + 1) _ s' r' h]
      exact ht

/-- **C110.** In set mode one disjunction is made per option, if all of them are at least 2. -/
theorem set_mode_disjunctions (c : GenCfg) (w : GenWorld) (hm : c.mode = .DISJ_SET_PBB)
    (hd : c.hasDisj = false) (h : ∀ t ∈ c.disjOptions, 2 ≤ t) :
    chooseDisj c w = .ok (some (.DISJ_SET_PBB, c.disjOptions.length)) := by
  unfold chooseDisj
  rw [hd, hm]
  have : c.disjOptions.any (fun t => decide (t < 2)) = false := by
    simp only [List.any_eq_false, decide_eq_true_eq, not_lt]
    exact h
  simp [this]

/-- **C110 (negation).** An option below 2, which is meant to be skipped, makes the behaviour undefined. -/
theorem set_mode_small_option (c : GenCfg) (w : GenWorld) (hm : c.mode = .DISJ_SET_PBB)
    (hd : c.hasDisj = false) (h : ∃ t ∈ c.disjOptions, t < 2) : chooseDisj c w = .undef := by
  unfold chooseDisj
  rw [hd, hm]
  have : c.disjOptions.any (fun t => decide (t < 2)) = true := by
    simpa using h
  simp [this]

theorem startRound_cuts_nil {g g' : Gen} {given : List GCut} {nf nf0 : ℕ}
    (h : (∃ r, g.startRound given nf nf0 = .early g' r) ∨ g.startRound given nf nf0 = .go g') :
    g'.cuts = given := by
  unfold Gen.startRound at h
  dsimp only at h
  rcases h with ⟨r, h⟩ | h
  · split at h
    · cases h
    · split at h
      · cases h; rfl
      · cases h
  · split at h
    · cases h
    · split at h
      · cases h
      · cases h; rfl

/-- **C110.** With a branch-and-bound tree, an option below 2 ends the cut generation after its round:
no disjunction is made, and the later options are never used. -/
theorem small_option_stops (c : MainCfg) (w : ℕ → RoundWorld) (hm : c.mode = .PARTIAL_BB) (k r : ℕ)
    (s : MainState) (o : ℤ) (ho : c.disjOptions[r]? = some o) (hlt : o < 2) (s' : MainState) (r' : ℕ)
    (h : roundsLoop c w (k + 1) r s = .ok (s', r')) : r' = r ∧ s'.disjTerms = o ∧ s'.vpcs = s.vpcs := by
  obtain ⟨hr, hget⟩ := List.getElem?_eq_some_iff.1 ho
  have ht : roundTerms c r s.disjTerms = o := by
    unfold roundTerms
    rw [if_pos ⟨by rw [hm]; decide, hr⟩, List.getD_eq_getElem?_getD, ho]
    rfl
  have hsg : shouldGenerate c o = true := by
    unfold shouldGenerate
    have : 0 < c.disjOptions.length := by omega
    simp [this]
  unfold roundsLoop at h
  dsimp only at h
  rw [ht] at h
  obtain ⟨p, hp, h⟩ := Res.bind_ok h
  have hcuts : p.cuts = [] := by
    unfold vpcPart at hp
    rw [if_pos hsg, if_neg (by rw [hm]; decide)] at hp
    unfold plainRound at hp
    obtain ⟨q, hq, hp⟩ := Res.bind_ok hp
    have hq2 : q.gen.cuts = [] := by
      have hch : ∀ w', chooseDisj (c.toGen o false r) w' = .ok none := by
        intro w'
        simp [chooseDisj, MainCfg.toGen, hm, hlt]
      unfold generateCuts at hq
      dsimp only at hq
      split at hq
      · cases hq; rfl
      · split at hq
        · cases hq; rfl
        · split at hq
          · cases hq
          · rename_i g' r' e
            cases hq
            exact startRound_cuts_nil (Or.inl ⟨r', e⟩)
          · rename_i g' e
            unfold disjAndCut at hq
            rw [hch] at hq
            cases hq
            exact startRound_cuts_nil (Or.inr e)
    revert hp
    split
    · intro hp; cases hp; exact hq2
    · intro hp; cases hp; exact hq2
  have hstop : stopRounds c (w r) o p = true := by
    unfold stopRounds
    simp [hsg, hcuts]
  rw [if_pos hstop] at h
  cases h
  refine ⟨rfl, rfl, ?_⟩
  simp [recordRound, hcuts]

/-- A run with options 4 and 8 and three rounds requested ends in its second round with 8 terms. -/
example : (mainRounds { demoMain with disjOptions := [4, 8] } demoRounds 3 0).bind
    (fun p => .ok (p.1.disjTerms, p.2)) = .ok (8, 2) := by decide +kernel

/-- With options 4 and 1 the second round makes no disjunction. -/
example : (mainRounds { demoMain with disjOptions := [4, 1, 8] } (fun _ => demoRounds 0) 3 0).bind
    (fun p => .ok (p.1.disjTerms, p.1.vpcs.length, p.2)) = .ok (1, 1, 2) := by decide +kernel

/-- Without options the parameter is used in all rounds. -/
example : (mainRounds demoMain demoRounds 3 4).bind (fun p => .ok (p.1.disjTerms, p.2)) = .ok (4, 2) := by
  decide +kernel

example : ∃ c : GenCfg, c.mode = .DISJ_SET_PBB ∧ c.hasDisj = false ∧ (∀ t ∈ c.disjOptions, 2 ≤ t) ∧
    chooseDisj c quietGen = .ok (some (.DISJ_SET_PBB, 2)) :=
  ⟨{ pbbCfg with mode := .DISJ_SET_PBB, disjOptions := [4, 8] }, rfl, rfl, by decide, by decide +kernel⟩

end VPC
