import Verif.Model.Files
import Mathlib.Data.List.TakeWhile

/-!
# C22, C42, C54: file names, objective-value files, solution files
-/
namespace VPC

theorem takeWhile_append_stop {α} (p : α → Bool) (l : List α) (a : α) (r : List α)
    (hl : ∀ x ∈ l, p x = true) (ha : p a = false) :
    (l ++ a :: r).takeWhile p = l ∧ (l ++ a :: r).dropWhile p = a :: r := by
  induction l with
  | nil => simp [ha]
  | cons x l ih =>
    have hx := hl x (by simp)
    obtain ⟨h1, h2⟩ := ih fun y hy => hl y (by simp [hy])
    simp [hx, h1, h2]

/-- `lastSplit` finds the last separator. -/
theorem lastSplit_append (p : Char → Bool) (a b : List Char) (c : Char) (hc : p c = true)
    (hb : ∀ x ∈ b, p x = false) : lastSplit p (a ++ c :: b) = some (a, b) := by
  have e : (a ++ c :: b).reverse = b.reverse ++ c :: a.reverse := by simp
  obtain ⟨h1, h2⟩ := takeWhile_append_stop (fun x => !p x) b.reverse c a.reverse
    (fun x hx => by simp [hb x (by simpa using hx)]) (by simp [hc])
  simp only [lastSplit, e, h2, h1]
  simp

theorem lastSplit_none (p : Char → Bool) (s : List Char) :
    lastSplit p s = none ↔ ∀ x ∈ s, p x = false := by
  constructor
  · intro h
    by_contra hc
    push Not at hc
    unfold lastSplit at h
    split at h
    · next h' =>
      rw [List.dropWhile_eq_nil_iff] at h'
      obtain ⟨x, hx, hpx⟩ := hc
      have := h' x (by simpa using hx)
      simp at this; exact hpx this
    · simp at h
  · intro h
    have : s.reverse.dropWhile (fun c => !p c) = [] := by
      rw [List.dropWhile_eq_nil_iff]
      intro x hx; simp [h x (by simpa using hx)]
    simp [lastSplit, this]

theorem lastSplit_some {p : Char → Bool} {s a b : List Char} (h : lastSplit p s = some (a, b)) :
    ∃ c, p c = true ∧ s = a ++ c :: b ∧ ∀ x ∈ b, p x = false := by
  by_cases hn : ∀ x ∈ s, p x = false
  · rw [(lastSplit_none p s).mpr hn] at h; simp at h
  · unfold lastSplit at h
    split at h
    · simp at h
    · next c pre hd =>
      simp only [Option.some.injEq, Prod.mk.injEq] at h
      obtain ⟨rfl, rfl⟩ := h
      refine ⟨c, ?_, ?_, ?_⟩
      · have := List.head?_dropWhile_not (fun c => !p c) s.reverse
        rw [hd] at this; simpa using this
      · have := List.takeWhile_append_dropWhile (p := fun c => !p c) (l := s.reverse)
        rw [hd] at this
        have := congrArg List.reverse this
        simpa using this.symm
      · intro x hx
        have := List.mem_takeWhile_imp (by simpa using hx : x ∈ s.reverse.takeWhile fun c => !p c)
        simpa using this

/-- Path separators. -/
def IsSlash (c : Char) : Prop := c = '/' ∨ c = '\\'

instance (c : Char) : Decidable (IsSlash c) := by unfold IsSlash; infer_instance

theorem slashP (c : Char) : (decide (c = '/') || decide (c = '\\')) = true ↔ IsSlash c := by
  simp [IsSlash]

theorem finishParts_dir (d n ext : List Char) (c : Char) (hc : IsSlash c)
    (hn : ∀ x ∈ n, ¬ IsSlash x) : finishParts (d ++ c :: n) ext = ⟨d, n, ext⟩ := by
  rw [finishParts, lastSplit_append _ d n c ((slashP c).mpr hc)]
  intro x hx
  have := hn x hx
  rw [← slashP] at this
  simpa using this

theorem finishParts_nodir (n ext : List Char) (hn : ∀ x ∈ n, ¬ IsSlash x) :
    finishParts n ext = ⟨['.'], n, ext⟩ := by
  rw [finishParts, (lastSplit_none _ n).mpr]
  intro x hx
  have := hn x hx
  rw [← slashP] at this
  simpa using this

/-- An archive suffix, as characters after the last dot. -/
def IsArchive (e : List Char) : Prop := e = "gz".toList ∨ e = "bz2".toList

theorem isArchive_iff (e : List Char) :
    (e = ['g', 'z'] ∨ e = ['b', 'z', '2']) ↔ IsArchive e := by
  have h1 : "gz".toList = ['g', 'z'] := by decide
  have h2 : "bz2".toList = ['b', 'z', '2'] := by decide
  rw [IsArchive, h1, h2]

/-- **C22, plain names.** `dir/name.ext` is split into its three parts, for every directory, every
name without a path separator and every extension without dots that is not an archive suffix;
without a directory the directory is reported as `.`. -/
theorem parse_plain (out : FileParts) (d n e : List Char) (c : Char) (hc : IsSlash c)
    (hn : ∀ x ∈ n, ¬ IsSlash x) (he : '.' ∉ e) (ha : ¬ IsArchive e) :
    parseFilename out (d ++ c :: n ++ '.' :: e) = (0, ⟨d, n, e⟩) ∧
    parseFilename out (n ++ '.' :: e) = (0, ⟨['.'], n, e⟩) := by
  have he' : ∀ x ∈ e, decide (x = '.') = false := by
    intro x hx; simp; rintro rfl; exact he hx
  constructor
  · rw [parseFilename, lastSplit_append _ (d ++ c :: n) e '.' (by simp) he']
    simp only [if_neg (mt (isArchive_iff e).mp ha), finishParts_dir d n e c hc hn]
  · rw [parseFilename, lastSplit_append _ n e '.' (by simp) he']
    simp only [if_neg (mt (isArchive_iff e).mp ha), finishParts_nodir n e hn]

/-- **C22, archived names.** The same with `.gz` or `.bz2` appended. -/
theorem parse_archived (out : FileParts) (d n e z : List Char) (c : Char) (hc : IsSlash c)
    (hn : ∀ x ∈ n, ¬ IsSlash x) (he : '.' ∉ e) (hz : IsArchive z) :
    parseFilename out (d ++ c :: n ++ '.' :: e ++ '.' :: z) = (0, ⟨d, n, e⟩) ∧
    parseFilename out (n ++ '.' :: e ++ '.' :: z) = (0, ⟨['.'], n, e⟩) := by
  have he' : ∀ x ∈ e, decide (x = '.') = false := by
    intro x hx; simp; rintro rfl; exact he hx
  have hz' : ∀ x ∈ z, decide (x = '.') = false := by
    rw [← isArchive_iff] at hz
    rcases hz with rfl | rfl <;> decide
  constructor
  · rw [parseFilename, lastSplit_append _ (d ++ c :: n ++ '.' :: e) z '.' (by simp) hz']
    simp only [if_pos ((isArchive_iff z).mpr hz)]
    rw [lastSplit_append _ (d ++ c :: n) e '.' (by simp) he']
    simp only [finishParts_dir d n e c hc hn]
  · rw [parseFilename, lastSplit_append _ (n ++ '.' :: e) z '.' (by simp) hz']
    simp only [if_pos ((isArchive_iff z).mpr hz)]
    rw [lastSplit_append _ n e '.' (by simp) he']
    simp only [finishParts_nodir n e hn]

/-- **C22, rejection.** A string is rejected exactly when it has no dot at all, or its only dot
starts an archive suffix. -/
theorem parse_rejects_iff (out : FileParts) (s : List Char) :
    (parseFilename out s).1 = 1 ↔
      '.' ∉ s ∨ ∃ f z, s = f ++ '.' :: z ∧ IsArchive z ∧ '.' ∉ f := by
  have dotfree : ∀ l : List Char, (∀ x ∈ l, decide (x = '.') = false) ↔ '.' ∉ l := by
    intro l
    constructor
    · intro h hd; simpa using h _ hd
    · intro h x hx; simp; rintro rfl; exact h hx
  have arch_dotfree : ∀ z, IsArchive z → '.' ∉ z := by
    intro z hz; rw [← isArchive_iff] at hz; rcases hz with rfl | rfl <;> decide
  cases h : lastSplit (fun c => decide (c = '.')) s with
  | none =>
    have := (dotfree s).mp ((lastSplit_none _ s).mp h)
    simp [parseFilename, h, this]
  | some ab =>
    obtain ⟨f, z⟩ := ab
    obtain ⟨c, hc, rfl, hb⟩ := lastSplit_some h
    simp only [decide_eq_true_eq] at hc
    subst hc
    have hz := (dotfree z).mp hb
    simp only [parseFilename, h]
    constructor
    · intro hr
      right
      by_cases ha : IsArchive z
      · rw [if_pos ((isArchive_iff z).mpr ha)] at hr
        cases h2 : lastSplit (fun c => decide (c = '.')) f with
        | none => exact ⟨f, z, rfl, ha, (dotfree f).mp ((lastSplit_none _ f).mp h2)⟩
        | some q => rw [h2] at hr; simp at hr
      · rw [if_neg (mt (isArchive_iff z).mp ha)] at hr; simp at hr
    · rintro (hd | ⟨f', z', hs, ha, hf'⟩)
      · simp at hd
      · have := lastSplit_append (fun c => decide (c = '.')) f' z' '.' (by simp)
          ((dotfree z').mpr (arch_dotfree z' ha))
        rw [← hs, h] at this
        simp only [Option.some.injEq, Prod.mk.injEq] at this
        obtain ⟨rfl, rfl⟩ := this
        rw [if_pos ((isArchive_iff z).mpr ha), (lastSplit_none _ f).mpr ((dotfree f).mpr hf')]

/-- **C22, soundness for every accepted string.** The parts reported determine the string: it is
`dir`, a separator, `name` (or just `name`, with directory `.`), a dot, `ext`, and possibly an
archive suffix; `name` has no separator and `ext` no dot. -/
theorem parse_sound (out p : FileParts) (s : List Char) (h : parseFilename out s = (0, p)) :
    ∃ stem suffix, s = stem ++ '.' :: p.ext ++ suffix ∧
      (suffix = [] ∨ ∃ z, IsArchive z ∧ suffix = '.' :: z) ∧
      ((∃ c, IsSlash c ∧ stem = p.dir ++ c :: p.inst) ∨ (stem = p.inst ∧ p.dir = ['.'])) ∧
      (∀ x ∈ p.inst, ¬ IsSlash x) ∧ '.' ∉ p.ext := by
  have dotfree : ∀ l : List Char, (∀ x ∈ l, decide (x = '.') = false) → '.' ∉ l := by
    intro l h hd; simpa using h _ hd
  have fin : ∀ f e, ((∃ c, IsSlash c ∧ f = (finishParts f e).dir ++ c :: (finishParts f e).inst) ∨
      (f = (finishParts f e).inst ∧ (finishParts f e).dir = ['.'])) ∧
      (∀ x ∈ (finishParts f e).inst, ¬ IsSlash x) ∧ (finishParts f e).ext = e := by
    intro f e
    unfold finishParts
    cases h1 : lastSplit (fun c => decide (c = '/') || decide (c = '\\')) f with
    | none =>
      refine ⟨Or.inr ⟨rfl, rfl⟩, ?_, rfl⟩
      intro x hx; rw [← slashP]; simp [(lastSplit_none _ f).mp h1 x hx]
    | some q =>
      obtain ⟨c, hc, hf, hb⟩ := lastSplit_some h1
      refine ⟨Or.inl ⟨c, (slashP c).mp hc, hf⟩, ?_, rfl⟩
      intro x hx; rw [← slashP]; simp [hb x hx]
  unfold parseFilename at h
  cases h1 : lastSplit (fun c => decide (c = '.')) s with
  | none => simp [h1] at h
  | some ab =>
    obtain ⟨f, z⟩ := ab
    obtain ⟨c, hc, rfl, hb⟩ := lastSplit_some h1
    simp only [decide_eq_true_eq] at hc
    subst hc
    simp only [h1] at h
    by_cases ha : IsArchive z
    · rw [if_pos ((isArchive_iff z).mpr ha)] at h
      cases h2 : lastSplit (fun c => decide (c = '.')) f with
      | none => simp [h2] at h
      | some q =>
        obtain ⟨f2, e2⟩ := q
        obtain ⟨c, hc, rfl, hb2⟩ := lastSplit_some h2
        simp only [decide_eq_true_eq] at hc
        subst hc
        simp only [h2, Prod.mk.injEq, true_and] at h
        subst h
        obtain ⟨g1, g2, g3⟩ := fin f2 e2
        exact ⟨f2, '.' :: z, by rw [g3], Or.inr ⟨z, ha, rfl⟩, g1, g2, by
          rw [g3]; exact dotfree _ hb2⟩
    · rw [if_neg (mt (isArchive_iff z).mp ha)] at h
      simp only [Prod.mk.injEq, true_and] at h
      subst h
      obtain ⟨g1, g2, g3⟩ := fin f z
      exact ⟨f, [], by rw [g3]; simp, Or.inl rfl, g1, g2, by rw [g3]; exact dotfree _ hb⟩

/-- **C22 fails for a name without an extension in a directory with a dot**: `a.b/c` is accepted,
with instance `a` and "extension" `b/c`. -/
theorem parse_dot_in_directory :
    parseFilename ⟨[], [], []⟩ "a.b/c".toList =
      (0, ⟨".".toList, "a".toList, "b/c".toList⟩) := by decide

example : IsSlash '/' ∧ (∀ x ∈ "bm23.pre".toList, ¬ IsSlash x) ∧ '.' ∉ "mps".toList ∧
    ¬ IsArchive "mps".toList ∧ IsArchive "gz".toList := by
  refine ⟨Or.inl rfl, by decide, by decide, ?_, Or.inl rfl⟩
  unfold IsArchive; decide

/-! ## Objective-value file (C42) -/

/-- Specification of a line of the file: name up to the first comma. -/
def lineName (l : List Char) : List Char := l.takeWhile fun c => c ≠ ','

/-- Specification: text between the first and the second comma, if there is any. -/
def lineValue (l : List Char) : Option (List Char) :=
  match l.dropWhile fun c => c ≠ ',' with
  | [] => none
  | [_] => none
  | _ :: rest => some (rest.takeWhile fun c => c ≠ ',')

theorem getTok_name (l : List Char) (h : l ≠ []) :
    ∃ rest, getTok ',' (some l) = some (lineName l, rest) ∧
      (getTok ',' rest).map Prod.fst = lineValue l := by
  cases l with
  | nil => exact absurd rfl h
  | cons c l =>
    unfold getTok lineName lineValue
    cases hd : (c :: l).dropWhile (fun c => decide (c ≠ ',')) with
    | nil =>
      refine ⟨none, ?_, rfl⟩
      have h1 := List.takeWhile_append_dropWhile (p := fun c => decide (c ≠ ',')) (l := c :: l)
      rw [hd, List.append_nil] at h1
      simp only [hd, h1]
    | cons a rest =>
      refine ⟨some rest, by simp only [hd], ?_⟩
      cases rest with
      | nil => rfl
      | cons b r =>
        cases hd2 : (b :: r).dropWhile (fun c => decide (c ≠ ',')) with
        | nil =>
          simp only [Option.map_some, hd2]
          have h1 := List.takeWhile_append_dropWhile (p := fun c => decide (c ≠ ',')) (l := b :: r)
          rw [hd2, List.append_nil] at h1
          rw [h1]
        | cons x y => simp only [hd2, Option.map_some]

theorem objLoop_skip (stod : List Char → Option ℚ) (inst : List Char) (pre post : List (List Char))
    (h : ∀ l ∈ pre, l ≠ [] → lineName l ≠ inst) :
    objLoop stod inst (pre ++ post) = objLoop stod inst post := by
  induction pre with
  | nil => rfl
  | cons l pre ih =>
    have ih := ih fun l' hl' => h l' (by simp [hl'])
    rw [List.cons_append, objLoop]
    by_cases hl : l = []
    · rw [if_pos hl, ih]
    · rw [if_neg hl]
      obtain ⟨rest, h1, h2⟩ := getTok_name l hl
      rw [h1]
      simp only [if_neg (h l (by simp) hl), ih]

/-- **C42 (partial).** The instance looked for is the name part of the problem file name. If the
first nonempty line whose name matches has a readable value, that value is returned; if no
nonempty line matches, failure (`lowest`) is reported. Missing: a matching line without a readable
value (`objLookup_unreadable_skipped`, `objLookup_terminates`). -/
theorem objLookup_first_partial (stod : List Char → Option ℚ) (opt full : List Char)
    (hopt : opt ≠ []) (inst : List Char)
    (hinst : inst = (parseFilename ⟨[], [], []⟩ full).2.inst) :
    (∀ pre l post v tok, (∀ l' ∈ pre, l' ≠ [] → lineName l' ≠ inst) → l ≠ [] →
      lineName l = inst → lineValue l = some tok → stod tok = some v →
      getObjValueFromFile stod opt full (some (pre ++ l :: post)) = .value v) ∧
    (∀ lines, (∀ l ∈ lines, l ≠ [] → lineName l ≠ inst) →
      getObjValueFromFile stod opt full (some lines) = .lowest) ∧
    getObjValueFromFile stod opt full none = .exit1 := by
  subst hinst
  refine ⟨?_, ?_, ?_⟩
  · intro pre l post v tok hpre hl hname hval hv
    simp only [getObjValueFromFile, if_neg hopt]
    rw [objLoop_skip stod _ pre _ hpre, objLoop, if_neg hl]
    obtain ⟨rest, h1, h2⟩ := getTok_name l hl
    rw [h1]
    simp only [hname, if_true]
    rw [hval] at h2
    cases h3 : getTok ',' rest with
    | none => simp [h3] at h2
    | some q =>
      rw [h3] at h2
      simp only [Option.map_some, Option.some.injEq] at h2
      simp only [h2, hv]
  · intro lines h
    simp only [getObjValueFromFile, if_neg hopt]
    have := objLoop_skip stod _ lines [] h
    rw [List.append_nil] at this
    rw [this, objLoop]
  · simp [getObjValueFromFile, hopt]

/-- Without a file name the lookup reports failure and reads nothing. -/
theorem objLookup_no_name (stod : List Char → Option ℚ) (full : List Char) (file) :
    getObjValueFromFile stod [] full file = .lowest := by simp [getObjValueFromFile]

/-- **C42 fails**: a first matching line whose value cannot be read is skipped and a later
matching line is used (for every `stod` that rejects `abc` and reads `7`). -/
theorem objLookup_unreadable_skipped (stod : List Char → Option ℚ)
    (h1 : stod "abc".toList = none) (h2 : stod "7".toList = some 7) :
    getObjValueFromFile stod "f".toList "p0033.mps".toList
      (some ["p0033,abc".toList, "p0033,7".toList]) = .value 7 := by
  have e1 : (parseFilename ⟨[], [], []⟩ "p0033.mps".toList).2.inst = "p0033".toList := by decide
  have e2 : getTok ',' (some "p0033,abc".toList) = some ("p0033".toList, some "abc".toList) := by
    decide
  have e3 : getTok ',' (some "abc".toList) = some ("abc".toList, none) := by decide
  have e4 : getTok ',' (some "p0033,7".toList) = some ("p0033".toList, some "7".toList) := by
    decide
  have e5 : getTok ',' (some "7".toList) = some ("7".toList, none) := by decide
  have n1 : "p0033,abc".toList ≠ [] := by decide
  have n2 : "p0033,7".toList ≠ [] := by decide
  have n3 : "f".toList ≠ [] := by decide
  unfold getObjValueFromFile
  rw [e1, if_neg n3]
  generalize "p0033,abc".toList = l1 at *
  generalize "p0033,7".toList = l2 at *
  generalize "p0033".toList = i at *
  generalize "abc".toList = a at *
  generalize "7".toList = c at *
  simp only [objLoop, if_neg n1, if_neg n2, e2, e3, e4, e5, h1, h2, if_true]

/-- **C42 fails**: a matching line without a value terminates the process, whatever follows. -/
theorem objLookup_terminates (stod : List Char → Option ℚ) (opt full : List Char) (hopt : opt ≠ [])
    (inst : List Char) (hinst : inst = (parseFilename ⟨[], [], []⟩ full).2.inst)
    (pre : List (List Char)) (l : List Char) (post : List (List Char))
    (hpre : ∀ l' ∈ pre, l' ≠ [] → lineName l' ≠ inst) (hl : l ≠ []) (hname : lineName l = inst)
    (hval : lineValue l = none) :
    getObjValueFromFile stod opt full (some (pre ++ l :: post)) = .terminate := by
  subst hinst
  simp only [getObjValueFromFile, if_neg hopt]
  rw [objLoop_skip stod _ pre _ hpre, objLoop, if_neg hl]
  obtain ⟨rest, h1, h2⟩ := getTok_name l hl
  rw [h1]
  simp only [hname, if_true]
  rw [hval] at h2
  cases h3 : getTok ',' rest with
  | none => rfl
  | some q => simp [h3] at h2

/-- **C42 fails**: a problem file name without extension is looked up under the empty name. -/
theorem objLookup_no_extension (stod : List Char → Option ℚ) (h : stod "7".toList = some 7) :
    getObjValueFromFile stod "f".toList "p0033".toList (some ["p0033,3".toList, ",7".toList])
      = .value 7 := by
  have e1 : (parseFilename ⟨[], [], []⟩ "p0033".toList).2.inst = [] := by decide
  have e2 : getTok ',' (some "p0033,3".toList) = some ("p0033".toList, some "3".toList) := by
    decide
  have e4 : getTok ',' (some ",7".toList) = some ([], some "7".toList) := by decide
  have e5 : getTok ',' (some "7".toList) = some ("7".toList, none) := by decide
  have n1 : "p0033,3".toList ≠ [] := by decide
  have n2 : ",7".toList ≠ [] := by decide
  have n3 : "f".toList ≠ [] := by decide
  have n4 : "p0033".toList ≠ [] := by decide
  unfold getObjValueFromFile
  rw [e1, if_neg n3]
  generalize "p0033,3".toList = l1 at *
  generalize ",7".toList = l2 at *
  generalize "p0033".toList = i at *
  generalize "3".toList = a at *
  generalize "7".toList = c at *
  simp only [objLoop, if_neg n1, if_neg n2, e2, e4, e5, h, if_true, if_neg n4]

example : lineName "p0033,3089,x".toList = "p0033".toList ∧
    lineValue "p0033,3089,x".toList = some "3089".toList ∧ lineValue "p0033,".toList = none := by
  decide

/-! ## Solution file (C54) -/

/-- A data line `name value` with a single blank, a name that is not a comment mark. -/
structure IsDataLine (l name val : List Char) : Prop where
  eq : l = name ++ ' ' :: val
  nonempty : name ≠ []
  no_comment : ∀ c r, name = c :: r → c ≠ '#' ∧ c ≠ '*'
  name_blank : ' ' ∉ name
  val_blank : ' ' ∉ val
  val_ne : val ≠ []

/-- Comment or empty line. -/
def IsSkipLine (l : List Char) : Prop := l = [] ∨ ∃ r, l = '#' :: r ∨ l = '*' :: r

theorem solLine_skip (stod) (l : List Char) (h : IsSkipLine l) : solLine stod l = [] := by
  rcases h with rfl | ⟨r, rfl | rfl⟩ <;> simp [solLine]

theorem solLine_data (stod) (l name val : List Char) (h : IsDataLine l name val) :
    solLine stod l = (stod val).toList := by
  obtain ⟨rfl, hne, hc, hnb, hvb, hve⟩ := h
  cases name with
  | nil => exact absurd rfl hne
  | cons c r =>
    obtain ⟨c1, c2⟩ := hc c r rfl
    have t := takeWhile_append_stop (fun x => decide (x ≠ ' ')) (c :: r) ' ' val
      (fun x hx => by simp; rintro rfl; exact hnb hx) (by simp)
    have e1 : getTok ' ' (some (c :: r ++ ' ' :: val)) = some (c :: r, some val) := by
      rw [List.cons_append] at t ⊢
      simp only [getTok, t.1, t.2]
    have e2 : getTok ' ' (some val) = some (val, none) := by
      cases val with
      | nil => exact absurd rfl hve
      | cons v vs =>
        have : (v :: vs).dropWhile (fun x => decide (x ≠ ' ')) = [] := by
          rw [List.dropWhile_eq_nil_iff]; intro x hx; simp; rintro rfl; exact hvb hx
        simp only [getTok, this]
    have e3 : val ≠ [' '] := by rintro rfl; simp at hvb
    have : solLine stod (c :: r ++ ' ' :: val) =
        (if val = [] ∨ val = [' '] then [0] else []) ++
          (match stod val with | some v => [v] | none => []) := by
      rw [List.cons_append] at e1 ⊢
      simp only [solLine, c1, c2, or_self, if_false, e1, e2]
      rfl
    rw [this, if_neg (by simp [hve, e3])]
    cases stod val <;> simp

/-- **C54 (partial).** For a file of data lines with one blank between name and value, comments
and empty lines, the solution is the list of values in file order, and its previous content is
discarded. Missing: lines with several blanks (`solLine_double_blank`). -/
theorem getSol_spec_partial (stod : List Char → Option ℚ) (fn : List Char) (sol : List ℚ)
    (lines : List (List Char × Option (List Char × List Char × ℚ)))
    (h : ∀ p ∈ lines, match p.2 with
      | none => IsSkipLine p.1
      | some (n, v, q) => IsDataLine p.1 n v ∧ stod v = some q) :
    getSolFromFile stod (some fn) (some (lines.map Prod.fst)) sol =
      some (lines.filterMap fun p => p.2.map fun t => t.2.2) := by
  simp only [getSolFromFile, Option.some.injEq]
  induction lines with
  | nil => rfl
  | cons p ls ih =>
    have hp := h p (by simp)
    have ih := ih fun q hq => h q (by simp [hq])
    rw [List.map_cons, List.flatMap_cons, ih]
    obtain ⟨l, o⟩ := p
    cases o with
    | none => rw [solLine_skip stod l hp]; simp
    | some t =>
      obtain ⟨n, v, q⟩ := t
      obtain ⟨h1, h2⟩ := hp
      rw [solLine_data stod l n v h1, h2]; simp

/-- **C54 fails**: two blanks between name and value record the value 0, whatever the value is. -/
theorem solLine_double_blank (stod : List Char → Option ℚ) (h : stod [] = none)
    (val : List Char) :
    solLine stod ('x' :: ' ' :: ' ' :: val) = [0] := by
  have e1 : getTok ' ' (some ('x' :: ' ' :: ' ' :: val)) = some (['x'], some (' ' :: val)) := by
    simp [getTok]
  have e2 : getTok ' ' (some (' ' :: val)) = some ([], some val) := by
    simp [getTok]
  simp [solLine, e1, e2, h]

/-- No file name: nothing changes; unreadable file: the process exits. -/
theorem getSol_edges (stod) (file) (sol : List ℚ) (fn : List Char) :
    getSolFromFile stod none file sol = some sol ∧
    getSolFromFile stod (some fn) none sol = none := ⟨rfl, rfl⟩

example : IsDataLine "x1 3.5".toList "x1".toList "3.5".toList ∧ IsSkipLine "# obj 3".toList := by
  refine ⟨⟨by decide, by decide, ?_, by decide, by decide, by decide⟩, Or.inr ⟨" obj 3".toList, Or.inl (by decide)⟩⟩
  intro c r h
  have : "x1".toList = 'x' :: ['1'] := by decide
  rw [this] at h
  simp only [List.cons.injEq] at h
  rw [← h.1]; decide

end VPC
