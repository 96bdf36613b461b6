import Verif.Model.Names
import Mathlib.Tactic.Linarith
import Mathlib.Tactic.NormNum
import Mathlib.Data.List.Basic

/-!
# C116: the name of a disjunction describes its terms

The specification is a reader: `readName` takes a name apart at `V` and `;` and reads each bound.
A name describes a disjunction if reading it gives back its terms, in order.
-/
namespace VPC

/-! ## Specification -/

/-- What a term of the disjunction is: the integer solution found, or a set of bounds, each with an
integer value. -/
inductive NTerm where
  | sol
  | bounds (bs : List (Bool × ℕ × ℤ))
deriving DecidableEq, Repr

/-- Reads a sequence of digits. -/
def readDigits (s : List Char) : Option ℕ :=
  if s ≠ [] ∧ s.all Char.isDigit then some (Nat.ofDigitChars 10 s 0) else none

/-- Reads an integer. -/
def readNumber : List Char → Option ℤ
  | '-' :: s => (readDigits s).map fun n => -(n : ℤ)
  | s => (readDigits s).map fun n => (n : ℤ)

/-- Reads `+x3>=7` (a lower bound 7 on variable 3) or `-x3>=-7` (an upper bound 7). -/
def readBound (s : List Char) : Option (Bool × ℕ × ℤ) :=
  match s with
  | sg :: 'x' :: rest =>
    match rest.span Char.isDigit with
    | (ds, '>' :: '=' :: num) =>
      match readDigits ds, readNumber num with
      | some v, some n =>
        if sg = '+' then some (true, v, n) else if sg = '-' then some (false, v, -n) else none
      | _, _ => none
    | _ => none
  | _ => none

/-- Reads one term: bounds separated by `;`. -/
def readTerm (s : List Char) : Option NTerm :=
  if s = "feasSol0".toList then some .sol
  else ((s.splitOn ';').mapM readBound).map .bounds

/-- Reads a name: terms separated by `V`; blanks and parentheses do not matter. -/
def readName (s : List Char) : Option (List NTerm) :=
  if s = [] then some []
  else ((s.filter fun c => c ≠ ' ' ∧ c ≠ '(' ∧ c ≠ ')').splitOn 'V').mapM readTerm

/-! ## Texts -/

/-- `(a; b; c)` -/
def showTerm (is : List (List Char)) : List Char :=
  "(".toList ++ ("; ".toList).intercalate is ++ ")".toList

/-- `(a; b) V (c)` -/
def showName (ts : List (List (List Char))) : List Char :=
  (" V ".toList).intercalate (ts.map showTerm)

theorem intercalate_snoc {α : Type} (sep : List α) (ls : List (List α)) (l : List α)
    (h : ls ≠ []) : sep.intercalate (ls ++ [l]) = sep.intercalate ls ++ sep ++ l := by
  induction ls with
  | nil => exact absurd rfl h
  | cons a as ih =>
    cases as with
    | nil => simp [List.intercalate]
    | cons b bs =>
      have := ih (by simp)
      simp only [List.cons_append] at this ⊢
      rw [List.intercalate_cons_cons, this, List.intercalate_cons_cons]
      simp [List.append_assoc]

theorem intercalate_last {α : Type} (sep : List α) (ls : List (List α)) (l t : List α) :
    sep.intercalate (ls ++ [l ++ t]) = sep.intercalate (ls ++ [l]) ++ t := by
  by_cases h : ls = []
  · subst h; simp
  · rw [intercalate_snoc sep ls _ h, intercalate_snoc sep ls _ h]; simp [List.append_assoc]

theorem showName_eq_nil (ts : List (List (List Char))) : showName ts = [] ↔ ts = [] := by
  constructor
  · intro h
    cases ts with
    | nil => rfl
    | cons a as =>
      exfalso
      cases as with
      | nil => simp [showName, showTerm] at h
      | cons b bs => simp [showName, showTerm] at h
  · intro h; subst h; simp [showName]

/-- A new group in the name. -/
theorem showName_new (ts : List (List (List Char))) (is : List (List Char)) :
    (if showName ts = [] then showName ts else showName ts ++ " V ".toList) ++ showTerm is
      = showName (ts ++ [is]) := by
  by_cases h : ts = []
  · subst h; simp [showName]
  · rw [if_neg (by rw [showName_eq_nil]; exact h)]
    unfold showName
    rw [List.map_append, List.map_singleton, intercalate_snoc _ _ _ (by simpa using h)]

/-- One more entry in the last group of the name. -/
theorem showName_more (ts : List (List (List Char))) (is : List (List Char)) (t : List Char)
    (h : is ≠ []) :
    (showName (ts ++ [is])).dropLast ++ "; ".toList ++ t ++ ")".toList
      = showName (ts ++ [is ++ [t]]) := by
  have e : ∀ js : List (List Char), showName (ts ++ [js]) =
      (" V ".toList).intercalate (ts.map showTerm ++ ["(".toList ++ ("; ".toList).intercalate js])
        ++ ")".toList := by
    intro js
    unfold showName
    rw [List.map_append, List.map_singleton]
    unfold showTerm
    rw [intercalate_last]
  rw [e is, e (is ++ [t]), intercalate_snoc _ is t h]
  have e3 : "(".toList ++ (("; ".toList).intercalate is ++ "; ".toList ++ t)
      = ("(".toList ++ ("; ".toList).intercalate is) ++ ("; ".toList ++ t) := by
    simp [List.append_assoc]
  rw [e3, intercalate_last _ _ ("(".toList ++ ("; ".toList).intercalate is) ("; ".toList ++ t)]
  have e4 : (")".toList : List Char) = [')'] := by decide
  rw [e4, List.dropLast_concat]
  simp [List.append_assoc]

/-! ## The first two versions keep the form of the name -/

/-- The first version adds one term. -/
theorem cgsTerm_spec (ts : List (List (List Char))) (t : List Char) (h : t ≠ []) :
    cgsTerm (showName ts) t = showName (ts ++ [[t]]) := by
  rw [← showName_new]
  unfold cgsTerm
  rw [if_neg h]
  simp [showTerm]

/-- The second version, not appending: one more term. -/
theorem cgsIneq_new (fmt : ℚ → List Char) (ts : List (List (List Char))) (cs : List (ℕ × ℚ))
    (rhs : ℚ) (t : List Char) (hc : cs ≠ []) (ht : ineqText fmt cs rhs = .ok t) :
    cgsIneq fmt (showName ts) cs rhs false = .ok (showName (ts ++ [[t]])) := by
  unfold cgsIneq
  rw [if_neg hc, ht]
  simp only [Res.bind]
  rw [← showName_new]
  simp [cgsOpen, showTerm]

/-- The second version, appending: one more inequality in the last term. -/
theorem cgsIneq_more (fmt : ℚ → List Char) (ts : List (List (List Char))) (is : List (List Char))
    (cs : List (ℕ × ℚ)) (rhs : ℚ) (t : List Char) (his : is ≠ []) (hc : cs ≠ [])
    (ht : ineqText fmt cs rhs = .ok t) :
    cgsIneq fmt (showName (ts ++ [is])) cs rhs true = .ok (showName (ts ++ [is ++ [t]])) := by
  unfold cgsIneq
  rw [if_neg hc, ht]
  simp only [Res.bind]
  rw [← showName_more ts is t his]
  unfold cgsOpen
  rw [if_neg (by rw [showName_eq_nil]; simp)]
  simp [List.append_assoc]

/-! ## Numbers -/

theorem truncInt_int (n : ℤ) (h1 : -(2 ^ 31) ≤ n) (h2 : n < 2 ^ 31) : truncInt (n : ℚ) = .ok n := by
  have e : (if (0 : ℚ) ≤ (n : ℚ) then ⌊(n : ℚ)⌋ else ⌈(n : ℚ)⌉) = n := by
    split
    · exact Int.floor_intCast n
    · exact Int.ceil_intCast n
  unfold truncInt
  rw [e, if_pos ⟨h1, h2⟩]

theorem numText_int (fmt : ℚ → List Char) (n : ℤ) (h1 : -(2 ^ 31) ≤ n) (h2 : n < 2 ^ 31) :
    numText fmt (n : ℚ) = .ok (intStr n) := by
  have e : nearInt (n : ℚ) = true := by
    unfold nearInt
    rw [Int.floor_intCast]
    simp [defEps]
  unfold numText
  rw [if_pos e, truncInt_int n h1 h2]
  rfl

/-- A positive number just below an integer is written as the integer below that: the value is
truncated, not rounded. -/
theorem numText_below (fmt : ℚ → List Char) (n : ℤ) (d : ℚ) (hn : 1 ≤ n) (hn2 : n ≤ 2 ^ 31)
    (hd : 0 < d) (hd2 : d < defEps) : numText fmt ((n : ℚ) - d) = .ok (intStr (n - 1)) := by
  have hd1 : d < 1 := lt_of_lt_of_le hd2 (by norm_num [defEps])
  have hc : ⌈(n : ℚ) - d⌉ = n := by
    rw [Int.ceil_eq_iff]; constructor <;> linarith
  have hf : ⌊(n : ℚ) - d⌋ = n - 1 := by
    rw [Int.floor_eq_iff]; push_cast; constructor <;> linarith
  have hq : (1 : ℚ) ≤ (n : ℚ) := by exact_mod_cast hn
  have e : nearInt ((n : ℚ) - d) = true := by
    unfold nearInt
    rw [hc, Bool.or_eq_true]
    right
    rw [decide_eq_true_eq, abs_sub_comm]
    rw [show (n : ℚ) - (n - d) = d by ring, abs_of_pos hd]; exact hd2
  unfold numText
  rw [if_pos e]
  unfold truncInt
  rw [if_pos (show (0 : ℚ) ≤ (n : ℚ) - d by linarith), hf, if_pos (by omega)]
  rfl

/-- Writing the number 3 - 1e-8 as a coefficient or right-hand side gives `2`. -/
example (fmt : ℚ → List Char) : numText fmt (3 - 1 / 10 ^ 8) = .ok ['2'] :=
  numText_below fmt 3 (1 / 10 ^ 8) (by norm_num) (by norm_num) (by norm_num) (by norm_num [defEps])

/-- Numbers that look integral but do not fit an `int` are undefined behaviour. -/
theorem numText_big (fmt : ℚ → List Char) (n : ℤ) (h : 2 ^ 31 ≤ n ∨ n < -(2 ^ 31)) :
    numText fmt (n : ℚ) = .undef := by
  have e : nearInt (n : ℚ) = true := by
    unfold nearInt
    rw [Int.floor_intCast]
    simp [defEps]
  have e2 : (if (0 : ℚ) ≤ (n : ℚ) then ⌊(n : ℚ)⌋ else ⌈(n : ℚ)⌉) = n := by
    split
    · exact Int.floor_intCast n
    · exact Int.ceil_intCast n
  unfold numText
  rw [if_pos e]
  unfold truncInt
  rw [e2, if_neg (by omega)]
  rfl

/-! ## Bounds -/

/-- A bound with an integer value that fits an `int`. -/
def NBound.Int32 (b : NBound) (n : ℤ) : Prop := b.value = n ∧ |n| < 2 ^ 31

/-- The text of a bound. -/
def bText (b : NBound) (n : ℤ) : List Char :=
  (if b.lower then "+x".toList else "-x".toList) ++ natStr b.var ++ " >= ".toList ++
    intStr (if b.lower then n else -n)

theorem ineqText_bound (fmt : ℚ → List Char) (b : NBound) (n : ℤ) (h : b.Int32 n) :
    ineqText fmt b.row.1 b.row.2 = .ok (bText b n) := by
  obtain ⟨hv, hn⟩ := h
  rw [abs_lt] at hn
  obtain ⟨lo, v, q⟩ := b
  dsimp only at hv
  subst hv
  cases lo with
  | true =>
    have e1 : factorText fmt (1 : ℚ) = .ok [] := by
      unfold factorText; rw [if_pos (by norm_num [defEps])]
    have e2 : summandText fmt (v, (1 : ℚ)) = .ok ("+x".toList ++ natStr v) := by
      unfold summandText; rw [e1]; simp [Res.bind]
    have e3 := numText_int fmt n (by omega) (by omega)
    simp [ineqText, NBound.row, sumText, e2, Res.bind, e3, bText]
  | false =>
    have e1 : factorText fmt (-1 : ℚ) = .ok [] := by
      unfold factorText; rw [if_pos (by norm_num [defEps])]
    have e2 : summandText fmt (v, (-1 : ℚ)) = .ok ("-x".toList ++ natStr v) := by
      unfold summandText
      rw [e1]
      simp only [Res.bind]
      rw [if_neg (by norm_num)]
      simp
    have e3 := numText_int fmt (-n) (by omega) (by omega)
    push_cast at e3
    simp [ineqText, NBound.row, sumText, e2, Res.bind, e3, bText]

theorem row_ne_nil (b : NBound) : b.row.1 ≠ [] := by simp [NBound.row]

/-! ## Splits -/

/-- A split on variable `v` with value `q` gets the terms `x_v <= floor(q)` and `x_v >= ceil(q)`
added to its name. -/
theorem splitName_spec (ts : List (List (List Char))) (v : ℤ) (q : ℚ) (hv : 0 ≤ v)
    (h1 : -(2 ^ 31) ≤ ⌊q⌋) (h2 : ⌈q⌉ < 2 ^ 31) :
    splitName (showName ts) v q = .ok (showName (ts ++
      [["x".toList ++ intStr v ++ " <= ".toList ++ intStr ⌊q⌋],
       ["x".toList ++ intStr v ++ " >= ".toList ++ intStr ⌈q⌉]])) := by
  have hfc : ⌊q⌋ ≤ ⌈q⌉ := Int.floor_le_ceil q
  unfold splitName
  rw [if_neg (by omega), truncInt_int _ h1 (by omega), truncInt_int _ (by omega) h2]
  simp only [Res.bind]
  rw [cgsTerm_spec _ _ (by simp), cgsTerm_spec _ _ (by simp)]
  simp

example : splitName [] 3 (5 / 2) = .ok "(x3 <= 2) V (x3 >= 3)".toList := by decide +kernel

/-! ## Reading back -/

theorem readDigits_natStr (n : ℕ) : readDigits (natStr n) = some n := by
  unfold readDigits natStr
  rw [if_pos, Nat.ofDigitChars_ten_toDigits]
  refine ⟨Nat.toDigits_ne_nil, ?_⟩
  rw [List.all_eq_true]
  exact fun c hc => Nat.isDigit_of_mem_toDigits (by decide) (by decide) hc

theorem natStr_isDigit {n : ℕ} {c : Char} (h : c ∈ natStr n) : c.isDigit = true :=
  Nat.isDigit_of_mem_toDigits (by decide) (by decide) h

theorem intStr_chars {n : ℤ} {c : Char} (h : c ∈ intStr n) : c = '-' ∨ c.isDigit = true := by
  unfold intStr at h
  split at h
  · rcases List.mem_cons.mp h with h | h
    · exact Or.inl h
    · exact Or.inr (natStr_isDigit h)
  · exact Or.inr (natStr_isDigit h)

theorem readNumber_intStr (n : ℤ) : readNumber (intStr n) = some n := by
  unfold intStr
  split
  · rename_i h
    show (readDigits (natStr n.natAbs)).map (fun m => -(m : ℤ)) = some n
    rw [readDigits_natStr]
    show some (-(n.natAbs : ℤ)) = some n
    congr 1
    omega
  · rename_i h
    cases hs : natStr n.natAbs with
    | nil => exact absurd hs Nat.toDigits_ne_nil
    | cons c cs =>
      have hd : c.isDigit = true := natStr_isDigit (n := n.natAbs) (by rw [hs]; simp)
      have hne : c ≠ '-' := by rintro rfl; exact absurd hd (by decide)
      have : readNumber (c :: cs) = (readDigits (c :: cs)).map fun n => (n : ℤ) := by
        unfold readNumber
        split
        · rename_i heq; injection heq with h1 _; exact absurd h1 hne
        · rfl
      rw [this, ← hs, readDigits_natStr]
      show some (n.natAbs : ℤ) = some n
      congr 1
      omega

/-- The characters that the reader drops. -/
def keepChar (c : Char) : Bool := c ≠ ' ' ∧ c ≠ '(' ∧ c ≠ ')'

/-- The text of a bound without blanks. -/
def bClean (b : NBound) (n : ℤ) : List Char :=
  (if b.lower then ['+', 'x'] else ['-', 'x']) ++ natStr b.var ++ ['>', '='] ++
    intStr (if b.lower then n else -n)

theorem filter_digits (s : List Char) (h : ∀ c ∈ s, c = '-' ∨ c.isDigit = true) :
    s.filter keepChar = s := by
  rw [List.filter_eq_self]
  intro c hc
  rcases h c hc with rfl | hd
  · decide
  · unfold keepChar
    rw [decide_eq_true_eq]
    refine ⟨?_, ?_, ?_⟩ <;> rintro rfl <;> exact absurd hd (by decide)

theorem filter_bText (b : NBound) (n : ℤ) : (bText b n).filter keepChar = bClean b n := by
  unfold bText bClean
  rw [List.filter_append, List.filter_append, List.filter_append,
    filter_digits (natStr b.var) fun c hc => Or.inr (natStr_isDigit hc),
    filter_digits (intStr _) fun c hc => intStr_chars hc]
  cases b.lower <;> rfl

theorem span_digits (s t : List Char) (h : ∀ c ∈ s, c.isDigit = true) :
    (s ++ '>' :: t).span Char.isDigit = (s, '>' :: t) := by
  rw [List.span_eq_takeWhile_dropWhile]
  induction s with
  | nil => simp
  | cons c cs ih =>
    have hc := h c (by simp)
    have := ih fun d hd => h d (by simp [hd])
    simp only [Prod.mk.injEq] at this ⊢
    simp [hc, this.1, this.2]

theorem readBound_bClean (b : NBound) (n : ℤ) :
    readBound (bClean b n) = some (b.lower, b.var, n) := by
  unfold bClean
  cases hl : b.lower with
  | true =>
    have := span_digits (natStr b.var) ('=' :: intStr n) fun c hc => natStr_isDigit hc
    simp only [if_true, List.cons_append, List.nil_append, List.append_assoc, readBound]
    rw [this]
    simp [readDigits_natStr, readNumber_intStr]
  | false =>
    have := span_digits (natStr b.var) ('=' :: intStr (-n)) fun c hc => natStr_isDigit hc
    simp only [if_false, Bool.false_eq_true, List.cons_append, List.nil_append, List.append_assoc,
      readBound]
    rw [this]
    simp [readDigits_natStr, readNumber_intStr]

theorem filter_intercalate {α : Type} (p : α → Bool) (sep : List α) (ls : List (List α)) :
    (sep.intercalate ls).filter p = (sep.filter p).intercalate (ls.map (List.filter p)) := by
  induction ls with
  | nil => simp
  | cons a as ih =>
    cases as with
    | nil => simp
    | cons b bs =>
      rw [List.intercalate_cons_cons, List.filter_append, List.filter_append, ih]
      simp only [List.map_cons]
      rw [List.intercalate_cons_cons]

theorem filter_showName (ts : List (List (List Char))) :
    (showName ts).filter keepChar =
      ['V'].intercalate (ts.map fun is => [';'].intercalate (is.map (List.filter keepChar))) := by
  have e1 : (" V ".toList).filter keepChar = ['V'] := by decide
  have e2 : ("; ".toList).filter keepChar = [';'] := by decide
  have e3 : ("(".toList).filter keepChar = [] := by decide
  have e4 : (")".toList).filter keepChar = [] := by decide
  unfold showName
  rw [filter_intercalate, e1, List.map_map]
  congr 1
  apply List.map_congr_left
  intro is _
  simp only [Function.comp_apply, showTerm, List.filter_append, e3, e4, filter_intercalate, e2]
  simp

theorem mem_intercalate {α : Type} {sep : List α} {ls : List (List α)} {c : α}
    (h : c ∈ sep.intercalate ls) : c ∈ sep ∨ ∃ l ∈ ls, c ∈ l := by
  induction ls with
  | nil => simp at h
  | cons a as ih =>
    cases as with
    | nil => exact Or.inr ⟨a, by simp, by simpa using h⟩
    | cons b bs =>
      rw [List.intercalate_cons_cons] at h
      rcases List.mem_append.mp h with h | h
      · rcases List.mem_append.mp h with h | h
        · exact Or.inr ⟨a, by simp, h⟩
        · exact Or.inl h
      · rcases ih h with h | ⟨l, hl, hc⟩
        · exact Or.inl h
        · exact Or.inr ⟨l, by simp only [List.mem_cons] at hl ⊢; exact Or.inr hl, hc⟩

theorem mapM_map_some {α β γ : Type} (f : β → Option γ) (g : α → β) (h : α → γ) (l : List α)
    (H : ∀ a ∈ l, f (g a) = some (h a)) : (l.map g).mapM f = some (l.map h) := by
  induction l with
  | nil => rfl
  | cons a as ih =>
    rw [List.map_cons, List.mapM_cons, H a (by simp), ih fun b hb => H b (by simp [hb])]
    rfl

theorem mapM_length {α β : Type} (f : α → Option β) :
    ∀ (l : List α) (r : List β), l.mapM f = some r → r.length = l.length := by
  intro l
  induction l with
  | nil => intro r h; simp at h; subst h; rfl
  | cons a as ih =>
    intro r h
    rw [List.mapM_cons] at h
    cases ha : f a with
    | none => rw [ha] at h; simp at h
    | some b =>
      rw [ha] at h
      cases hb : as.mapM f with
      | none => rw [hb] at h; simp at h
      | some bs =>
        rw [hb] at h
        simp at h
        subst h
        simp [ih bs hb]

theorem splitOn_length (c : Char) (s : List Char) : (s.splitOn c).length = s.count c + 1 := by
  induction s with
  | nil => simp
  | cons a as ih =>
    rw [List.splitOn_cons_eq_if_modifyHead, List.count_cons]
    split <;> rename_i h
    · simp [ih, h]
    · simp [ih, h]

/-! ## Names of tree disjunctions -/

/-- A bound whose value is an integer that fits an `int`. -/
def NBound.Ok (b : NBound) : Prop := b.value = ⌊b.value⌋ ∧ |⌊b.value⌋| < 2 ^ 31

instance (b : NBound) : Decidable b.Ok := inferInstanceAs (Decidable (_ ∧ _))

/-- What a bound says: lower or upper, variable, value. -/
def NBound.says (b : NBound) : Bool × ℕ × ℤ := (b.lower, b.var, ⌊b.value⌋)

/-- What a term of the tree says: its branching bound and the bounds changed on the way to it. -/
def termSays (t : NBound × List NBound) : NTerm := .bounds ((t.1 :: t.2).map NBound.says)

/-- What the disjunction says: the integer solution, if one was found, and the terms. -/
def treeSays (intSol : Bool) (ts : List (NBound × List NBound)) : List NTerm :=
  (if intSol then [.sol] else []) ++ ts.map termSays

/-- The entries of the name, for the proofs. -/
def NBound.text (b : NBound) : List Char := bText b ⌊b.value⌋

theorem bText_noV (b : NBound) (n : ℤ) : 'V' ∉ bText b n := by
  unfold bText
  intro h
  simp only [List.mem_append] at h
  rcases h with ((h | h) | h) | h
  · cases hl : b.lower <;> rw [hl] at h <;> revert h <;> decide
  · exact absurd (natStr_isDigit h) (by decide)
  · revert h; decide
  · rcases intStr_chars h with h | h
    · exact absurd h (by decide)
    · exact absurd h (by decide)

theorem bClean_chars (b : NBound) (n : ℤ) (c : Char) (h : c ∈ bClean b n) :
    c = '+' ∨ c = '-' ∨ c = 'x' ∨ c = '>' ∨ c = '=' ∨ c.isDigit = true := by
  unfold bClean at h
  simp only [List.mem_append] at h
  rcases h with ((h | h) | h) | h
  · cases hl : b.lower <;> rw [hl] at h <;> simp at h <;> tauto
  · exact Or.inr (Or.inr (Or.inr (Or.inr (Or.inr (natStr_isDigit h)))))
  · simp at h; tauto
  · rcases intStr_chars h with h | h <;> tauto

theorem readTerm_bounds (bs : List NBound) (h : bs ≠ []) :
    readTerm ([';'].intercalate (bs.map fun b => bClean b ⌊b.value⌋)) =
      some (.bounds (bs.map NBound.says)) := by
  have hne : [';'].intercalate (bs.map fun b => bClean b ⌊b.value⌋) ≠ "feasSol0".toList := by
    intro e
    have hf : 'f' ∈ [';'].intercalate (bs.map fun b => bClean b ⌊b.value⌋) := by
      rw [e]; decide
    rcases mem_intercalate hf with h | ⟨l, hl, hc⟩
    · revert h; decide
    · obtain ⟨b, _, rfl⟩ := List.mem_map.mp hl
      rcases bClean_chars b _ _ hc with h | h | h | h | h | h <;> revert h <;> decide
  unfold readTerm
  rw [if_neg hne, List.splitOn_intercalate]
  · rw [mapM_map_some readBound _ NBound.says bs fun b _ => readBound_bClean b _]
    rfl
  · intro l hl hc
    obtain ⟨b, _, rfl⟩ := List.mem_map.mp hl
    rcases bClean_chars b _ _ hc with h | h | h | h | h | h <;> revert h <;> decide
  · simpa using h

/-- Entries of the name of a tree: the solution, if any, and one group per term. -/
def groups (intSol : Bool) (ts : List (NBound × List NBound)) : List (List (List Char)) :=
  (if intSol then [["feasSol0".toList]] else []) ++ ts.map fun t => (t.1 :: t.2).map NBound.text

/-- Reading a name of the right form gives what the disjunction says. -/
theorem readName_groups (intSol : Bool) (ts : List (NBound × List NBound)) :
    readName (showName (groups intSol ts)) = some (treeSays intSol ts) := by
  unfold readName
  by_cases h0 : groups intSol ts = []
  · rw [h0, if_pos (by simp [showName])]
    cases intSol with
    | true => simp [groups] at h0
    | false =>
      cases ts with
      | nil => rfl
      | cons t ts => simp [groups] at h0
  · rw [if_neg (by rw [showName_eq_nil]; exact h0)]
    have e := filter_showName (groups intSol ts)
    have ek : (fun c : Char => decide (c ≠ ' ' ∧ c ≠ '(' ∧ c ≠ ')')) = keepChar := by
      funext c; rfl
    rw [ek, e, List.splitOn_intercalate]
    · have hterm : ∀ t ∈ ts, readTerm ([';'].intercalate
          (((t.1 :: t.2).map NBound.text).map (List.filter keepChar))) = some (termSays t) := by
        intro t _
        have : ((t.1 :: t.2).map NBound.text).map (List.filter keepChar) =
            (t.1 :: t.2).map fun b => bClean b ⌊b.value⌋ := by
          rw [List.map_map]
          apply List.map_congr_left
          intro b _
          exact filter_bText b _
        rw [this]
        exact readTerm_bounds (t.1 :: t.2) (by simp)
      cases intSol with
      | false =>
        simp only [groups, treeSays, Bool.false_eq_true, if_false, List.nil_append, List.map_map]
        exact mapM_map_some readTerm _ termSays ts hterm
      | true =>
        simp only [groups, treeSays, if_true, List.map_append, List.map_cons, List.map_nil,
          List.cons_append, List.nil_append, List.map_map, List.mapM_cons]
        have hs : readTerm ([';'].intercalate [("feasSol0".toList).filter keepChar])
            = some .sol := by decide
        rw [hs]
        have := mapM_map_some readTerm _ termSays ts hterm
        simp only [Function.comp_def, List.map_cons] at this ⊢
        rw [this]
        rfl
    · intro l hl hc
      obtain ⟨is, his, rfl⟩ := List.mem_map.mp hl
      rcases mem_intercalate hc with h | ⟨l, hl, hc⟩
      · revert h; decide
      · obtain ⟨t, ht, rfl⟩ := List.mem_map.mp hl
        have hc := (List.mem_filter.mp hc).1
        unfold groups at his
        rcases List.mem_append.mp his with h | h
        · cases intSol with
          | true =>
            simp only [if_true, List.mem_singleton] at h
            subst h
            simp only [List.mem_singleton] at ht
            subst ht
            revert hc; decide
          | false => simp at h
        · obtain ⟨u, _, rfl⟩ := List.mem_map.mp h
          obtain ⟨b, _, rfl⟩ := List.mem_map.mp ht
          exact bText_noV b _ hc
    · simpa using h0

/-- Without bounds changed on the way, every term gets its group. -/
theorem termNames_shallow (fmt : ℚ → List Char) (ts : List (NBound × List NBound)) :
    ∀ gs : List (List (List Char)),
    (∀ t ∈ ts, t.1.Ok ∧ t.2 = []) →
    termNames fmt ts (showName gs) =
      .ok (showName (gs ++ ts.map fun t => (t.1 :: t.2).map NBound.text)) := by
  induction ts with
  | nil => intro gs _; simp [termNames]
  | cons t ts ih =>
    intro gs h
    obtain ⟨hok, hp⟩ := h t (by simp)
    have e : termName fmt (showName gs) t.1 t.2 = .ok (showName (gs ++ [[t.1.text]])) := by
      unfold termName
      rw [cgsIneq_new fmt gs _ _ t.1.text (row_ne_nil _) (ineqText_bound fmt _ _ hok)]
      simp only [Res.bind, hp, List.length_nil]
      rfl
    rw [termNames, e]
    simp only [Res.bind]
    rw [ih _ fun u hu => h u (by simp [hu])]
    simp [hp]

/-- C116, part that holds: if no bounds were changed on the way to the terms (every term is a child
of the root), the name of the tree disjunction can be read back: it says the integer solution, if
one was found, and exactly the terms, in order. The full claim, for terms at any depth, is false, see
`tree_name_wrong`. -/
theorem tree_name_reads_partial (fmt : ℚ → List Char) (intSol : Bool)
    (ts : List (NBound × List NBound)) (h : ∀ t ∈ ts, t.1.Ok ∧ t.2 = []) :
    ∃ s, treeName fmt intSol ts = .ok s ∧ readName s = some (treeSays intSol ts) := by
  refine ⟨showName (groups intSol ts), ?_, readName_groups intSol ts⟩
  unfold treeName groups
  rw [← termNames_shallow fmt ts _ h]
  cases intSol <;> simp [showName, cgsTerm, showTerm]

/-- The two children of a root. -/
def rootTerms : List (NBound × List NBound) := [(⟨false, 3, 4⟩, []), (⟨true, 3, 5⟩, [])]

example : (∀ t ∈ rootTerms, NBound.Ok t.1 ∧ t.2 = []) ∧ treeName (fun _ => []) true rootTerms =
      .ok "(feasSol0) V (-x3 >= -4) V (+x3 >= 5)".toList := by decide +kernel

/-! ## Deeper terms -/

theorem bText_countV (b : NBound) (n : ℤ) : (bText b n).count 'V' = 0 :=
  List.count_eq_zero.mpr (bText_noV b n)

theorem cgs_new_count (fmt : ℚ → List Char) (s : List Char) (b : NBound) (h : b.Ok) :
    ∃ u, cgsIneq fmt s b.row.1 b.row.2 false = .ok (u ++ [')']) ∧
      (u ++ [')']).count 'V' = s.count 'V' + (if s = [] then 0 else 1) := by
  unfold cgsIneq
  rw [if_neg (row_ne_nil b), ineqText_bound fmt b _ h]
  refine ⟨cgsOpen s false ++ bText b ⌊b.value⌋, rfl, ?_⟩
  unfold cgsOpen
  have e1 : (" V ".toList).count 'V' = 1 := by decide
  have e2 : ("(".toList).count 'V' = 0 := by decide
  by_cases hs : s = []
  · subst hs
    simp only [if_true, Bool.false_eq_true, if_false, List.count_append, bText_countV, e2]
    rfl
  · simp only [if_neg hs, Bool.false_eq_true, if_false, List.count_append, bText_countV, e1, e2]
    rfl

theorem cgs_more_count (fmt : ℚ → List Char) (u : List Char) (b : NBound) (h : b.Ok) :
    ∃ v, cgsIneq fmt (u ++ [')']) b.row.1 b.row.2 true = .ok (v ++ [')']) ∧
      (v ++ [')']).count 'V' = (u ++ [')']).count 'V' := by
  unfold cgsIneq
  rw [if_neg (row_ne_nil b), ineqText_bound fmt b _ h]
  refine ⟨cgsOpen (u ++ [')']) true ++ bText b ⌊b.value⌋, rfl, ?_⟩
  unfold cgsOpen
  have e1 : ("; ".toList).count 'V' = 0 := by decide
  rw [if_neg (by simp), List.dropLast_concat]
  simp only [if_true, List.count_append, bText_countV, e1, List.append_nil]
  rfl

theorem cgsLoop_count (fmt : ℚ → List Char) (bs : List NBound) : ∀ u : List Char,
    (∀ b ∈ bs, b.Ok) →
    ∃ v, cgsLoop fmt true (bs.map NBound.row) (u ++ [')']) = .ok (v ++ [')']) ∧
      (v ++ [')']).count 'V' = (u ++ [')']).count 'V' := by
  induction bs with
  | nil => intro u _; exact ⟨u, rfl, rfl⟩
  | cons b bs ih =>
    intro u h
    obtain ⟨v, hv, hc⟩ := cgs_more_count fmt u b (h b (by simp))
    obtain ⟨w, hw, hd⟩ := ih v fun c hc => h c (by simp [hc])
    refine ⟨w, ?_, by rw [hd, hc]⟩
    rw [List.map_cons, cgsLoop, hv]
    exact hw

/-- Each term adds one `V` to a name that is not empty, and a term with bounds changed on the way to
it adds another one. -/
theorem termName_count (fmt : ℚ → List Char) (s : List Char) (br : NBound) (ps : List NBound)
    (hb : br.Ok) (hp : ∀ b ∈ ps, b.Ok) :
    ∃ u, termName fmt s br ps = .ok (u ++ [')']) ∧
      (u ++ [')']).count 'V' =
        s.count 'V' + (if s = [] then 0 else 1) + (if ps = [] then 0 else 1) := by
  obtain ⟨u, hu, hc⟩ := cgs_new_count fmt s br hb
  unfold termName
  rw [hu]
  simp only [Res.bind]
  cases ps with
  | nil => exact ⟨u, by simp, by rw [hc]; simp⟩
  | cons p ps =>
    rw [if_pos (by simp)]
    unfold cgsIneqs
    rw [if_neg (by simp)]
    have ho : cgsOpen (u ++ [')']) true = u ++ [';', ' '] := by
      unfold cgsOpen
      rw [if_neg (by simp), List.dropLast_concat]
      simp
    rw [ho, List.map_cons, cgsLoop]
    obtain ⟨v, hv, hd⟩ := cgs_new_count fmt (u ++ [';', ' ']) p (hp p (by simp))
    rw [hv]
    simp only [Res.bind]
    obtain ⟨w, hw, he⟩ := cgsLoop_count fmt ps v fun c hc => hp c (by simp [hc])
    rw [hw]
    refine ⟨w ++ [')'], by simp, ?_⟩
    have e1 : ([';', ' '] : List Char).count 'V' = 0 := by decide
    have e2 : ([')'] : List Char).count 'V' = 0 := by decide
    rw [if_neg (by simp)] at hd
    rw [List.count_append, he, hd, if_neg (show ¬(p :: ps = []) by simp)]
    rw [List.count_append] at hc ⊢
    omega

/-- The number of `V`s in the name after the terms `ts`, for a name that ends with `)`. -/
theorem termNames_count (fmt : ℚ → List Char) (ts : List (NBound × List NBound)) :
    ∀ u : List Char, (∀ t ∈ ts, t.1.Ok ∧ ∀ b ∈ t.2, b.Ok) →
    ∃ v, termNames fmt ts (u ++ [')']) = .ok (v ++ [')']) ∧
      (v ++ [')']).count 'V' =
        (u ++ [')']).count 'V' + ts.length + ts.countP fun t => decide (t.2 ≠ []) := by
  induction ts with
  | nil => intro u _; exact ⟨u, rfl, by simp⟩
  | cons t ts ih =>
    intro u h
    obtain ⟨h1, h2⟩ := h t (by simp)
    obtain ⟨v, hv, hc⟩ := termName_count fmt (u ++ [')']) t.1 t.2 h1 h2
    obtain ⟨w, hw, hd⟩ := ih v fun c hc => h c (by simp [hc])
    refine ⟨w, ?_, ?_⟩
    · rw [termNames, hv]; exact hw
    · rw [hd, hc, if_neg (by simp), List.countP_cons, List.length_cons]
      by_cases e : t.2 = []
      · simp [e]; omega
      · simp [e]; omega

/-- The number of `V`s in the name of a tree: one less than the number of entries, plus one for
every term that is not a child of the root. -/
theorem treeName_count (fmt : ℚ → List Char) (intSol : Bool) (ts : List (NBound × List NBound))
    (h : ∀ t ∈ ts, t.1.Ok ∧ ∀ b ∈ t.2, b.Ok) (hne : ts ≠ []) :
    ∃ s, treeName fmt intSol ts = .ok s ∧
      s.count 'V' + 1 = (treeSays intSol ts).length + ts.countP fun t => decide (t.2 ≠ []) := by
  cases intSol with
  | true =>
    obtain ⟨v, hv, hc⟩ := termNames_count fmt ts "(feasSol0".toList h
    refine ⟨v ++ [')'], ?_, ?_⟩
    · rw [← hv]
      show termNames fmt ts (cgsTerm [] "feasSol0".toList) = _
      congr 1
    · have e : ("(feasSol0".toList ++ [')']).count 'V' = 0 := by decide
      rw [hc, e]
      simp only [treeSays, if_true, List.length_append, List.length_cons, List.length_nil,
        List.length_map]
      omega
  | false =>
    cases ts with
    | nil => exact absurd rfl hne
    | cons t ts =>
      obtain ⟨h1, h2⟩ := h t (by simp)
      obtain ⟨v, hv, hc⟩ := termName_count fmt [] t.1 t.2 h1 h2
      obtain ⟨w, hw, hd⟩ := termNames_count fmt ts v fun c hc => h c (by simp [hc])
      refine ⟨w ++ [')'], ?_, ?_⟩
      · show (termName fmt [] t.1 t.2).bind _ = _
        rw [hv]
        exact hw
      · rw [hd, hc, if_pos rfl, List.countP_cons]
        simp only [treeSays, Bool.false_eq_true, if_false, List.nil_append, List.length_map,
          List.length_cons]
        by_cases e : t.2 = []
        · simp [e]; omega
        · simp [e]; omega

/-- A name that can be read has one `V` less than terms. -/
theorem readName_countV (s : List Char) (l : List NTerm) (h : readName s = some l) (hs : s ≠ []) :
    l.length = s.count 'V' + 1 := by
  unfold readName at h
  rw [if_neg hs] at h
  rw [mapM_length _ _ _ h, splitOn_length]
  congr 1
  rw [List.count_filter]
  decide

/-- C116 is false for deeper trees: as soon as one term is not a child of the root, the name of the
disjunction cannot be read as its terms, whatever the tree. -/
theorem tree_name_wrong (fmt : ℚ → List Char) (intSol : Bool) (ts : List (NBound × List NBound))
    (h : ∀ t ∈ ts, t.1.Ok ∧ ∀ b ∈ t.2, b.Ok) (hd : ∃ t ∈ ts, t.2 ≠ []) :
    ∃ s, treeName fmt intSol ts = .ok s ∧ readName s ≠ some (treeSays intSol ts) := by
  obtain ⟨t, ht, hne⟩ := hd
  have hts : ts ≠ [] := by rintro rfl; simp at ht
  obtain ⟨s, hs, hc⟩ := treeName_count fmt intSol ts h hts
  refine ⟨s, hs, fun hr => ?_⟩
  have hpos : 0 < ts.countP fun t => decide (t.2 ≠ []) :=
    List.countP_pos_iff.mpr ⟨t, ht, by simpa using hne⟩
  by_cases hs0 : s = []
  · subst hs0
    have : treeSays intSol ts = [] := by
      have e : readName [] = some [] := rfl
      rw [e] at hr
      exact (Option.some.inj hr).symm
    cases ts with
    | nil => simp at ht
    | cons a as => cases intSol <;> simp [treeSays] at this
  · have := readName_countV s _ hr hs0
    omega

/-- The name of a tree with two leaves at depth two. -/
def deepTerms : List (NBound × List NBound) :=
  [(⟨false, 1, 0⟩, [⟨false, 3, 4⟩]), (⟨true, 1, 1⟩, [⟨false, 3, 4⟩]), (⟨true, 3, 5⟩, [])]

example : (∀ t ∈ deepTerms, t.1.Ok ∧ ∀ b ∈ t.2, b.Ok) ∧ (∃ t ∈ deepTerms, t.2 ≠ []) := by
  decide +kernel

example : treeName (fun _ => []) false deepTerms = .ok
    "(-x1 >= 0;  V (-x3 >= -4)) V (+x1 >= 1;  V (-x3 >= -4)) V (+x3 >= 5)".toList := by
  decide +kernel

/-- The name that would say it. -/
example : readName "(-x1 >= 0; -x3 >= -4) V (+x1 >= 1; -x3 >= -4) V (+x3 >= 5)".toList =
    some (treeSays false deepTerms) := by decide +kernel

/-- Printing the changed bounds of a term with an empty name gives a stray `V`, whatever they are. -/
theorem cgsIneqs_empty (fmt : ℚ → List Char) (b : NBound) (bs : List NBound)
    (hb : b.Ok) (hbs : ∀ c ∈ bs, c.Ok) :
    ∃ s, cgsIneqs fmt [] ((b :: bs).map NBound.row) false = .ok s ∧ s.count 'V' = 1 := by
  obtain ⟨v, hv, hc⟩ := cgs_new_count fmt ['('] b hb
  obtain ⟨w, hw, hd⟩ := cgsLoop_count fmt bs v hbs
  refine ⟨w ++ [')'] ++ [')'], ?_, ?_⟩
  · unfold cgsIneqs
    rw [if_neg (by simp), List.map_cons, cgsLoop]
    show ((cgsIneq fmt ['('] b.row.1 b.row.2 false).bind _).bind _ = _
    rw [hv]
    show (cgsLoop fmt true (bs.map NBound.row) (v ++ [')'])).bind _ = _
    rw [hw]
    rfl
  · rw [List.count_append, hd, hc]; decide

example : cgsIneqs (fun _ => []) [] ([⟨true, 0, 1⟩, ⟨false, 2, 3⟩].map NBound.row) false =
    .ok "( V (+x0 >= 1; -x2 >= -3))".toList := by decide +kernel

end VPC
