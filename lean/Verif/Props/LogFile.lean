import Verif.Model.LogFile
import Verif.Props.LogGap

/-!
# The log file over several runs
-/
namespace VPC

/-- The lines of a file. -/
def fileLines (f : List Char) : List (List Char) := f.splitOn '\n'

/-- The run opened the log. -/
def LogRun.opened (r : LogRun) : Bool := match r.fate with | .early => false | _ => true

/-- The run ended its line: it completed, or wrote a one-line message that ends with a newline. -/
def LogRun.Closed (r : LogRun) : Prop :=
  '\n' ∉ r.line ∧ match r.fate with
  | .early => True
  | .done => True
  | .error _ msg => ∃ m, msg = m ++ ['\n'] ∧ '\n' ∉ m
  | .cut _ => False

/-- What a run that closed its line left: its whole line, or the part before the message and the
message. -/
def LogRun.left (r : LogRun) : List Char :=
  match r.fate with
  | .error k msg => r.line.take k ++ "||,".toList ++ msg.dropLast
  | _ => r.line

theorem appendRun_closed {r : LogRun} (hr : r.Closed) (ho : r.opened = true) (f : Option (List Char)) :
    appendRun f r = some (f.getD [] ++ (if f.isNone then r.header else []) ++ (r.left ++ ['\n']))
    ∧ '\n' ∉ r.left := by
  obtain ⟨h1, h2⟩ := hr
  unfold appendRun LogRun.left
  unfold LogRun.opened at ho
  cases he : r.fate with
  | early => rw [he] at ho; cases ho
  | done => exact ⟨by simp, h1⟩
  | cut k => rw [he] at h2; exact h2.elim
  | error k msg =>
    rw [he] at h2
    obtain ⟨m, rfl, hm⟩ := h2
    refine ⟨by simp, ?_⟩
    simp only [List.dropLast_concat, List.mem_append, not_or]
    exact ⟨⟨fun h => h1 (List.mem_of_mem_take h), by decide⟩, hm⟩

theorem appendRun_early {r : LogRun} (ho : r.opened = false) (f : Option (List Char)) : appendRun f r = f := by
  unfold LogRun.opened at ho
  unfold appendRun
  cases he : r.fate with
  | early => rfl
  | done => rw [he] at ho; cases ho
  | cut k => rw [he] at ho; cases ho
  | error k msg => rw [he] at ho; cases ho

theorem history_existing : ∀ (rs : List LogRun) (f : List Char), (∀ r ∈ rs, r.Closed) →
    logHistory (some f) rs = some (f ++ (rs.filter LogRun.opened).flatMap fun r => r.left ++ ['\n'])
  | [], f, _ => by simp [logHistory]
  | r :: rs, f, h => by
    have ih := fun f => history_existing rs f fun x hx => h x (List.mem_cons_of_mem _ hx)
    unfold logHistory at ih ⊢
    rw [List.foldl_cons]
    cases ho : r.opened with
    | false => rw [appendRun_early ho, ih, List.filter_cons_of_neg (by simp [ho])]
    | true =>
      rw [(appendRun_closed (h r List.mem_cons_self) ho _).1, ih, List.filter_cons_of_pos ho]
      simp

theorem lines_flat : ∀ (ls : List (List Char)), (∀ l ∈ ls, '\n' ∉ l) →
    fileLines (ls.flatMap fun l => l ++ ['\n']) = ls ++ [[]]
  | [], _ => by simp [fileLines]
  | l :: ls, h => by
    have ih := lines_flat ls fun x hx => h x (List.mem_cons_of_mem _ hx)
    unfold fileLines at ih ⊢
    rw [List.flatMap_cons, List.append_assoc, List.singleton_append,
      List.splitOn_append_cons_self_of_not_mem (h l List.mem_cons_self), ih]
    rfl

/-- The first run that opens the log. -/
def firstOpened (rs : List LogRun) : Option LogRun := rs.find? LogRun.opened

/-- **One line per run.** Whatever the runs are, as long as each of them ends its line: the log consists
of the header of the first run that opens it, then one line per run, in order. -/
theorem log_history_partial (rs : List LogRun) (h : ∀ r ∈ rs, r.Closed) (r0 : LogRun)
    (h0 : firstOpened rs = some r0) :
    logHistory none rs =
      some (r0.header ++ (rs.filter LogRun.opened).flatMap fun r => r.left ++ ['\n']) := by
  induction rs with
  | nil => simp [firstOpened] at h0
  | cons r rs ih =>
    unfold logHistory firstOpened at *
    rw [List.foldl_cons]
    cases ho : r.opened with
    | false =>
      rw [appendRun_early ho, List.filter_cons_of_neg (by simp [ho])]
      rw [List.find?_cons_of_neg (by simp [ho])] at h0
      exact ih (fun x hx => h x (List.mem_cons_of_mem _ hx)) h0
    | true =>
      rw [List.find?_cons_of_pos ho] at h0
      cases h0
      rw [(appendRun_closed (h r0 List.mem_cons_self) ho _).1]
      have := history_existing rs ([] ++ r0.header ++ (r0.left ++ ['\n'])) fun x hx => h x (List.mem_cons_of_mem _ hx)
      unfold logHistory at this
      simp only [Option.getD_none, Option.isNone_none, if_true]
      rw [this, List.filter_cons_of_pos ho]
      simp

/-- The same in lines: two of the header, one per run, and nothing after the last newline. -/
theorem log_lines_partial (rs : List LogRun) (h : ∀ r ∈ rs, r.Closed) (r0 : LogRun)
    (h0 : firstOpened rs = some r0) (titles names : List Char) (hh : r0.header = titles ++ ['\n'] ++ names ++ ['\n'])
    (ht : '\n' ∉ titles) (hn : '\n' ∉ names) :
    (logHistory none rs).map fileLines =
      some (titles :: names :: (rs.filter LogRun.opened).map LogRun.left ++ [[]]) := by
  rw [log_history_partial rs h r0 h0, Option.map_some, hh]
  have e : titles ++ ['\n'] ++ names ++ ['\n'] ++ ((rs.filter LogRun.opened).flatMap fun r => r.left ++ ['\n']) =
      (titles :: names :: (rs.filter LogRun.opened).map LogRun.left).flatMap fun l => l ++ ['\n'] := by
    simp [List.flatMap_map]
  rw [e, lines_flat]
  intro l hl
  simp only [List.mem_cons, List.mem_map, List.mem_filter] at hl
  rcases hl with rfl | rfl | ⟨r, ⟨hr, hro⟩, rfl⟩
  · exact ht
  · exact hn
  · exact (appendRun_closed (h r hr) hro none).2

/-- The line of a completed run, read back from a log whose other runs ended their lines, splits into the
fields that the run printed: the column `i` of its line is the value that the name `i` of the header
stands for, if the header is of the same kind. -/
theorem log_readable_partial (fmt : Val → List Char) (hf : ∀ v, ',' ∉ fmt v) (p : Params) (d : RunData)
    (ht : MainTimer d.timer) (row : List Cell) (h : logRow d = .ok row) (hc : ∀ s ∈ d.texts, ',' ∉ s.toList)
    (rs : List LogRun) (hcl : ∀ r ∈ rs, r.Closed) (r0 : LogRun) (h0 : firstOpened rs = some r0)
    (titles names : List Char) (hh : r0.header = titles ++ ['\n'] ++ names ++ ['\n'])
    (ht' : '\n' ∉ titles) (hn : '\n' ∉ names) (r : LogRun) (hr : r ∈ rs) (hd : r.fate = .done)
    (hl : r.line = [','].intercalate (row.map (Cell.render fmt))) :
    ∃ ls, (logHistory none rs).map fileLines = some ls ∧ ∃ l ∈ ls,
      l.splitOn ',' = (logTable p d.order).map fun m => (m.2 d).render fmt := by
  refine ⟨_, log_lines_partial rs hcl r0 h0 titles names hh ht' hn, r.line, ?_, ?_⟩
  · have : r.left = r.line := by unfold LogRun.left; rw [hd]
    simp only [List.cons_append, List.mem_cons, List.mem_append, List.mem_map, List.mem_filter]
    exact Or.inr (Or.inr (Or.inl ⟨r, ⟨hr, by unfold LogRun.opened; rw [hd]⟩, this⟩))
  · rw [← log_line_readable fmt hf p d ht row h hc, hl]
    unfold splitLine lineChars
    rw [List.dropLast_concat]

/-- The hypotheses are met by three runs: one completed, one with wrong arguments, one with an error. -/
example : ∃ rs : List LogRun, (∀ r ∈ rs, r.Closed) ∧ firstOpened rs = rs.head? ∧
    (logHistory none rs).map fileLines =
      some ["T".toList, "N".toList, "bm23,1".toList, "p0033||,oops".toList, []] := by
  refine ⟨[⟨"T\nN\n".toList, "bm23,1".toList, .done⟩, ⟨[], [], .early⟩,
    ⟨"T\nN\n".toList, "p0033,2".toList, .error 5 "oops\n".toList⟩], ?_, ?_, ?_⟩
  · intro r hr
    simp only [List.mem_cons, List.not_mem_nil, or_false] at hr
    rcases hr with rfl | rfl | rfl
    · exact ⟨by decide, trivial⟩
    · exact ⟨by decide, trivial⟩
    · exact ⟨by decide, "oops".toList, by decide, by decide⟩
  · rfl
  · decide +kernel

/-! ## What is lost -/

/-- A run that stops after the header and before the end of its line: the next completed run continues
that line, so that its fields stand under other names, and the log has one line for both. -/
theorem crash_glues_lines (a b : LogRun) (k : ℕ) (ha : a.fate = .cut (a.header.length + k)) (hk : k ≤ a.line.length)
    (hb : b.fate = .done) (f : List Char) :
    logHistory none [a, b] = some (a.header ++ a.line.take k ++ b.line ++ ['\n']) ∧
    logHistory (some f) [{ a with fate := .cut k }, b] = some (f ++ a.line.take k ++ b.line ++ ['\n']) := by
  have e : (a.line ++ ['\n']).take k = a.line.take k := List.take_append_of_le_length hk
  constructor
  · simp only [logHistory, List.foldl_cons, List.foldl_nil, appendRun, ha, hb, Option.isNone_none, if_true,
      Option.getD_none, Option.getD_some, Option.isNone_some, Bool.false_eq_true, if_false, List.nil_append,
      List.append_nil, List.append_assoc]
    rw [List.take_length_add_append, e]
    simp
  · simp only [logHistory, List.foldl_cons, List.foldl_nil, appendRun, hb, Option.isNone_some, if_false,
      Bool.false_eq_true, Option.getD_some, List.append_nil, List.append_assoc, List.nil_append]
    rw [e]

/-- A run that is killed right after it has created the log: no later run writes the header. -/
theorem crash_loses_header (a : LogRun) (ha : a.fate = .cut 0) (rs : List LogRun) (h : ∀ r ∈ rs, r.Closed) :
    logHistory none (a :: rs) = some ((rs.filter LogRun.opened).flatMap fun r => r.left ++ ['\n']) := by
  have e : appendRun none a = some [] := by simp [appendRun, ha]
  have := history_existing rs [] h
  unfold logHistory at this ⊢
  rw [List.foldl_cons, e, this]
  simp

/-- The header is that of the first run: after a preprocessing run, the lines of the runs that generate
cuts stand under the preprocessing header. -/
theorem header_of_first (a b : LogRun) (ha : a.fate = .done) (hb : b.fate = .done) :
    logHistory none [a, b] = some (a.header ++ a.line ++ ['\n'] ++ b.line ++ ['\n']) := by
  simp [logHistory, appendRun, ha, hb]

/-- A seed that is too large ends the program without a message in the log (`large_seed_exits`,
include/VPCParameters.hpp:393); then the glued line has more fields than the header has names. -/
theorem glued_line_shifted (fmt : Val → List Char) (hf : ∀ v, ',' ∉ fmt v)
    (row1 row2 : List Cell) (c1 : ∀ c ∈ row1, c.NoComma) (c2 : ∀ c ∈ row2, c.NoComma)
    (n : ℕ) (hn1 : 0 < n) (hn2 : n < row1.length) (hne : row2 ≠ [])
    (a b : LogRun)
    (ha : a.line = [','].intercalate (row1.map (Cell.render fmt)))
    (hb : b.line = [','].intercalate (row2.map (Cell.render fmt)))
    (hcut : a.fate = .cut (a.header.length + ([','].intercalate ((row1.take n).map (Cell.render fmt))).length + 1))
    (hd : b.fate = .done) :
    ∃ l, logHistory none [a, b] = some (a.header ++ l ++ ['\n']) ∧
      l.splitOn ',' = (row1.take n ++ row2).map (Cell.render fmt) := by
  have split : ∀ (xs ys : List (List Char)), xs ≠ [] → ys ≠ [] →
      [','].intercalate (xs ++ ys) = [','].intercalate xs ++ [','] ++ [','].intercalate ys := by
    intro xs
    induction xs with
    | nil => intro ys h; exact absurd rfl h
    | cons x xs ih =>
      intro ys _ hy
      cases xs with
      | nil =>
        cases ys with
        | nil => exact absurd rfl hy
        | cons y ys => simp [List.intercalate_cons_cons]
      | cons x' xs =>
        have := ih ys (by simp) hy
        simp only [List.cons_append] at this ⊢
        rw [List.intercalate_cons_cons, this, List.intercalate_cons_cons]
        simp
  set A := [','].intercalate ((row1.take n).map (Cell.render fmt)) with hA
  have hne1 : (row1.take n).map (Cell.render fmt) ≠ [] := by
    intro e
    have := congrArg List.length e
    simp only [List.length_map, List.length_take, List.length_drop, List.length_nil] at this
    omega
  have hne2 : (row1.drop n).map (Cell.render fmt) ≠ [] := by
    intro e
    have := congrArg List.length e
    simp only [List.length_map, List.length_take, List.length_drop, List.length_nil] at this
    omega
  have hline : a.line = (A ++ [',']) ++ [','].intercalate ((row1.drop n).map (Cell.render fmt)) := by
    rw [ha, hA, ← split _ _ hne1 hne2, ← List.map_append, List.take_append_drop]
  have htake : a.line.take (A.length + 1) = A ++ [','] := by
    rw [hline, List.take_left' (by simp)]
  refine ⟨a.line.take (A.length + 1) ++ b.line, ?_, ?_⟩
  · rw [(crash_glues_lines a b (A.length + 1) (by rw [hcut, Nat.add_assoc]) (by rw [hline]; simp) hd []).1]
    simp
  · rw [htake, hb, hA, ← split _ _ hne1 (by simpa using hne), ← List.map_append]
    refine List.splitOn_intercalate _ ?_ ?_
    · intro l hl
      rw [List.mem_map] at hl
      obtain ⟨c, hc, rfl⟩ := hl
      have hcn : c.NoComma := by
        rcases List.mem_append.mp hc with hc | hc
        · exact c1 c (List.mem_of_mem_take hc)
        · exact c2 c hc
      cases c with
      | blank => simp [Cell.render]
      | val v => exact hf v
      | text s => exact hcn
      | join l => exact joinChars_no_comma hf l
    · simp [hne]

/-- Two runs of two fields, the first stops after its first field: three fields under two names. -/
example : ∃ a b : LogRun, a.fate = .cut (a.header.length + 3) ∧ b.fate = .done ∧
    logHistory none [a, b] = some ("T,E\nx,y\n".toList ++ "p1,q1,7".toList ++ ['\n']) ∧
    ("p1,q1,7".toList.splitOn ',').length = 3 ∧ ("x,y".toList.splitOn ',').length = 2 :=
  ⟨⟨"T,E\nx,y\n".toList, "p1,5".toList, .cut 11⟩, ⟨"T,E\nx,y\n".toList, "q1,7".toList, .done⟩,
    rfl, rfl, by decide +kernel, by rw [splitOn_length]; decide +kernel, by rw [splitOn_length]; decide +kernel⟩

end VPC
