import Verif.Model.Timer
import Mathlib.Tactic.Linarith
import Mathlib.Tactic.NormNum
import Mathlib.Data.Rat.Cast.Order

/-!
# Property C16 (timers) and C53 (timer names)
-/
namespace VPC

/-! ## Specification: what a history says about one timer -/

/-- The account of one timer: completed intervals, the start of the running one, and amounts added
by hand (in ticks). -/
structure TimeLedger where
  done : List (Int × Int)
  openAt : Option Int
  added : Int
deriving DecidableEq

/-- Close the running interval, if any, at time `t`. -/
def TimeLedger.close (L : TimeLedger) (t : Int) : TimeLedger :=
  match L.openAt with
  | none => L
  | some t0 => { L with done := L.done ++ [(t0, t)], openAt := none }

/-- Book one timed operation on the account of `nm`; operations on other timers are not booked. -/
def TimeLedger.book (nm : String) (L : TimeLedger) (x : TOp × Int) : TimeLedger :=
  match x.1 with
  | .start m => if m = nm then { L with openAt := some x.2 } else L
  | .stop m => if m = nm then L.close x.2 else L
  | .endAll => L.close x.2
  | .addValue m v => if m = nm then { L with added := L.added + v } else L
  | .addTime m v => if m = nm then { L with added := L.added + v * clocksPerSec } else L
  | .register _ _ => L

/-- The account of `nm` over a history (starting right after its registration). -/
def ledger (nm : String) (h : List (TOp × Int)) : TimeLedger := h.foldl (TimeLedger.book nm) ⟨[], none, 0⟩

/-- Total length of a list of intervals. -/
def lengths (l : List (Int × Int)) : Int := (l.map fun p => p.2 - p.1).sum

/-- `nm` is registered in the history `h`. -/
def Registers (nm : String) (h : List (TOp × Int)) : Prop := ∃ x ∈ h, ∃ i, x.1 = .register nm i

/-! ## Helpers -/

theorem lookup_insertName (nm m : String) (id : Nat) (l : List (String × Nat)) :
    ((insertName nm id l).find? (fun p => p.1 = m)).map (·.2) =
      if m = nm then some id else (l.find? (fun p => p.1 = m)).map (·.2) := by
  induction l with
  | nil =>
    simp only [insertName, List.find?_cons, List.find?_nil]
    by_cases h : m = nm
    · simp [h]
    · simp [h, Ne.symm h]
  | cons a l ih =>
    obtain ⟨k, i⟩ := a
    simp only [insertName]
    split_ifs with h1 h2 h3 h4 h5
    · subst h2; simp
    · simp only [List.find?_cons]
      subst h1
      simp [Ne.symm h2]
    · subst h4; simp
    · simp only [List.find?_cons]
      simp [Ne.symm h4]
    · subst h5
      rw [if_pos rfl] at ih
      simp only [List.find?_cons, h1, decide_false]
      exact ih
    · rw [if_neg h5] at ih
      simp only [List.find?_cons]
      split
      · rfl
      · exact ih

theorem getId_register (s : TimeStats) (nm m : String) (i now : Int) :
    (s.register nm i now).getId m = if m = nm then some s.tmrs.length else s.getId m :=
  lookup_insertName nm m s.tmrs.length s.names

/-- Ids are in range and distinct names have distinct ids. -/
structure TWF (s : TimeStats) : Prop where
  lt : ∀ m i, s.getId m = some i → i < s.tmrs.length
  inj : ∀ m m' i, s.getId m = some i → s.getId m' = some i → m = m'

theorem TWF_empty : TWF TimeStats.empty := by
  constructor <;> simp [TimeStats.empty, TimeStats.getId]

theorem TWF_register {s : TimeStats} (h : TWF s) (nm : String) (i now : Int) :
    TWF (s.register nm i now) := by
  constructor
  · intro m j hj
    rw [getId_register] at hj
    simp only [TimeStats.register, List.length_append, List.length_cons, List.length_nil]
    split_ifs at hj
    · cases hj; omega
    · have := h.lt m j hj; omega
  · intro m m' j h1 h2
    rw [getId_register] at h1 h2
    split_ifs at h1 h2 with a b b
    · rw [a, b]
    · cases h1; exact absurd (h.lt m' _ h2) (by omega)
    · cases h2; exact absurd (h.lt m _ h1) (by omega)
    · exact h.inj m m' j h1 h2

theorem TWF_of_same {s t : TimeStats} (h : TWF s) (hn : t.names = s.names)
    (hl : t.tmrs.length = s.tmrs.length) : TWF t := by
  have hg : ∀ m, t.getId m = s.getId m := fun m => by simp [TimeStats.getId, hn]
  constructor
  · intro m i hi; rw [hg] at hi; rw [hl]; exact h.lt m i hi
  · intro m m' i h1 h2; rw [hg] at h1 h2; exact h.inj m m' i h1 h2

/-- Effect of a step other than registration: names and number of timers are unchanged. -/
theorem step_names {s t : TimeStats} {x : TOp × Int} (h : s.step x = some t)
    (hx : ∀ nm i, x.1 ≠ .register nm i) :
    t.names = s.names ∧ t.tmrs.length = s.tmrs.length := by
  obtain ⟨o, now⟩ := x
  cases o with
  | register nm i => exact absurd rfl (hx nm i)
  | start nm =>
    simp only [TimeStats.step, TimeStats.startId] at h
    split at h
    · cases h; exact ⟨rfl, rfl⟩
    · split at h
      · cases h; exact ⟨rfl, rfl⟩
      · split at h
        · cases h
        · cases h; simp
  | stop nm =>
    simp only [TimeStats.step, TimeStats.endId] at h
    split at h
    · cases h; exact ⟨rfl, rfl⟩
    · split at h
      · cases h; exact ⟨rfl, rfl⟩
      · split at h
        · cases h; simp
        · cases h
  | endAll => simp only [TimeStats.step, Option.some.injEq] at h; subst h; simp [TimeStats.endAll]
  | addValue nm v =>
    simp only [TimeStats.step, Option.some.injEq] at h; subst h
    unfold TimeStats.addId; split
    · exact ⟨rfl, rfl⟩
    · split <;> simp
  | addTime nm v =>
    simp only [TimeStats.step, Option.some.injEq] at h; subst h
    unfold TimeStats.addId; split
    · exact ⟨rfl, rfl⟩
    · split <;> simp

theorem TWF_step {s t : TimeStats} (hs : TWF s) {x : TOp × Int} (h : s.step x = some t) : TWF t := by
  by_cases hx : ∃ nm i, x.1 = .register nm i
  · obtain ⟨nm, i, hx⟩ := hx
    simp only [TimeStats.step, hx, Option.some.injEq] at h
    subst h; exact TWF_register hs nm i x.2
  · have := step_names h (fun nm i e => hx ⟨nm, i, e⟩)
    exact TWF_of_same hs this.1 this.2

theorem TWF_run {s t : TimeStats} (hs : TWF s) {h : List (TOp × Int)} (hr : s.run h = some t) :
    TWF t := by
  induction h generalizing s with
  | nil => simp only [TimeStats.run, List.foldlM_nil, Option.pure_def, Option.some.injEq] at hr
           exact hr ▸ hs
  | cons x h ih =>
    simp only [TimeStats.run, List.foldlM_cons, Option.bind_eq_bind, Option.bind_eq_some_iff] at hr
    obtain ⟨r, h1, h2⟩ := hr
    exact ih (TWF_step hs h1) h2

/-- The timer of `nm` agrees with the account `L` that was opened with `init`. -/
def Agrees (s : TimeStats) (nm : String) (init : Int) (L : TimeLedger) : Prop :=
  ∃ i t, s.getId nm = some i ∧ s.tmrs[i]? = some t ∧
    t.value = init + lengths L.done + L.added ∧
    (match L.openAt with
      | none => t.running = false
      | some t0 => t.running = true ∧ t.start = t0)

theorem lengths_append (l : List (Int × Int)) (a b : Int) :
    lengths (l ++ [(a, b)]) = lengths l + (b - a) := by
  simp [lengths]

/-- Timer obtained by closing. -/
theorem agrees_close {t : Tmr} {init now : Int} {L : TimeLedger}
    (hv : t.value = init + lengths L.done + L.added)
    (ho : match L.openAt with
      | none => t.running = false
      | some t0 => t.running = true ∧ t.start = t0) :
    let t' := if t.running then { t with value := t.value + (now - t.start), running := false } else t
    t'.value = init + lengths (L.close now).done + (L.close now).added ∧
      (L.close now).openAt = none ∧ t'.running = false := by
  cases hL : L.openAt with
  | none =>
    rw [hL] at ho
    simp only [TimeLedger.close, hL, ho, Bool.false_eq_true, if_false]
    exact ⟨hv, trivial, trivial⟩
  | some t0 =>
    rw [hL] at ho
    obtain ⟨h1, h2⟩ := ho
    simp only [TimeLedger.close, hL, h1, if_true, lengths_append, hv, h2]
    refine ⟨by omega, trivial, trivial⟩

theorem agrees_step {s t : TimeStats} (hs : TWF s) {nm : String} {init : Int} {L : TimeLedger}
    (hA : Agrees s nm init L) {x : TOp × Int} (hx : ∀ i, x.1 ≠ .register nm i)
    (h : s.step x = some t) : Agrees t nm init (L.book nm x) := by
  obtain ⟨o, now⟩ := x
  obtain ⟨i, r, hid, hr, hv, ho⟩ := hA
  have hilt : i < s.tmrs.length := hs.lt nm i hid
  cases o with
  | register m j =>
    have hne : m ≠ nm := by rintro rfl; exact hx j rfl
    simp only [TimeStats.step, Option.some.injEq] at h; subst h
    refine ⟨i, r, ?_, ?_, hv, ho⟩
    · rw [getId_register, if_neg hne.symm]; exact hid
    · simp only [TimeStats.register]
      rw [List.getElem?_append_left hilt]; exact hr
  | start m =>
    simp only [TimeStats.step, TimeStats.startId] at h
    by_cases hm : m = nm
    · subst hm
      rw [hid] at h
      simp only [hr] at h
      split at h
      · cases h
      · cases h
        rename_i hrun
        refine ⟨i, { r with start := now, running := true }, hid, ?_, ?_, ?_⟩
        · simp [hilt]
        · simpa [TimeLedger.book] using hv
        · simp [TimeLedger.book]
    · simp only [TimeLedger.book, if_neg hm]
      cases hj : s.getId m with
      | none => rw [hj] at h; cases h; exact ⟨i, r, hid, hr, hv, ho⟩
      | some j =>
        have hji : j ≠ i := by rintro rfl; exact hm (hs.inj m nm _ hj hid)
        rw [hj] at h
        simp only [] at h
        split at h
        · cases h; exact ⟨i, r, hid, hr, hv, ho⟩
        · split at h
          · cases h
          · cases h
            refine ⟨i, r, hid, ?_, hv, ho⟩
            simp [List.getElem?_set, hji, hr]
  | stop m =>
    simp only [TimeStats.step, TimeStats.endId] at h
    by_cases hm : m = nm
    · subst hm
      rw [hid] at h
      simp only [hr] at h
      split at h
      · rename_i hrun
        cases h
        have hc := agrees_close (now := now) hv ho
        simp only [hrun, if_true] at hc
        refine ⟨i, { r with value := r.value + (now - r.start), running := false }, hid, ?_, ?_, ?_⟩
        · simp [hilt]
        · simp only [TimeLedger.book, if_true]; exact hc.1
        · simp only [TimeLedger.book, if_true, hc.2.1]
      · cases h
    · simp only [TimeLedger.book, if_neg hm]
      cases hj : s.getId m with
      | none => rw [hj] at h; cases h; exact ⟨i, r, hid, hr, hv, ho⟩
      | some j =>
        have hji : j ≠ i := by rintro rfl; exact hm (hs.inj m nm _ hj hid)
        rw [hj] at h
        simp only [] at h
        split at h
        · cases h; exact ⟨i, r, hid, hr, hv, ho⟩
        · split at h
          · cases h
            refine ⟨i, r, hid, ?_, hv, ho⟩
            simp [List.getElem?_set, hji, hr]
          · cases h
  | endAll =>
    simp only [TimeStats.step, Option.some.injEq] at h; subst h
    have hc := agrees_close (now := now) hv ho
    refine ⟨i, _, hid, ?_, hc.1, ?_⟩
    · simp [TimeStats.endAll, hr]
    · simp only [TimeLedger.book, hc.2.1]; exact hc.2.2
  | addValue m v =>
    simp only [TimeStats.step, Option.some.injEq] at h; subst h
    by_cases hm : m = nm
    · subst hm
      simp only [TimeStats.addId, hid, hr]
      refine ⟨i, { r with value := r.value + v }, hid, by simp [hilt], ?_, ?_⟩
      · simp only [TimeLedger.book, if_true, hv]; omega
      · simpa [TimeLedger.book] using ho
    · simp only [TimeLedger.book, if_neg hm]
      cases hj : s.getId m with
      | none => simp only [TimeStats.addId]; exact ⟨i, r, hid, hr, hv, ho⟩
      | some j =>
        have hji : j ≠ i := by rintro rfl; exact hm (hs.inj m nm _ hj hid)
        simp only [TimeStats.addId]
        split
        · exact ⟨i, r, hid, hr, hv, ho⟩
        · refine ⟨i, r, hid, ?_, hv, ho⟩
          simp [List.getElem?_set, hji, hr]
  | addTime m v =>
    simp only [TimeStats.step, Option.some.injEq] at h; subst h
    by_cases hm : m = nm
    · subst hm
      simp only [TimeStats.addId, hid, hr]
      refine ⟨i, { r with value := r.value + v * clocksPerSec }, hid, by simp [hilt], ?_, ?_⟩
      · simp only [TimeLedger.book, if_true, hv]; omega
      · simpa [TimeLedger.book] using ho
    · simp only [TimeLedger.book, if_neg hm]
      cases hj : s.getId m with
      | none => simp only [TimeStats.addId]; exact ⟨i, r, hid, hr, hv, ho⟩
      | some j =>
        have hji : j ≠ i := by rintro rfl; exact hm (hs.inj m nm _ hj hid)
        simp only [TimeStats.addId]
        split
        · exact ⟨i, r, hid, hr, hv, ho⟩
        · refine ⟨i, r, hid, ?_, hv, ho⟩
          simp [List.getElem?_set, hji, hr]

theorem agrees_run {s t : TimeStats} (hs : TWF s) {nm : String} {init : Int} {L : TimeLedger}
    (hA : Agrees s nm init L) {h : List (TOp × Int)} (hx : ¬ Registers nm h)
    (hr : s.run h = some t) : Agrees t nm init (h.foldl (TimeLedger.book nm) L) := by
  induction h generalizing s L with
  | nil => simp only [TimeStats.run, List.foldlM_nil, Option.pure_def, Option.some.injEq] at hr
           exact hr ▸ hA
  | cons x h ih =>
    simp only [TimeStats.run, List.foldlM_cons, Option.bind_eq_bind, Option.bind_eq_some_iff] at hr
    obtain ⟨r, h1, h2⟩ := hr
    refine ih (TWF_step hs h1) (agrees_step hs hA ?_ h1) ?_ h2
    · intro i e; exact hx ⟨x, List.mem_cons_self, i, e⟩
    · rintro ⟨y, hy, i, e⟩; exact hx ⟨y, List.mem_cons_of_mem _ hy, i, e⟩

theorem run_append {s : TimeStats} (a b : List (TOp × Int)) :
    s.run (a ++ b) = (s.run a).bind (fun r => r.run b) := by
  simp [TimeStats.run, List.foldlM_append]

theorem agrees_history {pre post : List (TOp × Int)} {nm : String} {init t0 : Int}
    {s : TimeStats} (hpost : ¬ Registers nm post)
    (h : TimeStats.empty.run (pre ++ (.register nm init, t0) :: post) = some s) :
    Agrees s nm init (ledger nm post) ∧ TWF s := by
  have hwf := TWF_run TWF_empty h
  rw [run_append] at h
  simp only [Option.bind_eq_some_iff] at h
  obtain ⟨r, h1, h2⟩ := h
  have hr := TWF_run TWF_empty h1
  simp only [TimeStats.run, List.foldlM_cons, Option.bind_eq_bind, Option.bind_eq_some_iff] at h2
  obtain ⟨q, h3, h4⟩ := h2
  simp only [TimeStats.step, Option.some.injEq] at h3
  subst h3
  refine ⟨agrees_run (TWF_register hr nm init t0) ?_ hpost h4, hwf⟩
  refine ⟨r.tmrs.length, ⟨t0, init, false⟩, ?_, ?_, ?_, ?_⟩
  · rw [getId_register, if_pos rfl]
  · simp [TimeStats.register]
  · simp [lengths]
  · rfl

/-! ## C16 -/

/-- C16: take any history that does not trip an assertion, and look at the last registration of
`nm` in it. What the object reports for `nm` is the initial value, plus the lengths of the intervals
completed since, plus what was added by hand; the total time also includes the running interval.
Operations on other timers do not matter. -/
theorem timer_accounts (pre post : List (TOp × Int)) (nm : String) (init t0 : Int) (s : TimeStats)
    (hpost : ¬ Registers nm post)
    (h : TimeStats.empty.run (pre ++ (.register nm init, t0) :: post) = some s) :
    s.getValue nm = init + lengths (ledger nm post).done + (ledger nm post).added ∧
    ∀ now, s.totalTicks nm now = init + lengths (ledger nm post).done + (ledger nm post).added +
      (match (ledger nm post).openAt with | none => 0 | some t => now - t) := by
  obtain ⟨⟨i, t, hid, ht, hv, ho⟩, -⟩ := agrees_history hpost h
  refine ⟨by simp [TimeStats.getValue, hid, ht, hv], ?_⟩
  intro now
  simp only [TimeStats.totalTicks, hid, ht]
  cases hL : (ledger nm post).openAt with
  | none => rw [hL] at ho; simp [ho, hv]
  | some t1 =>
    rw [hL] at ho
    simp only [ho.1, if_true, hv, ho.2]; omega

/-- Non-vacuity: two interleaved timers. -/
example :
    (TimeStats.empty.run ([] ++ (.register "a" 0, 0) :: [(.register "b" 0, 1), (.start "a", 10),
      (.start "b", 12), (.stop "a", 15), (.start "a", 20), (.endAll, 30)])).map
        (fun s => (s.getValue "a", s.getValue "b")) = some (15, 18) ∧
    (ledger "a" [(.register "b" 0, 1), (.start "a", 10),
      (.start "b", 12), (.stop "a", 15), (.start "a", 20), (.endAll, 30)]).done =
        [(10, 15), (20, 30)] ∧
    ¬ Registers "a" [(.register "b" 0, 1), (.start "a", 10),
      (.start "b", 12), (.stop "a", 15), (.start "a", 20), (.endAll, 30)] := by
  refine ⟨by decide +kernel, by decide +kernel, ?_⟩
  rintro ⟨x, hx, i, e⟩
  simp only [List.mem_cons, List.not_mem_nil, or_false] at hx
  rcases hx with rfl | rfl | rfl | rfl | rfl | rfl <;> simp at e

/-- C16: the next start/stop of a registered timer trips an assertion exactly when it breaks the
alternation of the timer's history; nothing else ever does. -/
theorem timer_aborts_iff (pre post : List (TOp × Int)) (nm : String) (init t0 : Int) (s : TimeStats)
    (hpost : ¬ Registers nm post)
    (h : TimeStats.empty.run (pre ++ (.register nm init, t0) :: post) = some s) (now : Int) :
    (s.step (.start nm, now) = none ↔ (ledger nm post).openAt.isSome) ∧
    (s.step (.stop nm, now) = none ↔ (ledger nm post).openAt = none) := by
  obtain ⟨⟨i, t, hid, ht, hv, ho⟩, -⟩ := agrees_history hpost h
  simp only [TimeStats.step, TimeStats.startId, TimeStats.endId, hid, ht]
  cases hL : (ledger nm post).openAt with
  | none => rw [hL] at ho; simp [ho]
  | some t1 => rw [hL] at ho; simp [ho.1]

/-- C16: an operation on a name that was never registered changes nothing and never aborts; asking
for such a name gives -1. -/
theorem unknown_name_harmless (h : List (TOp × Int)) (s : TimeStats)
    (hr : TimeStats.empty.run h = some s) (nm : String) (hn : ¬ Registers nm h) (now v : Int) :
    s.step (.start nm, now) = some s ∧ s.step (.stop nm, now) = some s ∧
    s.step (.addValue nm v, now) = some s ∧ s.step (.addTime nm v, now) = some s ∧
    s.getValue nm = -1 ∧ s.totalTime nm now = -1 := by
  have key : ∀ (h : List (TOp × Int)) (r s : TimeStats), r.getId nm = none → ¬ Registers nm h →
      r.run h = some s → s.getId nm = none := by
    intro h
    induction h with
    | nil =>
      intro r s h1 _ hr
      simp only [TimeStats.run, List.foldlM_nil, Option.pure_def, Option.some.injEq] at hr
      exact hr ▸ h1
    | cons x h ih =>
      intro r s h1 h2 hr
      simp only [TimeStats.run, List.foldlM_cons, Option.bind_eq_bind,
        Option.bind_eq_some_iff] at hr
      obtain ⟨q, h3, h4⟩ := hr
      refine ih q s ?_ ?_ h4
      · by_cases hx : ∃ m i, x.1 = .register m i
        · obtain ⟨m, i, hx⟩ := hx
          simp only [TimeStats.step, hx, Option.some.injEq] at h3
          subst h3
          rw [getId_register, if_neg, h1]
          rintro rfl; exact h2 ⟨x, List.mem_cons_self, i, hx⟩
        · have := step_names h3 (fun m i e => hx ⟨m, i, e⟩)
          simp only [TimeStats.getId, this.1]; exact h1
      · rintro ⟨y, hy, i, e⟩; exact h2 ⟨y, List.mem_cons_of_mem _ hy, i, e⟩
  have hid := key h _ s rfl hn hr
  simp only [TimeStats.step, hid, TimeStats.startId, TimeStats.endId, TimeStats.addId,
    TimeStats.getValue, TimeStats.totalTime, TimeStats.totalTicks, clocksPerSec, and_self,
    true_and]
  norm_num

/-- The consequence for the time limit tested in the point-ray collection loop
(src/cut/CglVPC.cpp:1208), whose timer `TIME_TYPE1_TOTAL` is registered nowhere: it never fires for
an allowed limit. -/
theorem unregistered_limit_never_fires (h : List (TOp × Int)) (s : TimeStats)
    (hr : TimeStats.empty.run h = some s) (nm : String) (hn : ¬ Registers nm h) (now : Int)
    (lim : ℚ) (hl : -1 ≤ lim) : s.reachedTimeLimit nm lim now = false := by
  have := (unknown_name_harmless h s hr nm hn now 0).2.2.2.2.2
  simp [TimeStats.reachedTimeLimit, this, hl]

example : ∃ s, TimeStats.empty.run [(.register "a" 0, 0), (.start "a", 1)] = some s ∧
    ¬ Registers "zz" [(.register "a" 0, 0), (.start "a", 1)] := by
  refine ⟨_, rfl, ?_⟩
  rintro ⟨x, hx, i, e⟩
  simp only [List.mem_cons, List.not_mem_nil, or_false] at hx
  rcases hx with rfl | rfl <;> simp at e

/-- For a registered timer the limit fires exactly when the accounted time exceeds it. -/
theorem registered_limit_exact (pre post : List (TOp × Int)) (nm : String) (init t0 : Int)
    (s : TimeStats) (hpost : ¬ Registers nm post)
    (h : TimeStats.empty.run (pre ++ (.register nm init, t0) :: post) = some s) (now : Int)
    (lim : ℚ) :
    s.reachedTimeLimit nm lim now = true ↔
      lim * 1000000 < ((init + lengths (ledger nm post).done + (ledger nm post).added +
        (match (ledger nm post).openAt with | none => 0 | some t => now - t) : Int) : ℚ) := by
  have := (timer_accounts pre post nm init t0 s hpost h).2 now
  simp only [TimeStats.reachedTimeLimit, TimeStats.totalTime, this, gt_iff_lt, decide_eq_true_eq]
  rw [lt_div_iff₀ (by norm_num [clocksPerSec])]
  norm_num [clocksPerSec]

/-- Registering an existing name is *not* harmless (the last claim of C16 fails): the accumulated
time is lost, and a running timer is no longer running. -/
theorem reregister_loses_time :
    ∃ h s, TimeStats.empty.run h = some s ∧ s.getValue "a" = 5 ∧
      ∃ t, s.step (.register "a" 0, 20) = some t ∧ t.getValue "a" = 0 := by
  refine ⟨[(.register "a" 0, 0), (.start "a", 10), (.stop "a", 15)], _, rfl, by decide +kernel,
    _, rfl, by decide +kernel⟩

/-! ## C53: names of timers -/

/-- C53 is violated: looking up the name of any timer other than the alphabetically first one never
terminates (no amount of fuel is enough). -/
theorem getName_diverges (s : TimeStats) (nm : String) (i id : Nat) (rest : List (String × Nat))
    (hs : s.names = (nm, i) :: rest) (hid : id ≠ i) (fuel : Nat) :
    s.getNameFuel id fuel = none := by
  induction fuel with
  | zero => rfl
  | succ n ih => simp only [TimeStats.getNameFuel, hs, Ne.symm hid, if_false]; exact ih

/-- With two registered names, one of the two lookups `get_name(0)`, `get_name(1)` made when the
names are printed never returns. -/
theorem two_timers_print_diverges (a b : String) (hab : a ≠ b) (t0 t1 : Int) :
    ∃ id < 2, ∀ fuel,
      (((TimeStats.empty.register a 0 t0).register b 0 t1).getNameFuel id fuel) = none := by
  set s := (TimeStats.empty.register a 0 t0).register b 0 t1 with hs
  have hn : s.names = insertName b 1 (insertName a 0 []) := rfl
  have hne : s.names ≠ [] := by
    rw [hn]; simp only [insertName]; split_ifs <;> simp
  obtain ⟨⟨nm, i⟩, rest, hcons⟩ := List.exists_cons_of_ne_nil hne
  by_cases h0 : i = 0
  · exact ⟨1, by omega, getName_diverges s nm i 1 rest hcons (by omega)⟩
  · exact ⟨0, by omega, getName_diverges s nm i 0 rest hcons (by omega)⟩

/-- C53, the part that holds: with a single timer its name is found. -/
theorem getName_single_partial (a : String) (t0 : Int) (fuel : Nat) :
    (TimeStats.empty.register a 0 t0).getNameFuel 0 (fuel + 1) = some a := by
  simp [TimeStats.getNameFuel, TimeStats.register, TimeStats.empty, insertName]

end VPC
