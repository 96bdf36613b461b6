import Verif.Model.RunTimers
import Verif.Props.Timer
import Mathlib.Tactic.Ring
import Mathlib.Tactic.IntervalCases

/-!
# C144: the timers of a run
-/
namespace VPC

/-! ## Specification -/

/-- The timers that run after a call. -/
def after (run : List String) : TOp → List String
  | .start m => m :: run
  | .stop m => run.filter fun x => decide (x ≠ m)
  | .endAll => []
  | _ => run

/-- Timers are started when they do not run, stopped when they run, and not registered while they run. -/
def Alternating : List String → List TOp → Prop
  | _, [] => True
  | run, o :: os =>
    (match o with
      | .start m => m ∉ run
      | .stop m => m ∈ run
      | .register m _ => m ∉ run
      | _ => True) ∧ Alternating (after run o) os

/-- The timers that run at the end. -/
def afterAll (run : List String) (os : List TOp) : List String := os.foldl after run

/-- `p` holds of the timers that run, after each call. -/
def Always (p : List String → Prop) : List String → List TOp → Prop
  | _, [] => True
  | run, o :: os => p (after run o) ∧ Always p (after run o) os

/-- Ticks during which the timer `n` runs; call number `k` is made at `cl k`. -/
def spent (cl : ℕ → ℤ) (n : String) : ℕ → List String → List TOp → ℤ
  | _, _, [] => 0
  | k, run, o :: os => (if n ∈ after run o then cl (k + 1) - cl k else 0) + spent cl n (k + 1) (after run o) os

/-- The clock does not go back. -/
def Forward (cl : ℕ → ℤ) : Prop := ∀ k, cl k ≤ cl (k + 1)

/-- No value is added by hand. -/
def Plain : TOp → Bool
  | .addValue _ _ => false
  | .addTime _ _ => false
  | .endAll => false
  | _ => true

/-! ## Histories by name -/

/-- The timers with a name in `run` run, the others with a name do not. -/
structure RSt (s : TimeStats) (run : List String) : Prop where
  wf : TWF s
  on : ∀ m i t, s.getId m = some i → s.tmrs[i]? = some t → (t.running = true ↔ m ∈ run)

theorem getId_set (s : TimeStats) (i : ℕ) (t : Tmr) (m : String) :
    ({ s with tmrs := s.tmrs.set i t } : TimeStats).getId m = s.getId m := rfl

theorem RSt.register {s : TimeStats} {run : List String} (h : RSt s run) {m : String} (hm : m ∉ run) (v now : ℤ) :
    RSt (s.register m v now) run := by
  refine ⟨TWF_register h.wf m v now, fun m' i t hi ht => ?_⟩
  rw [getId_register] at hi
  by_cases e : m' = m
  · subst e
    rw [if_pos rfl] at hi
    cases hi
    simp only [TimeStats.register, List.length_append, List.getElem?_append_right (le_refl s.tmrs.length),
      Nat.sub_self, List.getElem?_cons_zero, Option.some.injEq] at ht
    subst ht
    simp [hm]
  · rw [if_neg e] at hi
    have hlt := h.wf.lt _ _ hi
    simp only [TimeStats.register] at ht
    rw [List.getElem?_append_left hlt] at ht
    exact h.on m' i t hi ht

theorem RSt.start {s : TimeStats} {run : List String} (h : RSt s run) {m : String} (hm : m ∉ run) (now : ℤ) :
    ∃ s', s.step (.start m, now) = some s' ∧ RSt s' (m :: run) := by
  cases hi : s.getId m with
  | none =>
    refine ⟨s, by simp [TimeStats.step, TimeStats.startId, hi], h.wf, fun m' i t hi' ht => ?_⟩
    rw [h.on m' i t hi' ht, List.mem_cons]
    constructor
    · exact .inr
    · rintro (rfl | h')
      · rw [hi] at hi'; cases hi'
      · exact h'
  | some i =>
    have hlt := h.wf.lt _ _ hi
    have ht : s.tmrs[i]? = some s.tmrs[i] := List.getElem?_eq_getElem hlt
    have hr : s.tmrs[i].running = false := by
      cases e : s.tmrs[i].running
      · rfl
      · exact absurd ((h.on m i _ hi ht).1 e) hm
    refine ⟨{ s with tmrs := s.tmrs.set i { s.tmrs[i] with start := now, running := true } }, ?_, ?_, ?_⟩
    · simp only [TimeStats.step, TimeStats.startId, hi, ht, hr, Bool.false_eq_true, if_false]
    · exact TWF_of_same h.wf rfl (List.length_set ..)
    · intro m' j t hj ht'
      rw [getId_set] at hj
      by_cases e : j = i
      · subst e
        have := h.wf.inj _ _ _ hj hi
        subst this
        simp only [List.getElem?_set_self hlt, Option.some.injEq] at ht'
        subst ht'
        simp
      · simp only [List.getElem?_set_ne (Ne.symm e)] at ht'
        have hne : m' ≠ m := by
          rintro rfl
          rw [hi] at hj; cases hj; exact e rfl
        rw [h.on m' j t hj ht', List.mem_cons]
        simp [hne]

theorem RSt.stop {s : TimeStats} {run : List String} (h : RSt s run) {m : String} (hm : m ∈ run) (now : ℤ) :
    ∃ s', s.step (.stop m, now) = some s' ∧ RSt s' (run.filter fun x => decide (x ≠ m)) := by
  cases hi : s.getId m with
  | none =>
    refine ⟨s, by simp [TimeStats.step, TimeStats.endId, hi], h.wf, fun m' i t hi' ht => ?_⟩
    rw [h.on m' i t hi' ht, List.mem_filter]
    constructor
    · intro h'
      refine ⟨h', decide_eq_true ?_⟩
      rintro rfl
      rw [hi] at hi'; cases hi'
    · exact And.left
  | some i =>
    have hlt := h.wf.lt _ _ hi
    have ht : s.tmrs[i]? = some s.tmrs[i] := List.getElem?_eq_getElem hlt
    have hr : s.tmrs[i].running = true := (h.on m i _ hi ht).2 hm
    refine ⟨{ s with
        tmrs := s.tmrs.set i { s.tmrs[i] with value := s.tmrs[i].value + (now - s.tmrs[i].start), running := false } },
      ?_, ?_, ?_⟩
    · simp only [TimeStats.step, TimeStats.endId, hi, ht, hr, if_true]
    · exact TWF_of_same h.wf rfl (List.length_set ..)
    · intro m' j t hj ht'
      rw [getId_set] at hj
      by_cases e : j = i
      · subst e
        have := h.wf.inj _ _ _ hj hi
        subst this
        simp only [List.getElem?_set_self hlt, Option.some.injEq] at ht'
        subst ht'
        simp
      · simp only [List.getElem?_set_ne (Ne.symm e)] at ht'
        have hne : m' ≠ m := by
          rintro rfl
          rw [hi] at hj; cases hj; exact e rfl
        rw [h.on m' j t hj ht', List.mem_filter]
        simp [hne]

/-- The number of ticks of a timer after one call and up to the next. -/
theorem total_step {s s' : TimeStats} {run : List String} (h : RSt s run) {o : TOp} {now : ℤ}
    (hs : s.step (o, now) = some s') (hp : Plain o = true) {n : String} {i : ℕ} (hn : s.getId n = some i)
    (hr : ∀ v, o ≠ .register n v) (h' : RSt s' (after run o)) (next : ℤ) :
    s'.getId n = some i ∧
      s'.totalTicks n next = s.totalTicks n now + if n ∈ after run o then next - now else 0 := by
  have hlt := h.wf.lt _ _ hn
  have ht : s.tmrs[i]? = some s.tmrs[i] := List.getElem?_eq_getElem hlt
  have hon := h.on n i _ hn ht
  cases o with
  | addValue => cases hp
  | addTime => cases hp
  | endAll => cases hp
  | register m v =>
    have hne : n ≠ m := fun e => hr v (by rw [e])
    simp only [TimeStats.step, Option.some.injEq] at hs
    subst hs
    have hid : (s.register m v now).getId n = some i := by rw [getId_register, if_neg hne, hn]
    refine ⟨hid, ?_⟩
    have ht2 : (s.register m v now).tmrs[i]? = some s.tmrs[i] := by
      simp only [TimeStats.register]
      rw [List.getElem?_append_left hlt, ht]
    unfold TimeStats.totalTicks
    rw [hid, hn]
    simp only [ht2, ht]
    show _ = _ + (if n ∈ run then next - now else 0)
    by_cases hm : n ∈ run
    · rw [if_pos (hon.2 hm), if_pos (hon.2 hm), if_pos hm]; omega
    · have : ¬ s.tmrs[i].running = true := fun e => hm (hon.1 e)
      rw [if_neg this, if_neg this, if_neg hm]; omega
  | start m =>
    simp only [TimeStats.step] at hs
    cases hi : s.getId m with
    | none =>
      rw [hi] at hs
      simp only [TimeStats.startId, Option.some.injEq] at hs
      subst hs
      refine ⟨hn, ?_⟩
      have hne : n ≠ m := by rintro rfl; rw [hi] at hn; cases hn
      unfold TimeStats.totalTicks
      rw [hn]
      simp only [ht, after, List.mem_cons, hne, false_or]
      by_cases hm : n ∈ run
      · rw [if_pos (hon.2 hm), if_pos (hon.2 hm), if_pos hm]; omega
      · have : ¬ s.tmrs[i].running = true := fun e => hm (hon.1 e)
        rw [if_neg this, if_neg this, if_neg hm]; omega
    | some j =>
      rw [hi] at hs
      have hltj := h.wf.lt _ _ hi
      have htj : s.tmrs[j]? = some s.tmrs[j] := List.getElem?_eq_getElem hltj
      simp only [TimeStats.startId, htj] at hs
      split at hs
      · cases hs
      · rename_i hrun
        cases hs
        refine ⟨hn, ?_⟩
        unfold TimeStats.totalTicks
        rw [getId_set, hn]
        simp only [ht]
        by_cases e : i = j
        · subst e
          have := h.wf.inj _ _ _ hn hi
          subst this
          simp only [List.getElem?_set_self hlt, after, List.mem_cons, true_or, if_true]
          rw [if_neg hrun]; omega
        · have hne : n ≠ m := by rintro rfl; rw [hi] at hn; cases hn; exact e rfl
          simp only [List.getElem?_set_ne (Ne.symm e), ht, after, List.mem_cons, hne, false_or]
          by_cases hm : n ∈ run
          · rw [if_pos (hon.2 hm), if_pos (hon.2 hm), if_pos hm]; omega
          · have : ¬ s.tmrs[i].running = true := fun e => hm (hon.1 e)
            rw [if_neg this, if_neg this, if_neg hm]; omega
  | stop m =>
    simp only [TimeStats.step] at hs
    cases hi : s.getId m with
    | none =>
      rw [hi] at hs
      simp only [TimeStats.endId, Option.some.injEq] at hs
      subst hs
      refine ⟨hn, ?_⟩
      have hne : n ≠ m := by rintro rfl; rw [hi] at hn; cases hn
      unfold TimeStats.totalTicks
      rw [hn]
      simp only [ht, after, List.mem_filter, hne, ne_eq, not_false_eq_true, decide_true, and_true]
      by_cases hm : n ∈ run
      · rw [if_pos (hon.2 hm), if_pos (hon.2 hm), if_pos hm]; omega
      · have : ¬ s.tmrs[i].running = true := fun e => hm (hon.1 e)
        rw [if_neg this, if_neg this, if_neg hm]; omega
    | some j =>
      rw [hi] at hs
      have hltj := h.wf.lt _ _ hi
      have htj : s.tmrs[j]? = some s.tmrs[j] := List.getElem?_eq_getElem hltj
      simp only [TimeStats.endId, htj] at hs
      split at hs
      · rename_i hrun
        cases hs
        refine ⟨hn, ?_⟩
        unfold TimeStats.totalTicks
        rw [getId_set, hn]
        simp only [ht]
        by_cases e : i = j
        · subst e
          have := h.wf.inj _ _ _ hn hi
          subst this
          simp only [List.getElem?_set_self hlt, after, List.mem_filter, ne_eq, not_true_eq_false, decide_false,
            Bool.false_eq_true, and_false, if_false]
          rw [if_pos hrun]; omega
        · have hne : n ≠ m := by rintro rfl; rw [hi] at hn; cases hn; exact e rfl
          simp only [List.getElem?_set_ne (Ne.symm e), ht, after, List.mem_filter, hne, ne_eq, not_false_eq_true,
            decide_true, and_true]
          by_cases hm : n ∈ run
          · rw [if_pos (hon.2 hm), if_pos (hon.2 hm), if_pos hm]; omega
          · have : ¬ s.tmrs[i].running = true := fun e => hm (hon.1 e)
            rw [if_neg this, if_neg this, if_neg hm]; omega
      · cases hs

theorem step_ok {s : TimeStats} {run : List String} (h : RSt s run) {o : TOp} {os : List TOp} (hp : Plain o = true)
    (ha : Alternating run (o :: os)) (now : ℤ) : ∃ s', s.step (o, now) = some s' ∧ RSt s' (after run o) := by
  cases o with
  | addValue => cases hp
  | addTime => cases hp
  | endAll => cases hp
  | register m v => exact ⟨_, rfl, h.register ha.1 v now⟩
  | start m => exact h.start ha.1 now
  | stop m => exact h.stop ha.1 now

/-- **Histories by name.** If timers are started and stopped alternately no assertion fails, and every timer has counted
the time during which it ran. -/
theorem alternating_run (cl : ℕ → ℤ) : ∀ (os : List TOp) (k : ℕ) (s : TimeStats) (run : List String), RSt s run →
    Alternating run os → (∀ o ∈ os, Plain o = true) →
    ∃ s', s.run (stamp cl k os) = some s' ∧ RSt s' (afterAll run os) ∧
      ∀ n i, s.getId n = some i → (∀ o ∈ os, ∀ v, o ≠ .register n v) → s'.getId n = some i ∧
        s'.totalTicks n (cl (k + os.length)) = s.totalTicks n (cl k) + spent cl n k run os
  | [], k, s, run, h, _, _ => ⟨s, rfl, h, fun n i hi _ => ⟨hi, by simp [spent]⟩⟩
  | o :: os, k, s, run, h, ha, hp => by
    obtain ⟨s1, h1, h2⟩ := step_ok h (hp o (List.mem_cons_self ..)) ha (cl k)
    obtain ⟨s', h3, h4, h5⟩ := alternating_run cl os (k + 1) s1 (after run o) h2 ha.2
      (fun o ho => hp o (List.mem_cons_of_mem _ ho))
    refine ⟨s', ?_, h4, fun n i hi hr => ?_⟩
    · simp only [stamp, TimeStats.run, List.foldlM_cons, h1]
      exact h3
    · obtain ⟨h6, h7⟩ := total_step h h1 (hp o (List.mem_cons_self ..)) hi (hr o (List.mem_cons_self ..)) h2 (cl (k + 1))
      obtain ⟨h8, h9⟩ := h5 n i h6 (fun o ho => hr o (List.mem_cons_of_mem _ ho))
      refine ⟨h8, ?_⟩
      rw [List.length_cons, show k + (os.length + 1) = k + 1 + os.length by omega, h9, h7, spent]
      omega

/-! ## Comparing times -/

/-- Number of timers of `H` that run. -/
def countIn (H : List String) (r : List String) : ℕ := (H.filter fun h => decide (h ∈ r)).length

theorem spent_sum (cl : ℕ → ℤ) (H : List String) : ∀ (os : List TOp) (k : ℕ) (run : List String),
    (H.map fun h => spent cl h k run os).sum =
      match os with
      | [] => 0
      | o :: os => (countIn H (after run o) : ℤ) * (cl (k + 1) - cl k) +
          (H.map fun h => spent cl h (k + 1) (after run o) os).sum := by
  intro os k run
  cases os with
  | nil =>
    simp only [spent]
    induction H with
    | nil => rfl
    | cons h H ih => rw [List.map_cons, List.sum_cons, ih]; rfl
  | cons o os =>
    simp only [spent]
    induction H with
    | nil => simp [countIn]
    | cons h H ih =>
      rw [List.map_cons, List.sum_cons, ih, List.map_cons, List.sum_cons]
      unfold countIn
      rw [List.filter_cons]
      by_cases hm : h ∈ after run o
      · simp only [hm, if_true, decide_true, List.length_cons]
        push_cast
        ring
      · simp only [hm, if_false, decide_false, Bool.false_eq_true]
        ring

/-- If at each moment at most one of the timers `H` runs, and only while `m` runs, their times sum up to at most the one of
`m`. -/
theorem spent_le {cl : ℕ → ℤ} (hc : Forward cl) (H : List String) (m : String) :
    ∀ (os : List TOp) (k : ℕ) (run : List String),
      Always (fun r => countIn H r ≤ if m ∈ r then 1 else 0) run os →
      (H.map fun h => spent cl h k run os).sum ≤ spent cl m k run os
  | [], k, run, _ => by rw [spent_sum]; simp [spent]
  | o :: os, k, run, ha => by
    rw [spent_sum, spent]
    have ih := spent_le hc H m os (k + 1) (after run o) ha.2
    have h1 := ha.1
    dsimp only at h1 ⊢
    have h2 := hc k
    split at h1
    · rename_i hm
      have : (countIn H (after run o) : ℤ) * (cl (k + 1) - cl k) ≤ 1 * (cl (k + 1) - cl k) :=
        mul_le_mul_of_nonneg_right (by exact_mod_cast h1) (by omega)
      rw [if_pos hm]; omega
    · rename_i hm
      have : countIn H (after run o) = 0 := by omega
      rw [this, if_neg hm]
      push_cast
      omega

theorem spent_nonneg {cl : ℕ → ℤ} (hc : Forward cl) (m : String) :
    ∀ (os : List TOp) (k : ℕ) (run : List String), 0 ≤ spent cl m k run os
  | [], _, _ => le_refl _
  | o :: os, k, run => by
    have ih := spent_nonneg hc m os (k + 1) (after run o)
    have := hc k
    rw [spent]
    split <;> omega

theorem Always.mono {p q : List String → Prop} (h : ∀ r, p r → q r) :
    ∀ {os : List TOp} {run : List String}, Always p run os → Always q run os
  | [], _, _ => trivial
  | _ :: _, _, ha => ⟨h _ ha.1, Always.mono h ha.2⟩

/-! ## Composition -/

theorem alternating_append : ∀ {a b : List TOp} {run : List String}, Alternating run a →
    Alternating (afterAll run a) b → Alternating run (a ++ b)
  | [], _, _, _, hb => hb
  | _ :: _, _, _, ha, hb => ⟨ha.1, alternating_append ha.2 hb⟩

theorem always_append {p : List String → Prop} : ∀ {a b : List TOp} {run : List String}, Always p run a →
    Always p (afterAll run a) b → Always p run (a ++ b)
  | [], _, _, _, hb => hb
  | _ :: _, _, _, ha, hb => ⟨ha.1, always_append ha.2 hb⟩

theorem afterAll_append (run : List String) (a b : List TOp) : afterAll run (a ++ b) = afterAll (afterAll run a) b :=
  List.foldl_append ..

/-- A piece of a run during which timers are started and stopped alternately, at the end of which the same timers
run as before, and during which `p` holds. -/
structure Piece (p : List String → Prop) (run : List String) (os : List TOp) : Prop where
  alt : Alternating run os
  same : afterAll run os = run
  all : Always p run os

theorem Piece.nil {p : List String → Prop} {run : List String} : Piece p run [] := ⟨trivial, rfl, trivial⟩

theorem Piece.append {p : List String → Prop} {run : List String} {a b : List TOp} (ha : Piece p run a)
    (hb : Piece p run b) : Piece p run (a ++ b) :=
  ⟨alternating_append ha.alt (by rw [ha.same]; exact hb.alt), by rw [afterAll_append, ha.same, hb.same],
    always_append ha.all (by rw [ha.same]; exact hb.all)⟩

theorem filter_cons_self {m : String} {run : List String} (hm : m ∉ run) :
    (m :: run).filter (fun x => decide (x ≠ m)) = run := by
  rw [List.filter_cons_of_neg (by simp)]
  exact List.filter_eq_self.2 fun x hx => decide_eq_true (fun e => hm (e ▸ hx))

/-- A timer around a piece. -/
theorem Piece.timed {p : List String → Prop} {run : List String} {m : String} {os : List TOp} (hm : m ∉ run)
    (h : Piece p (m :: run) os) (h1 : p (m :: run)) (h0 : p run) :
    Piece p run (.start m :: (os ++ [.stop m])) := by
  have e : afterAll (m :: run) (os ++ [.stop m]) = run := by
    rw [afterAll_append, h.same]; exact filter_cons_self hm
  refine ⟨⟨hm, alternating_append h.alt ?_⟩, e, ⟨h1, always_append h.all ?_⟩⟩
  · show Alternating (afterAll (m :: run) os) _
    rw [h.same]; exact ⟨List.mem_cons_self .., trivial⟩
  · show Always p (afterAll (m :: run) os) _
    rw [h.same]
    refine ⟨?_, trivial⟩
    have : after (m :: run) (.stop m) = run := filter_cons_self hm
    rw [this]; exact h0

/-! ## Numbers and names -/

/-- The same call by name, if the timers `fixed` have the numbers 0, 1, ... -/
def byName (fixed : List String) : TmOp → TOp
  | .op o => o
  | .startIx i => .start (fixed.getD i "")
  | .stopIx i => .stop (fixed.getD i "")

/-- Numbers in range, names of `fixed` not registered again, no value added by hand. -/
def Fits (fixed : List String) : TmOp → Prop
  | .op (.register m _) => m ∉ fixed
  | .op o => Plain o = true
  | .startIx i => i < fixed.length
  | .stopIx i => i < fixed.length

theorem fits_plain {fixed : List String} {o : TmOp} (h : Fits fixed o) : Plain (byName fixed o) = true := by
  cases o with
  | op o => cases o <;> first | rfl | exact h
  | startIx => rfl
  | stopIx => rfl

theorem fits_register {fixed : List String} {o : TmOp} (h : Fits fixed o) {n : String} (hn : n ∈ fixed) (v : ℤ) :
    byName fixed o ≠ .register n v := by
  cases o with
  | op o =>
    cases o <;> intro e <;> simp only [byName] at e <;> cases e
    exact h hn
  | startIx => simp [byName]
  | stopIx => simp [byName]

theorem step_getId {s s' : TimeStats} {o : TOp} {now : ℤ} (h : s.step (o, now) = some s') {n : String}
    (hr : ∀ v, o ≠ .register n v) : s'.getId n = s.getId n := by
  by_cases hx : ∃ m v, o = .register m v
  · obtain ⟨m, v, rfl⟩ := hx
    simp only [TimeStats.step, Option.some.injEq] at h
    subst h
    rw [getId_register, if_neg]
    rintro rfl
    exact hr v rfl
  · have := step_names h (fun m v e => hx ⟨m, v, e⟩)
    unfold TimeStats.getId
    rw [this.1]

theorem getD_name {fixed : List String} {i : ℕ} (hi : i < fixed.length) : fixed[i]? = some (fixed.getD i "") := by
  simp [List.getElem?_eq_getElem hi]

theorem runG_byName (cl : ℕ → ℤ) (fixed : List String) : ∀ (os : List TmOp) (k : ℕ) (s : TimeStats),
    (∀ i n, fixed[i]? = some n → s.getId n = some i) → (∀ o ∈ os, Fits fixed o) →
    s.runG (stamp cl k os) = s.run (stamp cl k (os.map (byName fixed)))
  | [], _, _, _, _ => rfl
  | o :: os, k, s, hid, hf => by
    have h1 : s.stepG (o, cl k) = s.step (byName fixed o, cl k) := by
      have hfo := hf o (List.mem_cons_self ..)
      cases o with
      | op o => rfl
      | startIx i =>
        have hi : i < fixed.length := hfo
        have : s.getId (fixed.getD i "") = some i := hid i _ (getD_name hi)
        simp only [TimeStats.stepG, byName, TimeStats.step, this]
      | stopIx i =>
        have hi : i < fixed.length := hfo
        have : s.getId (fixed.getD i "") = some i := hid i _ (getD_name hi)
        simp only [TimeStats.stepG, byName, TimeStats.step, this]
    simp only [TimeStats.runG, TimeStats.run, stamp, List.map_cons, List.foldlM_cons, h1]
    cases h2 : s.step (byName fixed o, cl k) with
    | none => rfl
    | some s1 =>
      refine runG_byName cl fixed os (k + 1) s1 (fun i n hn => ?_) (fun o ho => hf o (List.mem_cons_of_mem _ ho))
      rw [step_getId h2 (fun v => fits_register (hf o (List.mem_cons_self ..)) (List.mem_of_getElem? hn) v)]
      exact hid i n hn

/-- After registering new names one by one, they have consecutive numbers and stand at 0. -/
theorem registered (cl : ℕ → ℤ) : ∀ (L : List String) (k : ℕ) (s : TimeStats), RSt s [] → L.Nodup →
    ∃ s', s.runG (stamp cl k (L.map fun n => TmOp.op (.register n 0))) = some s' ∧ RSt s' [] ∧
      (∀ n, n ∉ L → s'.getId n = s.getId n) ∧ (∀ (i : ℕ) (t : Tmr), s.tmrs[i]? = some t → s'.tmrs[i]? = some t) ∧
      (∀ (i : ℕ) (n : String), L[i]? = some n → s'.getId n = some (s.tmrs.length + i)) ∧
      (∀ n ∈ L, ∀ now, s'.totalTicks n now = 0)
  | [], _, s, h, _ => ⟨s, rfl, h, fun _ _ => rfl, fun _ _ h => h, by simp, by simp⟩
  | n :: L, k, s, h, hn => by
    obtain ⟨s', h1, h2, h3, h4, h5, h6⟩ := registered cl L (k + 1) (s.register n 0 (cl k))
      (h.register (List.not_mem_nil) 0 (cl k)) (List.nodup_cons.1 hn).2
    have hnL := (List.nodup_cons.1 hn).1
    have hid : s'.getId n = some s.tmrs.length := by rw [h3 n hnL, getId_register, if_pos rfl]
    refine ⟨s', h1, h2, fun m hm => ?_, fun i t ht => ?_, fun i m hm => ?_, fun m hm now => ?_⟩
    · rw [h3 m (fun e => hm (List.mem_cons_of_mem _ e)), getId_register, if_neg]
      rintro rfl
      exact hm (List.mem_cons_self ..)
    · refine h4 i t ?_
      simp only [TimeStats.register]
      rw [List.getElem?_append_left (List.getElem?_eq_some_iff.1 ht).1, ht]
    · cases i with
      | zero =>
        cases hm
        rw [hid]; rfl
      | succ i =>
        rw [h5 i m hm]
        simp [TimeStats.register]
        omega
    · by_cases hmL : m ∈ L
      · exact h6 m hmL now
      · have : m = n := by
          rcases List.mem_cons.1 hm with e | e
          · exact e
          · exact absurd e hmL
        subst this
        have ht := h4 s.tmrs.length ⟨cl k, 0, false⟩ (by simp [TimeStats.register])
        simp [TimeStats.totalTicks, hid, ht]

theorem getValue_off {s : TimeStats} (h : RSt s []) {n : String} {i : ℕ} (hi : s.getId n = some i) (now : ℤ) :
    s.getValue n = s.totalTicks n now := by
  have hlt := h.wf.lt _ _ hi
  have ht : s.tmrs[i]? = some s.tmrs[i] := List.getElem?_eq_getElem hlt
  have hr : s.tmrs[i].running = false := by
    cases e : s.tmrs[i].running
    · rfl
    · exact absurd ((h.on n i _ hi ht).1 e) (List.not_mem_nil)
  simp [TimeStats.getValue, TimeStats.totalTicks, hi, ht, hr]

theorem runG_append {s : TimeStats} (a b : List (TmOp × ℤ)) :
    s.runG (a ++ b) = (s.runG a).bind (fun r => r.runG b) := by
  simp [TimeStats.runG, List.foldlM_append]

theorem stamp_append {α : Type} (cl : ℕ → ℤ) : ∀ (a b : List α) (k : ℕ),
    stamp cl k (a ++ b) = stamp cl k a ++ stamp cl (k + a.length) b
  | [], _, _ => rfl
  | x :: a, b, k => by
    simp only [List.cons_append, stamp, stamp_append cl a b (k + 1), List.length_cons]
    rw [show k + 1 + a.length = k + (a.length + 1) by omega]

/-- A whole run: registration, then a history that fits. -/
theorem whole_run (cl : ℕ → ℤ) (fixed : List String) (hn : fixed.Nodup) (os : List TmOp) (hf : ∀ o ∈ os, Fits fixed o)
    (ha : Alternating [] (os.map (byName fixed))) :
    ∃ s, TimeStats.empty.runG (stamp cl 0 ((fixed.map fun n => TmOp.op (.register n 0)) ++ os)) = some s ∧
      RSt s (afterAll [] (os.map (byName fixed))) ∧
      ∀ n ∈ fixed, (∃ i, s.getId n = some i) ∧
        s.totalTicks n (cl (fixed.length + os.length)) =
          spent cl n fixed.length [] (os.map (byName fixed)) := by
  obtain ⟨s0, h1, h2, -, -, h5, h6⟩ := registered cl fixed 0 TimeStats.empty
    ⟨TWF_empty, fun m i t hi _ => by cases hi⟩ hn
  have hid : ∀ i n, fixed[i]? = some n → s0.getId n = some i := fun i n h => by
    rw [h5 i n h]; simp [TimeStats.empty]
  obtain ⟨s, h7, h8, h9⟩ := alternating_run cl (os.map (byName fixed)) fixed.length s0 [] h2 ha (fun o ho => by
    obtain ⟨o', ho', rfl⟩ := List.mem_map.1 ho
    exact fits_plain (hf o' ho'))
  refine ⟨s, ?_, h8, fun n hm => ?_⟩
  · rw [stamp_append, runG_append, h1]
    simp only [Option.bind_some, List.length_map, Nat.zero_add]
    rw [runG_byName cl fixed os _ s0 hid hf, h7]
  · obtain ⟨i, hi⟩ := List.mem_iff_getElem?.1 hm
    obtain ⟨h10, h11⟩ := h9 n i (hid i n hi) (fun o ho v => by
      obtain ⟨o', ho', rfl⟩ := List.mem_map.1 ho
      exact fits_register (hf o' ho') hm v)
    refine ⟨⟨i, h10⟩, ?_⟩
    rw [List.length_map] at h11
    rw [h11, h6 n hm, zero_add]

/-- No timer has counted more than the time that went by. -/
theorem spent_elapsed {cl : ℕ → ℤ} (hc : Forward cl) (m : String) :
    ∀ (os : List TOp) (k : ℕ) (run : List String), spent cl m k run os ≤ cl (k + os.length) - cl k
  | [], _, _ => by simp [spent]
  | o :: os, k, run => by
    have ih := spent_elapsed hc m os (k + 1) (after run o)
    have := hc k
    rw [spent, List.length_cons, show k + (os.length + 1) = k + 1 + os.length by omega]
    split <;> omega

/-- A timer that is never started has counted nothing. -/
theorem spent_never {cl : ℕ → ℤ} {m : String} :
    ∀ (os : List TOp) (k : ℕ) (run : List String), Always (fun r => m ∉ r) run os → spent cl m k run os = 0
  | [], _, _, _ => rfl
  | o :: os, k, run, h => by
    rw [spent, if_neg h.1, spent_never os (k + 1) _ h.2, add_zero]

/-! ## The generator -/

/-- The timers of the heuristics. -/
def heurNames : List String :=
  ["ALL_ONES_TIME", "ITER_BILINEAR_TIME", "DISJ_LB_TIME", "TIGHT_POINTS_TIME", "UNIT_VECTORS_TIME", "TIGHT_RAYS_TIME",
   "TIGHT_POINTS2_TIME", "TIGHT_RAYS2_TIME"]

/-- The parts of a call of the generator that have a timer. -/
def partNames : List String :=
  ["GEN_DISJ_TIME", "PRLP_SETUP_TIME", "DUMMY_OBJ_TIME", "PRLP_SOLVE_TIME", "GEN_CUTS_TIME"]

/-- The timers of the generator that can run together. -/
inductive GenMoment : List String → Prop
  | idle : GenMoment []
  | total : GenMoment ["TOTAL_TIME"]
  | part {m : String} (hm : m ∈ partNames) : GenMoment [m, "TOTAL_TIME"]
  | solve : GenMoment ["PRLP_SOLVE_TIME", "GEN_CUTS_TIME", "TOTAL_TIME"]
  | heur {h : String} (hm : h ∈ heurNames) : GenMoment [h, "GEN_CUTS_TIME", "TOTAL_TIME"]
  | solveHeur {h : String} (hm : h ∈ heurNames) : GenMoment ["PRLP_SOLVE_TIME", h, "GEN_CUTS_TIME", "TOTAL_TIME"]
  | terms : GenMoment ["TIME_TYPE1_TOTAL", "TOTAL_TIME"]
  | term (i : ℕ) : GenMoment [t1Name i, "TIME_TYPE1_TOTAL", "TOTAL_TIME"]
  | termEnd (i : ℕ) : GenMoment [t1Name i, "TOTAL_TIME"]

/-- The timers with a fixed number. -/
def genNames : List String := vpcTimeNames ++ objTimeNames

theorem t1Name_ne {i : ℕ} {n : String} (h : n.toList.take 11 ≠ "TIME_TYPE1_".toList) : n ≠ t1Name i := by
  rintro rfl
  apply h
  simp [t1Name]

theorem t2Name_ne {i : ℕ} {n : String} (h : n.toList.take 11 ≠ "TIME_TYPE2_".toList) : n ≠ t2Name i := by
  rintro rfl
  apply h
  simp [t2Name]

theorem t1Name_total (i : ℕ) : "TIME_TYPE1_TOTAL" ≠ t1Name i := by
  intro e
  have h : ("TIME_TYPE1_TOTAL".toList).drop 11 = (t1Name i).toList.drop 11 := by rw [e]
  have h1 : (t1Name i).toList.drop 11 = Nat.toDigits 10 i := by
    simp [t1Name, Nat.repr]
  rw [h1] at h
  have h2 : 'T' ∈ Nat.toDigits 10 i := by rw [← h]; decide
  have := Nat.isDigit_of_mem_toDigits (by norm_num) (by norm_num) h2
  exact absurd this (by decide)

theorem t1Name_genNames (i : ℕ) : t1Name i ∉ genNames := by
  intro h
  have : ∀ n ∈ genNames, n.toList.take 11 ≠ "TIME_TYPE1_".toList := by decide
  exact t1Name_ne (this _ h) rfl

theorem t2Name_genNames (i : ℕ) : t2Name i ∉ genNames := by
  intro h
  have : ∀ n ∈ genNames, n.toList.take 11 ≠ "TIME_TYPE2_".toList := by decide
  exact t2Name_ne (this _ h) rfl

/-- The calls of the generator by name. -/
abbrev genBy : TmOp → TOp := byName genNames

/-- A piece of a call of the generator. -/
abbrev GPiece (run : List String) (os : List TmOp) : Prop := Piece GenMoment run (os.map genBy)

theorem GPiece.app {run : List String} {a b : List TmOp} (ha : GPiece run a) (hb : GPiece run b) :
    GPiece run (a ++ b) := by
  unfold GPiece; rw [List.map_append]; exact Piece.append ha hb

theorem GPiece.timed {run : List String} {m : String} {os : List TmOp} (hm : m ∉ run) (h : GPiece (m :: run) os)
    (h1 : GenMoment (m :: run)) (h0 : GenMoment run) : GPiece run (gStart m :: (os ++ [gStop m])) := by
  unfold GPiece
  rw [List.map_cons, List.map_append]
  exact Piece.timed hm h h1 h0

theorem solves_piece {run : List String} (hm : "PRLP_SOLVE_TIME" ∉ run) (h1 : GenMoment ("PRLP_SOLVE_TIME" :: run))
    (h0 : GenMoment run) : ∀ k, GPiece run (solvesOps k)
  | 0 => Piece.nil
  | k + 1 => GPiece.app (GPiece.timed (os := []) hm Piece.nil h1 h0) (solves_piece hm h1 h0 k)

theorem heur_fresh {h : String} (hm : h ∈ heurNames) :
    h ∉ ["GEN_CUTS_TIME", "TOTAL_TIME"] ∧ "PRLP_SOLVE_TIME" ∉ [h, "GEN_CUTS_TIME", "TOTAL_TIME"] := by
  revert h; decide

theorem phase_piece {nm : String} (hm : nm ∈ heurNames) (p : PhaseW) {rest : List TmOp}
    (hr : GPiece ["GEN_CUTS_TIME", "TOTAL_TIME"] rest) :
    GPiece ["GEN_CUTS_TIME", "TOTAL_TIME"] (phaseOps nm p rest) := by
  have h0 : GenMoment ["GEN_CUTS_TIME", "TOTAL_TIME"] := .part (by decide)
  unfold phaseOps
  refine GPiece.app ?_ ?_
  · cases p.solves with
    | none => exact Piece.nil
    | some k =>
      exact GPiece.timed (heur_fresh hm).1 (solves_piece (heur_fresh hm).2 (.solveHeur hm) (.heur hm) k) (.heur hm) h0
  · split
    · exact Piece.nil
    · exact hr

theorem target_piece (w : TargetW) : GPiece ["GEN_CUTS_TIME", "TOTAL_TIME"] (targetOps w) := by
  have h0 : GenMoment ["GEN_CUTS_TIME", "TOTAL_TIME"] := .part (by decide)
  unfold targetOps
  split
  · exact Piece.nil
  · refine phase_piece (by decide) _ (phase_piece (by decide) _ (GPiece.app ?_ ?_))
    · exact GPiece.timed (os := []) (by decide) Piece.nil .solve h0
    · exact phase_piece (by decide) _ (phase_piece (by decide) _ (phase_piece (by decide) _ (phase_piece (by decide) _
        (phase_piece (by decide) _ (phase_piece (by decide) _ Piece.nil)))))

theorem try_piece (w : TryW) : GPiece ["TOTAL_TIME"] (tryOps w) := by
  unfold tryOps
  cases w.setup with
  | none => exact Piece.nil
  | some solved =>
    refine GPiece.app ?_ (GPiece.app ?_ ?_)
    · unfold prlpSetupOps
      refine GPiece.app ?_ ?_
      · show Piece GenMoment ["TOTAL_TIME"] [.start "PRLP_SETUP_TIME", .stop "PRLP_SETUP_TIME"]
        exact Piece.timed (os := []) (by decide) Piece.nil (.part (by decide)) .total
      · split
        · exact GPiece.timed (os := []) (by decide) Piece.nil (.part (by decide)) .total
        · exact Piece.nil
    · exact solves_piece (by decide) (.part (by decide)) .total w.user
    · cases w.target with
      | none => exact Piece.nil
      | some t => exact GPiece.timed (by decide) (target_piece t) (.part (by decide)) .total

theorem terms_piece : ∀ (ts : List (Bool × Bool)) (i : ℕ), GPiece ["TOTAL_TIME"] (termsOps i ts)
  | [], _ => Piece.nil
  | (feasible, inTime) :: ts, i => by
    have ha : t1Name i ≠ "TOTAL_TIME" := (t1Name_ne (by decide)).symm
    have hb : t2Name i ≠ "TOTAL_TIME" := (t2Name_ne (by decide)).symm
    have hc : t1Name i ≠ "TIME_TYPE1_TOTAL" := (t1Name_total i).symm
    unfold termsOps
    refine GPiece.app ?_ (terms_piece ts (i + 1))
    split
    · refine GPiece.app ?_ ?_
      · refine ⟨⟨?_, ?_, trivial⟩, rfl, .total, .total, trivial⟩
        · show t1Name i ∉ ["TOTAL_TIME"]
          simpa using ha
        · show t2Name i ∉ ["TOTAL_TIME"]
          simpa using hb
      · split
        · have e1 : after ["TIME_TYPE1_TOTAL", "TOTAL_TIME"] (.start (t1Name i)) =
              [t1Name i, "TIME_TYPE1_TOTAL", "TOTAL_TIME"] := rfl
          have e2 : after [t1Name i, "TIME_TYPE1_TOTAL", "TOTAL_TIME"] (.stop "TIME_TYPE1_TOTAL") =
              [t1Name i, "TOTAL_TIME"] := by
            simp [after, hc]
          have e3 : after [t1Name i, "TOTAL_TIME"] (.stop (t1Name i)) = ["TOTAL_TIME"] := by
            simp [after, ha.symm]
          show Piece GenMoment ["TOTAL_TIME"] [.start "TIME_TYPE1_TOTAL", .start (t1Name i), .stop "TIME_TYPE1_TOTAL",
            .stop (t1Name i)]
          have e0 : after ["TOTAL_TIME"] (.start "TIME_TYPE1_TOTAL") = ["TIME_TYPE1_TOTAL", "TOTAL_TIME"] := rfl
          refine ⟨?_, ?_, ?_⟩
          · simp only [Alternating, e0, e1, e2]
            refine ⟨by decide, ?_, by simp, by simp, trivial⟩
            simp [hc, ha]
          · simp only [afterAll, List.foldl_cons, List.foldl_nil, e0, e1, e2, e3]
          · simp only [Always, e0, e1, e2, e3]
            exact ⟨.terms, .term i, .termEnd i, .total, trivial⟩
        · exact Piece.nil
    · exact Piece.nil

theorem disj_piece (w : DisjW) : GPiece ["TOTAL_TIME"] (disjOps w) := by
  unfold disjOps
  refine GPiece.app (terms_piece _ _) ?_
  cases w.try? with
  | none => exact Piece.nil
  | some t => exact try_piece t

theorem disjs_piece : ∀ ws, GPiece ["TOTAL_TIME"] (disjsOps ws)
  | [] => Piece.nil
  | w :: ws => GPiece.app (disj_piece w) (disjs_piece ws)

/-- Not a split disjunction for which there is no variable to choose. -/
def PrepW.Answered : PrepW → Prop
  | .split var core => ¬ (var < 0 ∧ core = 0)
  | _ => True

theorem preps_piece : ∀ ps : List PrepW, (∀ p ∈ ps, p.Answered) → GPiece ["TOTAL_TIME"] (prepsOps ps)
  | [], _ => Piece.nil
  | p :: ps, h => by
    refine GPiece.app ?_ (preps_piece ps fun p hp => h p (List.mem_cons_of_mem _ hp))
    have hp := h p (List.mem_cons_self ..)
    have ht : GPiece ["TOTAL_TIME"] [gStart "GEN_DISJ_TIME", gStop "GEN_DISJ_TIME"] :=
      GPiece.timed (os := []) (by decide) Piece.nil (.part (by decide)) .total
    cases p with
    | tooFew => exact Piece.nil
    | tree => exact ht
    | split var core =>
      have e : prepOps (.split var core) = [gStart "GEN_DISJ_TIME", gStop "GEN_DISJ_TIME"] := if_neg hp
      rw [e]
      exact ht

/-- The disjunctions prepared in a call. -/
def GenW.preps (w : GenW) : List PrepW := w.prep.getD []

theorem generate_piece (w : GenW) (h : ∀ p ∈ w.preps, p.Answered) : GPiece [] (generateOps w) := by
  unfold generateOps
  refine GPiece.timed (List.not_mem_nil) ?_ .total .idle
  unfold GenW.preps at h
  cases hp : w.prep with
  | none => exact Piece.nil
  | some ps =>
    rw [hp] at h
    refine GPiece.app (preps_piece ps h) ?_
    cases w.disjs with
    | none => exact Piece.nil
    | some ds => exact disjs_piece ds

theorem calls_piece : ∀ ws : List GenW, (∀ w ∈ ws, ∀ p ∈ w.preps, p.Answered) → GPiece [] (callsOps ws)
  | [], _ => Piece.nil
  | w :: ws, h => GPiece.app (generate_piece w (h w (List.mem_cons_self ..)))
      (calls_piece ws fun w hw => h w (List.mem_cons_of_mem _ hw))

/-! Numbers in range, names. -/

theorem fits_solves : ∀ k, ∀ o ∈ solvesOps k, Fits genNames o
  | 0 => by simp [solvesOps]
  | k + 1 => by
    intro o ho
    rcases List.mem_append.1 ho with h | h
    · simp only [genCutOps, List.mem_cons, List.not_mem_nil, or_false] at h
      rcases h with rfl | rfl <;> rfl
    · exact fits_solves k o h

theorem fits_phase {nm : String} {p : PhaseW} {rest : List TmOp} (h : ∀ o ∈ rest, Fits genNames o) :
    ∀ o ∈ phaseOps nm p rest, Fits genNames o := by
  intro o ho
  unfold phaseOps at ho
  rcases List.mem_append.1 ho with h' | h'
  · cases hp : p.solves with
    | none => rw [hp] at h'; cases h'
    | some k =>
      rw [hp] at h'
      simp only [List.mem_cons, List.mem_append, List.not_mem_nil, or_false] at h'
      rcases h' with rfl | h' | rfl
      · rfl
      · exact fits_solves k o h'
      · rfl
  · split at h'
    · cases h'
    · exact h o h'

theorem fits_target (w : TargetW) : ∀ o ∈ targetOps w, Fits genNames o := by
  unfold targetOps
  split
  · simp
  · refine fits_phase (fits_phase ?_)
    intro o ho
    rcases List.mem_append.1 ho with h | h
    · exact fits_solves 1 o (by simpa [solvesOps] using h)
    · exact fits_phase (fits_phase (fits_phase (fits_phase (fits_phase (fits_phase (by simp)))))) o h

theorem fits_try (w : TryW) : ∀ o ∈ tryOps w, Fits genNames o := by
  intro o ho
  unfold tryOps at ho
  cases hs : w.setup with
  | none => rw [hs] at ho; cases ho
  | some solved =>
    rw [hs] at ho
    simp only [List.mem_append] at ho
    rcases ho with h | h | h
    · unfold prlpSetupOps at h
      rcases List.mem_append.1 h with h | h
      · simp only [List.mem_cons, List.not_mem_nil, or_false] at h
        rcases h with rfl | rfl <;> (show 4 < genNames.length; decide)
      · split at h
        · simp only [List.mem_cons, List.not_mem_nil, or_false] at h
          rcases h with rfl | rfl <;> rfl
        · cases h
    · exact fits_solves _ o h
    · cases ht : w.target with
      | none => rw [ht] at h; cases h
      | some t =>
        rw [ht] at h
        simp only [List.mem_cons, List.mem_append, List.not_mem_nil, or_false] at h
        rcases h with rfl | h | rfl
        · rfl
        · exact fits_target t o h
        · rfl

theorem fits_terms : ∀ (ts : List (Bool × Bool)) (i : ℕ), ∀ o ∈ termsOps i ts, Fits genNames o
  | [], _ => by simp [termsOps]
  | (feasible, inTime) :: ts, i => by
    intro o ho
    unfold termsOps at ho
    rcases List.mem_append.1 ho with h | h
    · split at h
      · rcases List.mem_append.1 h with h | h
        · simp only [List.mem_cons, List.not_mem_nil, or_false] at h
          rcases h with rfl | rfl
          · exact t1Name_genNames i
          · exact t2Name_genNames i
        · split at h
          · simp only [List.mem_cons, List.not_mem_nil, or_false] at h
            rcases h with rfl | rfl | rfl | rfl <;> rfl
          · cases h
      · cases h
    · exact fits_terms ts (i + 1) o h

theorem fits_disjs : ∀ (ws : List DisjW), ∀ o ∈ disjsOps ws, Fits genNames o
  | [] => by simp [disjsOps]
  | w :: ws => by
    intro o ho
    rcases List.mem_append.1 ho with h | h
    · unfold disjOps at h
      rcases List.mem_append.1 h with h | h
      · exact fits_terms _ _ o h
      · cases ht : w.try? with
        | none => rw [ht] at h; cases h
        | some t => rw [ht] at h; exact fits_try t o h
    · exact fits_disjs ws o h

theorem fits_preps : ∀ (ps : List PrepW), ∀ o ∈ prepsOps ps, Fits genNames o
  | [] => by simp [prepsOps]
  | p :: ps => by
    intro o ho
    rcases List.mem_append.1 ho with h | h
    · cases p with
      | tooFew => cases h
      | tree =>
        simp only [prepOps, List.mem_cons, List.not_mem_nil, or_false] at h
        rcases h with rfl | rfl <;> rfl
      | split var core =>
        simp only [prepOps] at h
        split at h
        · simp only [List.mem_cons, List.not_mem_nil, or_false] at h
          subst h; rfl
        · simp only [List.mem_cons, List.not_mem_nil, or_false] at h
          rcases h with rfl | rfl <;> rfl
    · exact fits_preps ps o h

theorem fits_calls : ∀ (ws : List GenW), ∀ o ∈ callsOps ws, Fits genNames o
  | [] => by simp [callsOps]
  | w :: ws => by
    intro o ho
    rcases List.mem_append.1 ho with h | h
    · unfold generateOps at h
      rcases List.mem_cons.1 h with rfl | h
      · rfl
      · rcases List.mem_append.1 h with h | h
        · cases hp : w.prep with
          | none => rw [hp] at h; cases h
          | some ps =>
            rw [hp] at h
            rcases List.mem_append.1 h with h | h
            · exact fits_preps ps o h
            · cases hd : w.disjs with
              | none => rw [hd] at h; cases h
              | some ds => rw [hd] at h; exact fits_disjs ds o h
        · simp only [List.mem_cons, List.not_mem_nil, or_false] at h
          subst h; rfl
    · exact fits_calls ws o h

theorem countIn_skip {H r : List String} {x : String} (hx : x ∉ H) : countIn H (x :: r) = countIn H r := by
  unfold countIn
  congr 1
  apply List.filter_congr
  intro h hh
  have : h ≠ x := fun e => hx (e ▸ hh)
  simp [this]

/-- A comparison of timers that holds of every moment. -/
theorem moment_le {H : List String} {m : String} (hH : ∀ h ∈ H, h ∈ genNames) (hm : m ∈ genNames)
    (h1 : ∀ r ∈ [[], ["TOTAL_TIME"], ["PRLP_SOLVE_TIME", "GEN_CUTS_TIME", "TOTAL_TIME"],
      ["TIME_TYPE1_TOTAL", "TOTAL_TIME"]], countIn H r ≤ if m ∈ r then 1 else 0)
    (h2 : ∀ p ∈ partNames, countIn H [p, "TOTAL_TIME"] ≤ if m ∈ [p, "TOTAL_TIME"] then 1 else 0)
    (h3 : ∀ h ∈ heurNames, countIn H [h, "GEN_CUTS_TIME", "TOTAL_TIME"] ≤
      if m ∈ [h, "GEN_CUTS_TIME", "TOTAL_TIME"] then 1 else 0)
    (h4 : ∀ h ∈ heurNames, countIn H ["PRLP_SOLVE_TIME", h, "GEN_CUTS_TIME", "TOTAL_TIME"] ≤
      if m ∈ ["PRLP_SOLVE_TIME", h, "GEN_CUTS_TIME", "TOTAL_TIME"] then 1 else 0)
    {r : List String} (hr : GenMoment r) : countIn H r ≤ if m ∈ r then 1 else 0 := by
  have skip : ∀ i r, (countIn H r ≤ if m ∈ r then 1 else 0) →
      countIn H (t1Name i :: r) ≤ if m ∈ t1Name i :: r then 1 else 0 := by
    intro i r h
    rw [countIn_skip (fun e => t1Name_genNames i (hH _ e))]
    have : m ≠ t1Name i := fun e => t1Name_genNames i (e ▸ hm)
    simpa [this] using h
  cases hr with
  | idle => exact h1 _ (by simp)
  | total => exact h1 _ (by simp)
  | part hp => exact h2 _ hp
  | solve => exact h1 _ (by simp)
  | heur hh => exact h3 _ hh
  | solveHeur hh => exact h4 _ hh
  | terms => exact h1 _ (by simp)
  | term i => exact skip i _ (h1 _ (by simp))
  | termEnd i => exact skip i _ (h1 _ (by simp))

/-- C144: any number of calls of the generator, on whatever worlds, with whatever clock. No assertion of the timers fails,
no timer is left running (so the values do not depend on when they are asked), and the timer of an unused stage stays
at 0. If the clock does not go back, the heuristics together took no longer than the whole search for cuts, the parts no
longer than the calls, the LPs no longer than the calls, and the calls no longer than the time that went by. Excluded: a split
disjunction for which there is no variable to choose. -/
theorem gen_timers_partial (ws : List GenW) (h : ∀ w ∈ ws, ∀ p ∈ w.preps, p.Answered) (cl : ℕ → ℤ) :
    ∃ s, TimeStats.empty.runG (stamp cl 0 (genRegister ++ callsOps ws)) = some s ∧
      (∀ n now, s.getId n ≠ none → s.totalTicks n now = s.getValue n) ∧
      (∀ n ∈ genNames, s.getId n ≠ none) ∧
      s.getValue "DISJ_SETUP_TIME" = 0 ∧
      (Forward cl →
        (heurNames.map s.getValue).sum ≤ s.getValue "GEN_CUTS_TIME" ∧
        s.getValue "GEN_DISJ_TIME" + s.getValue "PRLP_SETUP_TIME" + s.getValue "DUMMY_OBJ_TIME" +
          s.getValue "GEN_CUTS_TIME" ≤ s.getValue "TOTAL_TIME" ∧
        s.getValue "PRLP_SOLVE_TIME" ≤ s.getValue "TOTAL_TIME" ∧
        s.getValue "TOTAL_TIME" ≤ cl (genNames.length + (callsOps ws).length) - cl genNames.length ∧
        ∀ n ∈ genNames, 0 ≤ s.getValue n) := by
  have hp := calls_piece ws h
  obtain ⟨s, h1, h2, h3⟩ := whole_run cl genNames (by decide) (callsOps ws) (fits_calls ws) hp.alt
  rw [hp.same] at h2
  have hv : ∀ n ∈ genNames, s.getValue n = spent cl n genNames.length [] ((callsOps ws).map genBy) := by
    intro n hn
    obtain ⟨⟨i, hi⟩, ht⟩ := h3 n hn
    rw [getValue_off h2 hi (cl (genNames.length + (callsOps ws).length)), ht]
  refine ⟨s, h1, fun n now hn => ?_, fun n hn => ?_, ?_, fun hc => ⟨?_, ?_, ?_, ?_, ?_⟩⟩
  · cases hi : s.getId n with
    | none => exact absurd hi hn
    | some i => exact (getValue_off h2 hi now).symm
  · obtain ⟨⟨i, hi⟩, -⟩ := h3 n hn
    rw [hi]; simp
  · rw [hv _ (by decide)]
    refine spent_never _ _ _ (hp.all.mono fun r hr => ?_)
    intro hm
    cases hr with
    | idle => cases hm
    | total => revert hm; decide
    | part hp => revert hm; revert hp; rename_i m; revert m; decide
    | solve => revert hm; decide
    | heur hh => revert hm; revert hh; rename_i m; revert m; decide
    | solveHeur hh => revert hm; revert hh; rename_i m; revert m; decide
    | terms => revert hm; decide
    | term i =>
      rcases List.mem_cons.1 hm with e | e
      · exact t1Name_ne (by decide) e
      · revert e; decide
    | termEnd i =>
      rcases List.mem_cons.1 hm with e | e
      · exact t1Name_ne (by decide) e
      · revert e; decide
  · have := spent_le hc heurNames "GEN_CUTS_TIME" ((callsOps ws).map genBy) genNames.length []
      (hp.all.mono fun r hr => moment_le (by decide) (by decide) (by decide) (by decide) (by decide) (by decide) hr)
    rw [hv _ (by decide)]
    refine le_trans (le_of_eq ?_) this
    exact congrArg List.sum (List.map_congr_left fun n hn => hv n (by revert hn; revert n; decide))
  · have := spent_le hc ["GEN_DISJ_TIME", "PRLP_SETUP_TIME", "DUMMY_OBJ_TIME", "GEN_CUTS_TIME"] "TOTAL_TIME"
      ((callsOps ws).map genBy) genNames.length []
      (hp.all.mono fun r hr => moment_le (by decide) (by decide) (by decide) (by decide) (by decide) (by decide) hr)
    simp only [List.map_cons, List.map_nil, List.sum_cons, List.sum_nil] at this
    rw [hv _ (by decide), hv _ (by decide), hv _ (by decide), hv _ (by decide), hv _ (by decide)]
    omega
  · have := spent_le hc ["PRLP_SOLVE_TIME"] "TOTAL_TIME" ((callsOps ws).map genBy) genNames.length []
      (hp.all.mono fun r hr => moment_le (by decide) (by decide) (by decide) (by decide) (by decide) (by decide) hr)
    simp only [List.map_cons, List.map_nil, List.sum_cons, List.sum_nil] at this
    rw [hv _ (by decide), hv _ (by decide)]
    omega
  · rw [hv _ (by decide)]
    have := spent_elapsed hc "TOTAL_TIME" ((callsOps ws).map genBy) genNames.length []
    rwa [List.length_map] at this
  · intro n hn
    rw [hv n hn]
    exact spent_nonneg hc n _ _ _

/-- Non-vacuity: a call in which a disjunction with two terms is set up and two heuristics are run, then a second call that
gives up after preparing. -/
def genRunEx : List GenW :=
  [⟨some [.tree, .split 3 0],
    some [⟨1, [(true, true), (false, true), (true, false)],
      some ⟨some true, 1, some ⟨false, ⟨some 2, false⟩, ⟨none, false⟩, ⟨some 1, true⟩, ⟨none, false⟩, ⟨none, false⟩,
        ⟨none, false⟩, ⟨none, false⟩, ⟨none, false⟩⟩⟩⟩]⟩,
   ⟨some [.split (-1) 5], none⟩]

example : (∀ w ∈ genRunEx, ∀ p ∈ w.preps, p.Answered) ∧ Forward (fun k => (k * k : ℤ)) ∧
    ((TimeStats.empty.runG (stamp (fun k => (k * k : ℤ)) 0 (genRegister ++ callsOps genRunEx))).map fun s =>
      (s.getValue "ALL_ONES_TIME", s.getValue "DISJ_LB_TIME", s.getValue "GEN_CUTS_TIME", s.getValue "PRLP_SOLVE_TIME",
        s.getValue "TOTAL_TIME")) = some (425, 297, 1183, 437, 2742) := by
  refine ⟨?_, fun k => ?_, ?_⟩
  · intro w hw p hp
    simp only [genRunEx, List.mem_cons, List.not_mem_nil, or_false] at hw
    rcases hw with rfl | rfl <;> simp only [GenW.preps, Option.getD_some, List.mem_cons, List.not_mem_nil, or_false] at hp
    · rcases hp with rfl | rfl
      · trivial
      · simp [PrepW.Answered]
    · subst hp; simp [PrepW.Answered]
  · push_cast; nlinarith
  · decide +kernel

theorem start_running_aborts (cl : ℕ → ℤ) (os : List TmOp) (hf : ∀ o ∈ os, Fits genNames o)
    (ha : Alternating [] (os.map genBy)) {n : String} (hn : n ∈ genNames) (hr : n ∈ afterAll [] (os.map genBy))
    {rest : List TmOp} : TimeStats.empty.runG (stamp cl 0 ((genRegister ++ os) ++ gStart n :: rest)) = none := by
  obtain ⟨s, h1, h2, h3⟩ := whole_run cl genNames (by decide) os hf ha
  obtain ⟨⟨i, hi⟩, -⟩ := h3 n hn
  have hlt := h2.wf.lt _ _ hi
  have ht : s.tmrs[i]? = some s.tmrs[i] := List.getElem?_eq_getElem hlt
  have hrun : s.tmrs[i].running = true := (h2.on n i _ hi ht).2 hr
  rw [stamp_append, runG_append]
  have e : TimeStats.empty.runG (stamp cl 0 (genRegister ++ os)) = some s := h1
  rw [e]
  simp [stamp, TimeStats.runG, TimeStats.stepG, gStart, TimeStats.step, hi, TimeStats.startId, ht, hrun]

/-- C144, violated: a split disjunction for which there is no variable to choose leaves its timer running; the generator
returns, and the next disjunction that it prepares, in this call or the next one, makes an assertion fail. -/
theorem split_without_variable_aborts (v : ℤ) (hv : v < 0) (next : PrepW) (hn : next ≠ .tooFew)
    (ds ds' : Option (List DisjW)) (rest : List PrepW) (cl : ℕ → ℤ) :
    TimeStats.empty.runG (stamp cl 0 (genRegister ++
      callsOps [⟨some [.split v 0], none⟩, ⟨some (next :: rest), ds'⟩])) = none ∧
    TimeStats.empty.runG (stamp cl 0 (genRegister ++ callsOps [⟨some (.split v 0 :: next :: rest), ds⟩])) = none := by
  have e1 : prepOps (.split v 0) = [gStart "GEN_DISJ_TIME"] := if_pos ⟨hv, rfl⟩
  have e2 : ∃ t, prepOps next = gStart "GEN_DISJ_TIME" :: t := by
    cases next with
    | tooFew => exact absurd rfl hn
    | tree => exact ⟨_, rfl⟩
    | split a b => simp only [prepOps]; split <;> exact ⟨_, rfl⟩
  obtain ⟨t, e2⟩ := e2
  constructor
  · have : genRegister ++ callsOps [⟨some [.split v 0], none⟩, ⟨some (next :: rest), ds'⟩] =
        (genRegister ++ [gStart "TOTAL_TIME", gStart "GEN_DISJ_TIME", gStop "TOTAL_TIME", gStart "TOTAL_TIME"]) ++
          gStart "GEN_DISJ_TIME" :: (t ++ (prepsOps rest ++ ((match ds' with
            | none => []
            | some ds => disjsOps ds) ++ [gStop "TOTAL_TIME"]))) := by
      simp [callsOps, generateOps, prepsOps, e1, e2]
      cases ds' <;> rfl
    rw [this]
    refine start_running_aborts cl _ (by simp [Fits, Plain, gStart, gStop]) ?_ (by decide) ?_
    · refine ⟨?_, ?_, ?_, ?_, trivial⟩ <;> simp [genBy, byName, gStart, gStop, after]
    · simp [genBy, byName, gStart, gStop, after, afterAll]
  · have : genRegister ++ callsOps [⟨some (.split v 0 :: next :: rest), ds⟩] =
        (genRegister ++ [gStart "TOTAL_TIME", gStart "GEN_DISJ_TIME"]) ++
          gStart "GEN_DISJ_TIME" :: (t ++ (prepsOps rest ++ ((match ds with
            | none => []
            | some ds => disjsOps ds) ++ [gStop "TOTAL_TIME"]))) := by
      simp [callsOps, generateOps, prepsOps, e1, e2]
      cases ds <;> rfl
    rw [this]
    refine start_running_aborts cl _ (by simp [Fits, Plain, gStart, gStop]) ?_ (by decide) ?_
    · refine ⟨?_, ?_, trivial⟩ <;> simp [genBy, byName, gStart, gStop, after]
    · simp [genBy, byName, gStart, gStop, after, afterAll]

theorem stepG_getId {s s' : TimeStats} {o : TmOp} {now : ℤ} (h : s.stepG (o, now) = some s') {n : String}
    (hr : ∀ v, o ≠ .op (.register n v)) : s'.getId n = s.getId n := by
  cases o with
  | op o => exact step_getId (o := o) h (fun v e => hr v (by rw [e]))
  | startIx i =>
    simp only [TimeStats.stepG, TimeStats.startId] at h
    split at h
    · cases h; rfl
    · split at h
      · cases h
      · cases h; rfl
  | stopIx i =>
    simp only [TimeStats.stepG, TimeStats.endId] at h
    split at h
    · cases h; rfl
    · split at h
      · cases h; rfl
      · cases h

theorem runG_getId {n : String} : ∀ (os : List (TmOp × ℤ)) (s s' : TimeStats), s.runG os = some s' →
    (∀ o ∈ os, ∀ v, o.1 ≠ .op (.register n v)) → s'.getId n = s.getId n
  | [], s, s', h, _ => by
    simp only [TimeStats.runG, List.foldlM_nil, Option.pure_def, Option.some.injEq] at h
    rw [h]
  | (o, now) :: os, s, s', h, hr => by
    simp only [TimeStats.runG, List.foldlM_cons, Option.bind_eq_bind, Option.bind_eq_some_iff] at h
    obtain ⟨r, h1, h2⟩ := h
    rw [runG_getId os r s' h2 (fun o ho => hr o (List.mem_cons_of_mem _ ho)),
      stepG_getId h1 (hr (o, now) (List.mem_cons_self ..))]

theorem registered_calls {n : String} (h1 : ∀ i, n ≠ t1Name i) (h2 : ∀ i, n ≠ t2Name i) :
    ∀ ws : List GenW, ∀ o ∈ callsOps ws, ∀ v, o ≠ .op (.register n v) := by
  have hs : ∀ k, ∀ o ∈ solvesOps k, ∀ v, o ≠ .op (.register n v) := by
    intro k
    induction k with
    | zero => simp [solvesOps]
    | succ k ih =>
      intro o ho v
      rcases List.mem_append.1 ho with h | h
      · simp only [genCutOps, List.mem_cons, List.not_mem_nil, or_false] at h
        rcases h with rfl | rfl <;> simp [gStart, gStop]
      · exact ih o h v
  have hph : ∀ nm p rest, (∀ o ∈ rest, ∀ v, o ≠ .op (.register n v)) →
      ∀ o ∈ phaseOps nm p rest, ∀ v, o ≠ .op (.register n v) := by
    intro nm p rest hrest o ho v
    unfold phaseOps at ho
    rcases List.mem_append.1 ho with h' | h'
    · cases hp : p.solves with
      | none => rw [hp] at h'; cases h'
      | some k =>
        rw [hp] at h'
        simp only [List.mem_cons, List.mem_append, List.not_mem_nil, or_false] at h'
        rcases h' with rfl | h' | rfl
        · simp [gStart]
        · exact hs k o h' v
        · simp [gStop]
    · split at h'
      · cases h'
      · exact hrest o h' v
  have htg : ∀ w, ∀ o ∈ targetOps w, ∀ v, o ≠ .op (.register n v) := by
    intro w
    unfold targetOps
    split
    · simp
    · refine hph _ _ _ (hph _ _ _ ?_)
      intro o ho
      rcases List.mem_append.1 ho with h | h
      · exact hs 1 o (by simpa [solvesOps] using h)
      · exact hph _ _ _ (hph _ _ _ (hph _ _ _ (hph _ _ _ (hph _ _ _ (hph _ _ _ (by simp)))))) o h
  have htry : ∀ w, ∀ o ∈ tryOps w, ∀ v, o ≠ .op (.register n v) := by
    intro w o ho v
    unfold tryOps at ho
    cases hs' : w.setup with
    | none => rw [hs'] at ho; cases ho
    | some solved =>
      rw [hs'] at ho
      simp only [List.mem_append] at ho
      rcases ho with h | h | h
      · unfold prlpSetupOps at h
        rcases List.mem_append.1 h with h | h
        · simp only [List.mem_cons, List.not_mem_nil, or_false] at h
          rcases h with rfl | rfl <;> simp
        · split at h
          · simp only [List.mem_cons, List.not_mem_nil, or_false] at h
            rcases h with rfl | rfl <;> simp [gStart, gStop]
          · cases h
      · exact hs _ o h v
      · cases ht : w.target with
        | none => rw [ht] at h; cases h
        | some t =>
          rw [ht] at h
          simp only [List.mem_cons, List.mem_append, List.not_mem_nil, or_false] at h
          rcases h with rfl | h | rfl
          · simp [gStart]
          · exact htg t o h v
          · simp [gStop]
  have hterms : ∀ ts i, ∀ o ∈ termsOps i ts, ∀ v, o ≠ .op (.register n v) := by
    intro ts
    induction ts with
    | nil => simp [termsOps]
    | cons x ts ih =>
      intro i o ho v
      obtain ⟨feasible, inTime⟩ := x
      unfold termsOps at ho
      rcases List.mem_append.1 ho with h | h
      · split at h
        · rcases List.mem_append.1 h with h | h
          · simp only [List.mem_cons, List.not_mem_nil, or_false] at h
            rcases h with rfl | rfl
            · intro e; simp only [TmOp.op.injEq, TOp.register.injEq] at e; exact h1 i e.1.symm
            · intro e; simp only [TmOp.op.injEq, TOp.register.injEq] at e; exact h2 i e.1.symm
          · split at h
            · simp only [List.mem_cons, List.not_mem_nil, or_false] at h
              rcases h with rfl | rfl | rfl | rfl <;> simp [gStart, gStop]
            · cases h
        · cases h
      · exact ih (i + 1) o h v
  have hd : ∀ ws, ∀ o ∈ disjsOps ws, ∀ v, o ≠ .op (.register n v) := by
    intro ws
    induction ws with
    | nil => simp [disjsOps]
    | cons w ws ih =>
      intro o ho v
      rcases List.mem_append.1 ho with h | h
      · unfold disjOps at h
        rcases List.mem_append.1 h with h | h
        · exact hterms _ _ o h v
        · cases ht : w.try? with
          | none => rw [ht] at h; cases h
          | some t => rw [ht] at h; exact htry t o h v
      · exact ih o h v
  have hps : ∀ ps, ∀ o ∈ prepsOps ps, ∀ v, o ≠ .op (.register n v) := by
    intro ps
    induction ps with
    | nil => simp [prepsOps]
    | cons p ps ih =>
      intro o ho v
      rcases List.mem_append.1 ho with h | h
      · cases p with
        | tooFew => cases h
        | tree =>
          simp only [prepOps, List.mem_cons, List.not_mem_nil, or_false] at h
          rcases h with rfl | rfl <;> simp [gStart, gStop]
        | split var core =>
          simp only [prepOps] at h
          split at h <;> simp only [List.mem_cons, List.not_mem_nil, or_false] at h
          · subst h; simp [gStart]
          · rcases h with rfl | rfl <;> simp [gStart, gStop]
      · exact ih o h v
  intro ws
  induction ws with
  | nil => simp [callsOps]
  | cons w ws ih =>
    intro o ho v
    rcases List.mem_append.1 ho with h | h
    · unfold generateOps at h
      rcases List.mem_cons.1 h with rfl | h
      · simp [gStart]
      · rcases List.mem_append.1 h with h | h
        · cases hp : w.prep with
          | none => rw [hp] at h; cases h
          | some ps =>
            rw [hp] at h
            rcases List.mem_append.1 h with h | h
            · exact hps ps o h v
            · cases hdd : w.disjs with
              | none => rw [hdd] at h; cases h
              | some ds => rw [hdd] at h; exact hd ds o h v
        · simp only [List.mem_cons, List.not_mem_nil, or_false] at h
          subst h; simp [gStop]
    · exact ih o h v

theorem mem_stamp {α : Type} {cl : ℕ → ℤ} : ∀ {os : List α} {k : ℕ} {x : α × ℤ}, x ∈ stamp cl k os → x.1 ∈ os
  | [], _, _, h => by cases h
  | o :: os, k, x, h => by
    rcases List.mem_cons.1 h with rfl | h
    · exact List.mem_cons_self ..
    · exact List.mem_cons_of_mem _ (mem_stamp h)

/-- C144, violated: the time limit in the loop over the terms asks a timer that nobody registers: whatever the generator
did, and however long it took, the limit is not reached. -/
theorem terms_limit_never (ws : List GenW) (cl : ℕ → ℤ) (s : TimeStats)
    (h : TimeStats.empty.runG (stamp cl 0 (genRegister ++ callsOps ws)) = some s) (maxTime : ℚ) (hm : 0 ≤ maxTime)
    (now : ℤ) : s.reachedTimeLimit "TIME_TYPE1_TOTAL" maxTime now = false := by
  have hid : s.getId "TIME_TYPE1_TOTAL" = none := by
    rw [runG_getId _ _ _ h]
    · rfl
    · intro o ho v
      rcases List.mem_append.1 (mem_stamp ho) with h' | h'
      · intro e
        rw [e] at h'
        simp only [genRegister, List.mem_map] at h'
        obtain ⟨m, hm, e'⟩ := h'
        simp only [TmOp.op.injEq, TOp.register.injEq] at e'
        rw [e'.1] at hm
        revert hm; decide
      · exact registered_calls t1Name_total (fun i => t2Name_ne (by decide)) ws o.1 h' v
  simp only [TimeStats.reachedTimeLimit, TimeStats.totalTime, TimeStats.totalTicks, hid, decide_eq_false_iff_not, not_lt,
    clocksPerSec]
  norm_num
  linarith

/-! ## The program -/

/-- The timers of the program that can run together. -/
def mainMoments : List (List String) :=
  [[], ["TOTAL_TIME"], ["INIT_SOLVE_TIME", "TOTAL_TIME"], ["CUT_TOTAL_TIME", "TOTAL_TIME"],
   ["GOMORY_GEN_TIME", "CUT_TOTAL_TIME", "TOTAL_TIME"], ["GOMORY_APPLY_TIME", "CUT_TOTAL_TIME", "TOTAL_TIME"],
   ["VPC_GEN_TIME", "CUT_TOTAL_TIME", "TOTAL_TIME"], ["TOTAL_APPLY_TIME", "TOTAL_TIME"],
   ["VPC_APPLY_TIME", "TOTAL_APPLY_TIME", "TOTAL_TIME"], ["BB_TIME", "TOTAL_TIME"]]

/-- The calls of the program by name. -/
abbrev mainBy : TmOp → TOp := byName mainTimeNames

/-- A piece of the program. -/
abbrev MPiece (run : List String) (os : List TmOp) : Prop := Piece (· ∈ mainMoments) run (os.map mainBy)

theorem MPiece.app {run : List String} {a b : List TmOp} (ha : MPiece run a) (hb : MPiece run b) :
    MPiece run (a ++ b) := by
  unfold MPiece; rw [List.map_append]; exact Piece.append ha hb

theorem MPiece.timed {run : List String} {i : ℕ} {os : List TmOp} (hm : mainTimeNames.getD i "" ∉ run)
    (h : MPiece (mainTimeNames.getD i "" :: run) os) (h1 : mainTimeNames.getD i "" :: run ∈ mainMoments)
    (h0 : run ∈ mainMoments) : MPiece run (.startIx i :: (os ++ [.stopIx i])) := by
  unfold MPiece
  rw [List.map_cons, List.map_append]
  exact Piece.timed hm h h1 h0

theorem round_piece (w : RoundW) : MPiece ["TOTAL_TIME"] (roundOps w) := by
  have e : roundOps w = (.startIx 3 :: (((if w.gomory then [.startIx 1, .stopIx 1, .startIx 2, .stopIx 2] else []) ++
      (if w.vpc then [.startIx 4, .stopIx 4] else [])) ++ [.stopIx 3])) ++
      (.startIx 13 :: ((if w.apply then [.startIx 5, .stopIx 5] else []) ++ [.stopIx 13])) := by
    simp [roundOps]
  rw [e]
  refine MPiece.app (MPiece.timed (by decide) (MPiece.app ?_ ?_) (by decide) (by decide))
    (MPiece.timed (by decide) ?_ (by decide) (by decide))
  · split
    · exact MPiece.app (a := [.startIx 1, .stopIx 1]) (b := [.startIx 2, .stopIx 2])
        (MPiece.timed (os := []) (by decide) Piece.nil (by decide) (by decide))
        (MPiece.timed (os := []) (by decide) Piece.nil (by decide) (by decide))
    · exact Piece.nil
  · split
    · exact MPiece.timed (os := []) (by decide) Piece.nil (by decide) (by decide)
    · exact Piece.nil
  · split
    · exact MPiece.timed (os := []) (by decide) Piece.nil (by decide) (by decide)
    · exact Piece.nil

theorem rounds_piece : ∀ ws, MPiece ["TOTAL_TIME"] (roundsOps ws)
  | [] => Piece.nil
  | w :: ws => MPiece.app (round_piece w) (rounds_piece ws)

theorem main_piece (ws : List RoundW) (bb : Bool) : MPiece [] (mainOps (.rounds ws bb)) := by
  have e : mainOps (.rounds ws bb) = (.startIx 14 :: ([.startIx 0, .stopIx 0] ++ [.stopIx 14])) ++
      (.startIx 14 :: ((roundsOps ws ++ (if bb then [.startIx 12, .stopIx 12] else [])) ++ [.stopIx 14])) := by
    simp [mainOps]
  rw [e]
  refine MPiece.app (MPiece.timed (by decide) ?_ (by decide) (by decide))
    (MPiece.timed (by decide) (MPiece.app (rounds_piece ws) ?_) (by decide) (by decide))
  · exact MPiece.timed (os := []) (by decide) Piece.nil (by decide) (by decide)
  · split
    · exact MPiece.timed (os := []) (by decide) Piece.nil (by decide) (by decide)
    · exact Piece.nil

theorem fits_rounds : ∀ ws, ∀ o ∈ roundsOps ws, Fits mainTimeNames o
  | [] => by simp [roundsOps]
  | w :: ws => by
    intro o ho
    rcases List.mem_append.1 ho with h | h
    · have : ∀ o ∈ roundOps w, Fits mainTimeNames o := by
        unfold roundOps
        cases w.gomory <;> cases w.vpc <;> cases w.apply <;> simp [Fits, mainTimeNames]
      exact this o h
    · exact fits_rounds ws o h

theorem fits_main (ws : List RoundW) (bb : Bool) : ∀ o ∈ mainOps (.rounds ws bb), Fits mainTimeNames o := by
  intro o ho
  simp only [mainOps, List.mem_append] at ho
  rcases ho with h | h | h | h | h
  · revert o; simp [Fits, mainTimeNames]
  · revert o; simp [Fits, mainTimeNames]
  · exact fits_rounds ws o h
  · revert o; cases bb <;> simp [Fits, mainTimeNames]
  · revert o; simp [Fits, mainTimeNames]

/-- C144: a run of the program that does rounds of cuts, whatever the rounds and the clock. No assertion of the timers fails
and all timers are off when the times are written; if the clock does not go back, the stages took no longer than the
whole, the ways to generate cuts no longer than the generation of cuts, and adding the cuts no longer than their
application. Not in it: the times that are copied from the generator, and the other ends of the program. -/
theorem main_timers_partial (ws : List RoundW) (bb : Bool) (cl : ℕ → ℤ) :
    ∃ s, TimeStats.empty.runG (stamp cl 0 (mainRegister ++ mainOps (.rounds ws bb))) = some s ∧
      (∀ n ∈ mainTimeNames, ∀ now, s.totalTicks n now = s.getValue n) ∧
      (Forward cl →
        s.getValue "INIT_SOLVE_TIME" + s.getValue "CUT_TOTAL_TIME" + s.getValue "TOTAL_APPLY_TIME" +
          s.getValue "BB_TIME" ≤ s.getValue "TOTAL_TIME" ∧
        s.getValue "GOMORY_GEN_TIME" + s.getValue "GOMORY_APPLY_TIME" + s.getValue "VPC_GEN_TIME" ≤
          s.getValue "CUT_TOTAL_TIME" ∧
        s.getValue "VPC_APPLY_TIME" ≤ s.getValue "TOTAL_APPLY_TIME" ∧
        (∀ n ∈ mainTimeNames, 0 ≤ s.getValue n)) := by
  have hp := main_piece ws bb
  obtain ⟨s, h1, h2, h3⟩ := whole_run cl mainTimeNames (by decide) (mainOps (.rounds ws bb)) (fits_main ws bb) hp.alt
  rw [hp.same] at h2
  have hv : ∀ n ∈ mainTimeNames, s.getValue n =
      spent cl n mainTimeNames.length [] ((mainOps (.rounds ws bb)).map mainBy) := by
    intro n hn
    obtain ⟨⟨i, hi⟩, ht⟩ := h3 n hn
    rw [getValue_off h2 hi (cl (mainTimeNames.length + (mainOps (.rounds ws bb)).length)), ht]
  have all : ∀ {q : List String → Prop}, (∀ r ∈ mainMoments, q r) →
      Always q [] ((mainOps (.rounds ws bb)).map mainBy) := fun hq => hp.all.mono hq
  refine ⟨s, h1, fun n hn now => ?_, fun hc => ⟨?_, ?_, ?_, ?_⟩⟩
  · obtain ⟨⟨i, hi⟩, -⟩ := h3 n hn
    exact (getValue_off h2 hi now).symm
  · have := spent_le hc ["INIT_SOLVE_TIME", "CUT_TOTAL_TIME", "TOTAL_APPLY_TIME", "BB_TIME"] "TOTAL_TIME"
      ((mainOps (.rounds ws bb)).map mainBy) mainTimeNames.length [] (all (by decide))
    simp only [List.map_cons, List.map_nil, List.sum_cons, List.sum_nil] at this
    rw [hv _ (by decide), hv _ (by decide), hv _ (by decide), hv _ (by decide), hv _ (by decide)]
    omega
  · have := spent_le hc ["GOMORY_GEN_TIME", "GOMORY_APPLY_TIME", "VPC_GEN_TIME"] "CUT_TOTAL_TIME"
      ((mainOps (.rounds ws bb)).map mainBy) mainTimeNames.length [] (all (by decide))
    simp only [List.map_cons, List.map_nil, List.sum_cons, List.sum_nil] at this
    rw [hv _ (by decide), hv _ (by decide), hv _ (by decide), hv _ (by decide)]
    omega
  · have := spent_le hc ["VPC_APPLY_TIME"] "TOTAL_APPLY_TIME"
      ((mainOps (.rounds ws bb)).map mainBy) mainTimeNames.length [] (all (by decide))
    simp only [List.map_cons, List.map_nil, List.sum_cons, List.sum_nil] at this
    rw [hv _ (by decide), hv _ (by decide)]
    omega
  · intro n hn
    rw [hv n hn]
    exact spent_nonneg hc n _ _ _

/-- Non-vacuity: two rounds and a test of branch and bound. -/
example : Forward (fun k => (k * k : ℤ)) ∧
    ((TimeStats.empty.runG (stamp (fun k => (k * k : ℤ)) 0
      (mainRegister ++ mainOps (.rounds [⟨true, true, true⟩, ⟨false, true, false⟩] true)))).map fun s =>
      (s.getValue "CUT_TOTAL_TIME", s.getValue "TOTAL_APPLY_TIME", s.getValue "BB_TIME", s.getValue "TOTAL_TIME")) =
      some (530, 250, 77, 1338) := by
  refine ⟨fun k => ?_, ?_⟩
  · push_cast; nlinarith
  · decide +kernel

theorem run_registers (cl : ℕ → ℤ) : ∀ (L : List String) (k : ℕ) (s : TimeStats),
    s.runG (stamp cl k (L.map fun n => TmOp.op (.register n 0))) = s.run (stamp cl k (L.map fun n => TOp.register n 0))
  | [], _, _ => rfl
  | n :: L, k, s => by
    simp only [List.map_cons, stamp, TimeStats.runG, TimeStats.run, List.foldlM_cons]
    exact run_registers cl L (k + 1) (s.register n 0 (cl k))

/-- The program by name. -/
theorem main_byName (cl : ℕ → ℤ) (os : List TmOp) (hf : ∀ o ∈ os, Fits mainTimeNames o) :
    TimeStats.empty.runG (stamp cl 0 (mainRegister ++ os)) =
      TimeStats.empty.run (stamp cl 0 ((mainTimeNames.take 14).map fun n => TOp.register n 0) ++
        (TOp.register "TOTAL_TIME" 0, cl 14) :: stamp cl 15 (os.map mainBy)) := by
  obtain ⟨s0, h1, -, -, -, h5, -⟩ := registered cl mainTimeNames 0 TimeStats.empty
    ⟨TWF_empty, fun m i t hi _ => by cases hi⟩ (by decide)
  have h2 := run_registers cl mainTimeNames 0 TimeStats.empty
  rw [h1] at h2
  have e : stamp cl 0 (mainTimeNames.map fun n => TOp.register n 0) =
      stamp cl 0 ((mainTimeNames.take 14).map fun n => TOp.register n 0) ++ [(TOp.register "TOTAL_TIME" 0, cl 14)] := rfl
  rw [stamp_append, runG_append]
  have h1' : TimeStats.empty.runG (stamp cl 0 mainRegister) = some s0 := h1
  rw [h1', Option.bind_some, runG_byName cl mainTimeNames os _ s0 (fun i n h => by rw [h5 i n h]; simp [TimeStats.empty]) hf]
  rw [List.append_cons, ← e, run_append, ← h2]
  rfl

/-- C144, violated: when the LP relaxation has an integral solution the program writes 0 as its total time, whatever the
clock says: the timer is still running, and the value written does not count the running interval. -/
theorem integral_total_zero (cl : ℕ → ℤ) :
    ∃ s, TimeStats.empty.runG (stamp cl 0 (mainRegister ++ mainOps .integral)) = some s ∧
      s.getValue "TOTAL_TIME" = 0 ∧ ∀ now, s.totalTicks "TOTAL_TIME" now = now - cl 15 := by
  have hf : ∀ o ∈ mainOps .integral, Fits mainTimeNames o := by simp [mainOps, Fits, mainTimeNames]
  obtain ⟨s, h1, -, -⟩ := whole_run cl mainTimeNames (by decide) (mainOps .integral) hf (by
    refine ⟨?_, ?_, ?_, trivial⟩ <;> simp [byName, after, mainTimeNames])
  have h2 := main_byName cl (mainOps .integral) hf
  have h1' : TimeStats.empty.runG (stamp cl 0 (mainRegister ++ mainOps .integral)) = some s := h1
  rw [h1'] at h2
  have hl : ledger "TOTAL_TIME" (stamp cl 15 ((mainOps .integral).map mainBy)) = ⟨[], some (cl 15), 0⟩ := by
    simp [mainOps, mainBy, byName, mainTimeNames, stamp, ledger, TimeLedger.book]
  have h3 := timer_accounts _ _ _ _ _ s (by
    rintro ⟨x, hx, i, e⟩
    simp only [mainOps, List.append_nil, List.map_cons, List.map_nil, byName, stamp, List.mem_cons, List.not_mem_nil,
      or_false] at hx
    rcases hx with rfl | rfl | rfl <;> cases e) h2.symm
  rw [hl] at h3
  refine ⟨s, h1, ?_, fun now => ?_⟩
  · rw [h3.1]; rfl
  · rw [h3.2 now]; simp [lengths]

/-- C144, violated: after preprocessing, or with a wrong option, the total time written is the time up to the pause
before it; the preprocessing itself is not in it. -/
theorem preprocess_total_short (cl : ℕ → ℤ) (w : MainW) (hw : w = .preprocess ∨ w = .badOption) :
    ∃ s, TimeStats.empty.runG (stamp cl 0 (mainRegister ++ mainOps w)) = some s ∧
      s.getValue "TOTAL_TIME" = cl 18 - cl 15 ∧
      (∀ now, s.totalTicks "TOTAL_TIME" now = cl 18 - cl 15 + (now - cl 19)) := by
  have hw' : mainOps w = [.startIx 14, .startIx 0, .stopIx 0, .stopIx 14, .startIx 14] := by
    rcases hw with rfl | rfl <;> rfl
  rw [hw']
  have hf : ∀ o ∈ ([.startIx 14, .startIx 0, .stopIx 0, .stopIx 14, .startIx 14] : List TmOp),
      Fits mainTimeNames o := by simp [Fits, mainTimeNames]
  obtain ⟨s, h1, -, -⟩ := whole_run cl mainTimeNames (by decide) _ hf (by
    refine ⟨?_, ?_, ?_, ?_, ?_, trivial⟩ <;> simp [byName, after, mainTimeNames])
  have h2 := main_byName cl _ hf
  have h1' : TimeStats.empty.runG (stamp cl 0 (mainRegister ++ _)) = some s := h1
  rw [h1'] at h2
  have hl : ledger "TOTAL_TIME" (stamp cl 15 (List.map mainBy
      [.startIx 14, .startIx 0, .stopIx 0, .stopIx 14, .startIx 14])) = ⟨[(cl 15, cl 18)], some (cl 19), 0⟩ := by
    simp [mainBy, byName, mainTimeNames, stamp, ledger, TimeLedger.book, TimeLedger.close]
  have h3 := timer_accounts _ _ _ _ _ s (by
    rintro ⟨x, hx, i, e⟩
    simp only [List.map_cons, List.map_nil, byName, stamp, List.mem_cons, List.not_mem_nil, or_false] at hx
    rcases hx with rfl | rfl | rfl | rfl | rfl <;> cases e) h2.symm
  rw [hl] at h3
  refine ⟨s, h1', ?_, fun now => ?_⟩
  · rw [h3.1]; simp [lengths]
  · rw [h3.2 now]; simp [lengths]

end VPC
