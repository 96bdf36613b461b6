import Verif.Model.Handler
import Verif.Props.ObjCopy
import Mathlib.Data.List.Forall2
import Mathlib.Tactic.NormNum

/-!
# C128: the event handler as an object

Handlers behave as values for every history of creating, copying, assigning, setting the solver and
destroying; the solvers that stay allocated at the end are exactly those that an assignment or a repeated
`setOriginalSolver` overwrote. Copying a handler that has no solver is undefined.
-/
namespace VPC

/-! ## Specification: handlers as values -/

/-- A handler as a value: its plain members and the contents of its solver, if it has one. -/
structure HVal where
  data : HData
  solver : Option HSolver

/-- Handlers by name, the solvers handed to the caller, and how many solvers were overwritten. -/
structure HVWorld where
  hs : ℕ → Option HVal
  handed : List HSolver
  lost : ℕ

/-- Nothing exists. -/
def HVWorld.init : HVWorld := ⟨fun _ => none, [], 0⟩

/-- How many solvers a value holds: none or one. -/
def HVal.held (x : HVal) : ℕ := if x.solver.isSome then 1 else 0

/-- The meaning of the operations on values; `none` if the operation is not allowed. -/
def HVWorld.step (v : HVWorld) : HOp → Option HVWorld
  | .new i =>
    if (v.hs i).isSome then none
    else some { v with hs := Function.update v.hs i (some ⟨{}, none⟩) }
  | .newFor i o m t k =>
    if (v.hs i).isSome then none
    else some { v with
      hs := Function.update v.hs i
        (some ⟨{ owner := some o, maxNumLeafNodes := m, maxTime := t, keepPrunedNodes := k }, none⟩) }
  | .copy i j =>
    match v.hs i, v.hs j with
    | some x, none => if x.solver.isSome then some { v with hs := Function.update v.hs j (some x) } else none
    | _, _ => none
  | .assign i j =>
    match v.hs i, v.hs j with
    | some x, some y => if x.solver.isSome then
        some { v with hs := Function.update v.hs j (some x), lost := v.lost + y.held } else none
    | _, _ => none
  | .setOriginal i s b =>
    match v.hs i, s with
    | some x, some s => some
        { hs := Function.update v.hs i
            (some ⟨{ x.data with originalLB := s.lower, originalUB := s.upper }, some s⟩)
          handed := v.handed ++ (if b then x.solver.toList else [])
          lost := v.lost + x.held }
    | _, _ => none
  | .record i f =>
    match v.hs i with
    | some x => some { v with hs := Function.update v.hs i (some { x with data := f x.data }) }
    | none => none
  | .destroy i =>
    match v.hs i with
    | some _ => some { v with hs := Function.update v.hs i none }
    | none => none

/-- A history. -/
def HVWorld.run (v : HVWorld) : List HOp → Option HVWorld
  | [] => some v
  | o :: os => (v.step o).bind fun v1 => v1.run os

/-- A pointer shows the contents of a solver. -/
def SolShow (h : BMem HSolver) (p : Option ℕ) (s : Option HSolver) : Prop :=
  match p, s with
  | none, none => True
  | some a, some c => h.mem a = some c
  | _, _ => False

/-- A handler in memory shows a value. -/
def HShow (h : BMem HSolver) (x : Option HandlerM) (y : Option HVal) : Prop :=
  match x, y with
  | none, none => True
  | some x, some y => x.data = y.data ∧ SolShow h x.solver y.solver
  | _, _ => False

/-- The memory shows the values: every handler, and every solver handed to the caller. -/
structure HShows (w : HWorld) (v : HVWorld) : Prop where
  hs : ∀ i, HShow w.heap (w.hs i) (v.hs i)
  handed : List.Forall₂ (fun a s => w.heap.mem a = some s) w.given v.handed

/-! ## Ownership -/

/-- Whom an allocated solver belongs to: a handler, the caller (`true`) or nobody (`false`). -/
structure HandInv (w : HWorld) (v : HVWorld) (r : ℕ → Option (ℕ ⊕ Bool)) (L : List ℕ) : Prop where
  fresh : ∀ a, w.heap.next ≤ a → r a = none
  live : ∀ a, w.heap.mem a = none ↔ r a = none
  own : ∀ i a, r a = some (.inl i) ↔ ∃ x, w.hs i = some x ∧ x.solver = some a
  given : ∀ a, r a = some (.inr true) ↔ a ∈ w.given
  lost : ∀ a, r a = some (.inr false) ↔ a ∈ L
  nodup : L.Nodup
  len : L.length = v.lost
  shows : HShows w v

theorem solShow_mono {h h' : BMem HSolver} {p : Option ℕ} {s : Option HSolver} (hs : SolShow h p s)
    (hm : ∀ a ∈ p, h.mem a ≠ none → h'.mem a = h.mem a) : SolShow h' p s := by
  cases p with
  | none => cases s with
    | none => trivial
    | some c => exact hs
  | some a => cases s with
    | none => exact hs
    | some c =>
      have h1 : h.mem a = some c := hs
      show h'.mem a = some c
      rw [hm a rfl (by rw [h1]; simp), h1]

theorem hShow_mono {h h' : BMem HSolver} {x : Option HandlerM} {y : Option HVal} (hs : HShow h x y)
    (hm : ∀ z ∈ x, ∀ a ∈ z.solver, h.mem a ≠ none → h'.mem a = h.mem a) : HShow h' x y := by
  cases x with
  | none => cases y with
    | none => trivial
    | some y => exact hs
  | some x => cases y with
    | none => exact hs
    | some y =>
      obtain ⟨h1, h2⟩ := hs
      exact ⟨h1, solShow_mono h2 (hm x rfl)⟩

theorem new_mem (h : BMem HSolver) (s : HSolver) (a : ℕ) :
    (h.new s).mem a = if a = h.next then some s else h.mem a := by
  by_cases ha : a = h.next
  · subst ha; simp [BMem.new]
  · simp [BMem.new, Function.update, ha]

/-- A new handler without a solver, in a free place. -/
theorem inv_put_empty {w : HWorld} {v : HVWorld} {r : ℕ → Option (ℕ ⊕ Bool)} {L : List ℕ}
    (I : HandInv w v r L) (i : ℕ) (hi : w.hs i = none) (d : HData) :
    HandInv { w with hs := Function.update w.hs i (some ⟨d, none⟩) }
      { v with hs := Function.update v.hs i (some ⟨d, none⟩) } r L where
  fresh := I.fresh
  live := I.live
  own := fun j a => by
    rw [I.own j a]
    by_cases hj : j = i
    · subst hj; simp [hi]
    · simp [Function.update, hj]
  given := I.given
  lost := I.lost
  nodup := I.nodup
  len := I.len
  shows := by
    refine ⟨fun j => ?_, I.shows.handed⟩
    by_cases hj : j = i
    · subst hj; simp [HShow, SolShow]
    · simpa [Function.update, hj] using I.shows.hs j

/-- Changing the plain members of a handler. -/
theorem inv_record {w : HWorld} {v : HVWorld} {r : ℕ → Option (ℕ ⊕ Bool)} {L : List ℕ}
    (I : HandInv w v r L) {i : ℕ} {x : HandlerM} {y : HVal} (hx : w.hs i = some x) (hy : v.hs i = some y)
    (d : HData) :
    HandInv { w with hs := Function.update w.hs i (some { x with data := d }) }
      { v with hs := Function.update v.hs i (some { y with data := d }) } r L where
  fresh := I.fresh
  live := I.live
  own := fun j a => by
    rw [I.own j a]
    by_cases hj : j = i
    · subst hj; simp [hx]
    · simp [Function.update, hj]
  given := I.given
  lost := I.lost
  nodup := I.nodup
  len := I.len
  shows := by
    refine ⟨fun j => ?_, I.shows.handed⟩
    by_cases hj : j = i
    · subst hj
      have := I.shows.hs j
      rw [hx, hy] at this
      simpa [HShow] using this.2
    · simpa [Function.update, hj] using I.shows.hs j

/-- A solver is allocated for the caller. -/
theorem inv_hand {w : HWorld} {v : HVWorld} {r : ℕ → Option (ℕ ⊕ Bool)} {L : List ℕ}
    (I : HandInv w v r L) (s : HSolver) :
    HandInv { w with heap := w.heap.new s, given := w.given ++ [w.heap.next] }
      { v with handed := v.handed ++ [s] } (Function.update r w.heap.next (some (.inr true))) L where
  fresh := fun a ha => by
    have h1 : w.heap.next + 1 ≤ a := ha
    rw [Function.update_of_ne (by omega)]
    exact I.fresh a (by omega)
  live := fun a => by
    show (w.heap.new s).mem a = none ↔ _
    rw [new_mem]
    by_cases ha : a = w.heap.next
    · subst ha; simp
    · simp [ha, Function.update, I.live a]
  own := fun j a => by
    by_cases ha : a = w.heap.next
    · subst ha
      simp only [Function.update_self, Option.some.injEq, reduceCtorEq, false_iff]
      intro hc
      have := (I.own j w.heap.next).2 hc
      rw [I.fresh _ le_rfl] at this
      cases this
    · rw [Function.update_of_ne ha]; exact I.own j a
  given := fun a => by
    by_cases ha : a = w.heap.next
    · subst ha; simp
    · rw [Function.update_of_ne ha, I.given a]; simp [ha]
  lost := fun a => by
    by_cases ha : a = w.heap.next
    · subst ha
      simp only [Function.update_self, Option.some.injEq, Sum.inr.injEq, Bool.true_eq_false, false_iff]
      intro hc
      have := (I.lost _).2 hc
      rw [I.fresh _ le_rfl] at this
      cases this
    · rw [Function.update_of_ne ha]; exact I.lost a
  nodup := I.nodup
  len := I.len
  shows := by
    have hm : ∀ a, w.heap.mem a ≠ none → (w.heap.new s).mem a = w.heap.mem a := fun a ha => by
      rw [new_mem, if_neg]
      rintro rfl
      exact ha ((I.live _).2 (I.fresh _ le_rfl))
    refine ⟨fun j => hShow_mono (I.shows.hs j) fun _ _ a _ h => hm a h, ?_⟩
    refine List.rel_append (I.shows.handed.imp fun a c h => ?_) (.cons ?_ .nil)
    · rw [hm a (by rw [h]; simp), h]
    · rw [new_mem, if_pos rfl]

/-- The solver pointer of a handler (which may be new) is overwritten by a pointer to a new solver;
the solver it pointed to belongs to nobody. -/
theorem inv_overwrite {w : HWorld} {v : HVWorld} {r : ℕ → Option (ℕ ⊕ Bool)} {L : List ℕ}
    (I : HandInv w v r L) (i : ℕ) (s : HSolver) (d : HData) (n : ℕ)
    (hn : n = match v.hs i with | none => 0 | some y => y.held) :
    ∃ r' L', HandInv
      { w with heap := w.heap.new s, hs := Function.update w.hs i (some ⟨d, some w.heap.next⟩) }
      { v with hs := Function.update v.hs i (some ⟨d, some s⟩), lost := v.lost + n } r' L' := by
  have hm : ∀ a, w.heap.mem a ≠ none → (w.heap.new s).mem a = w.heap.mem a := fun a ha => by
    rw [new_mem, if_neg]
    rintro rfl
    exact ha ((I.live _).2 (I.fresh _ le_rfl))
  have hsh : HShows
      { w with heap := w.heap.new s, hs := Function.update w.hs i (some ⟨d, some w.heap.next⟩) }
      { v with hs := Function.update v.hs i (some ⟨d, some s⟩), lost := v.lost + n } := by
    refine ⟨fun j => ?_, I.shows.handed.imp fun a c h => ?_⟩
    · by_cases hj : j = i
      · subst hj; simp [HShow, SolShow, new_mem]
      · simp only [Function.update, hj, dite_false]
        exact hShow_mono (I.shows.hs j) fun _ _ a _ h => hm a h
    · show (w.heap.new s).mem a = some c
      rw [hm a (by rw [h]; simp), h]
  have hnext : ∀ q, r w.heap.next ≠ some q := fun q h => by
    rw [I.fresh _ le_rfl] at h; cases h
  -- the old pointer
  by_cases hold : ∃ x a, w.hs i = some x ∧ x.solver = some a
  · obtain ⟨x, a0, hx, ha0⟩ := hold
    have hr0 : r a0 = some (.inl i) := (I.own i a0).2 ⟨x, hx, ha0⟩
    have hne : a0 ≠ w.heap.next := fun h => hnext _ (h ▸ hr0)
    have hn1 : n = 1 := by
      have h1 := I.shows.hs i
      rw [hx] at h1
      cases hy : v.hs i with
      | none => rw [hy] at h1; exact h1.elim
      | some y =>
        rw [hy] at h1
        rw [hn, hy]
        have h2 := h1.2
        rw [ha0] at h2
        cases hys : y.solver with
        | none => rw [hys] at h2; exact h2.elim
        | some c => simp [HVal.held, hys]
    refine ⟨Function.update (Function.update r a0 (some (.inr false))) w.heap.next (some (.inl i)),
      a0 :: L, ?_, ?_, ?_, ?_, ?_, ?_, ?_, hsh⟩
    · intro a ha
      have h1 : w.heap.next + 1 ≤ a := ha
      have h2 : a ≠ a0 := fun h => by
        subst h
        rw [I.fresh a (by omega)] at hr0; cases hr0
      rw [Function.update_of_ne (by omega), Function.update_of_ne h2]
      exact I.fresh a (by omega)
    · intro a
      show (w.heap.new s).mem a = none ↔ _
      rw [new_mem]
      by_cases ha : a = w.heap.next
      · subst ha; simp
      · rw [if_neg ha, Function.update_of_ne ha, I.live a]
        by_cases h2 : a = a0
        · subst h2; simp [hr0]
        · rw [Function.update_of_ne h2]
    · intro j a
      by_cases ha : a = w.heap.next
      · subst ha
        rw [Function.update_self]
        constructor
        · intro h
          simp only [Option.some.injEq, Sum.inl.injEq] at h
          subst h
          exact ⟨_, Function.update_self .., rfl⟩
        · rintro ⟨z, hz, hza⟩
          by_cases hj : j = i
          · rw [hj]
          · dsimp only at hz
            rw [Function.update_of_ne hj] at hz
            exact absurd ((I.own j _).2 ⟨z, hz, hza⟩) (hnext _)
      · rw [Function.update_of_ne ha]
        by_cases h2 : a = a0
        · subst h2
          simp only [Function.update_self, Option.some.injEq, reduceCtorEq, false_iff]
          rintro ⟨z, hz, hza⟩
          by_cases hj : j = i
          · subst hj
            rw [Function.update_self] at hz
            cases hz
            exact ha (Option.some.inj hza).symm
          · rw [Function.update_of_ne hj] at hz
            have := (I.own j a).2 ⟨z, hz, hza⟩
            rw [hr0] at this
            cases this
            exact hj rfl
        · rw [Function.update_of_ne h2, I.own j a]
          by_cases hj : j = i
          · subst hj
            simp only [Function.update_self, Option.some.injEq]
            constructor
            · rintro ⟨z, hz, hza⟩
              rw [hx] at hz; cases hz
              rw [ha0] at hza
              exact absurd (Option.some.inj hza).symm h2
            · rintro ⟨z, rfl, hza⟩
              exact absurd (Option.some.inj hza).symm ha
          · simp [Function.update, hj]
    · intro a
      by_cases ha : a = w.heap.next
      · subst ha
        simp only [Function.update_self, Option.some.injEq, reduceCtorEq, false_iff]
        intro hc
        exact hnext _ ((I.given _).2 hc)
      · rw [Function.update_of_ne ha]
        by_cases h2 : a = a0
        · subst h2
          simp only [Function.update_self, Option.some.injEq, Sum.inr.injEq, Bool.false_eq_true, false_iff]
          intro hc
          have := (I.given _).2 hc
          rw [hr0] at this; cases this
        · rw [Function.update_of_ne h2]; exact I.given a
    · intro a
      by_cases ha : a = w.heap.next
      · subst ha
        simp only [Function.update_self, Option.some.injEq, reduceCtorEq, false_iff, List.mem_cons, not_or]
        exact ⟨Ne.symm hne, fun hc => hnext _ ((I.lost _).2 hc)⟩
      · rw [Function.update_of_ne ha]
        by_cases h2 : a = a0
        · subst h2; simp
        · rw [Function.update_of_ne h2, I.lost a]; simp [h2]
    · refine List.nodup_cons.2 ⟨fun hc => ?_, I.nodup⟩
      have := (I.lost _).2 hc
      rw [hr0] at this; cases this
    · simp [I.len, hn1]
  · have hn0 : n = 0 := by
      rw [hn]
      cases hy : v.hs i with
      | none => rfl
      | some y =>
        have h1 := I.shows.hs i
        rw [hy] at h1
        cases hx : w.hs i with
        | none => rw [hx] at h1; exact h1.elim
        | some x =>
          rw [hx] at h1
          have h2 := h1.2
          cases hxs : x.solver with
          | some a => exact absurd ⟨x, a, hx, hxs⟩ hold
          | none =>
            rw [hxs] at h2
            cases hys : y.solver with
            | none => simp [HVal.held, hys]
            | some c => rw [hys] at h2; exact h2.elim
    refine ⟨Function.update r w.heap.next (some (.inl i)), L, ?_, ?_, ?_, ?_, ?_, I.nodup, ?_, hsh⟩
    · intro a ha
      have h1 : w.heap.next + 1 ≤ a := ha
      rw [Function.update_of_ne (by omega)]
      exact I.fresh a (by omega)
    · intro a
      show (w.heap.new s).mem a = none ↔ _
      rw [new_mem]
      by_cases ha : a = w.heap.next
      · subst ha; simp
      · rw [if_neg ha, Function.update_of_ne ha, I.live a]
    · intro j a
      by_cases ha : a = w.heap.next
      · subst ha
        rw [Function.update_self]
        constructor
        · intro h
          simp only [Option.some.injEq, Sum.inl.injEq] at h
          subst h
          exact ⟨_, Function.update_self .., rfl⟩
        · rintro ⟨z, hz, hza⟩
          by_cases hj : j = i
          · rw [hj]
          · dsimp only at hz
            rw [Function.update_of_ne hj] at hz
            exact absurd ((I.own j _).2 ⟨z, hz, hza⟩) (hnext _)
      · rw [Function.update_of_ne ha, I.own j a]
        by_cases hj : j = i
        · subst hj
          simp only [Function.update_self, Option.some.injEq]
          constructor
          · rintro ⟨z, hz, hza⟩
            exact absurd ⟨z, a, hz, hza⟩ hold
          · rintro ⟨z, rfl, hza⟩
            exact absurd (Option.some.inj hza).symm ha
        · simp [Function.update, hj]
    · intro a
      by_cases ha : a = w.heap.next
      · subst ha
        simp only [Function.update_self, Option.some.injEq, reduceCtorEq, false_iff]
        intro hc
        exact hnext _ ((I.given _).2 hc)
      · rw [Function.update_of_ne ha]; exact I.given a
    · intro a
      by_cases ha : a = w.heap.next
      · subst ha
        simp only [Function.update_self, Option.some.injEq, reduceCtorEq, false_iff]
        intro hc
        exact hnext _ ((I.lost _).2 hc)
      · rw [Function.update_of_ne ha]; exact I.lost a
    · simp [I.len, hn0]

/-- Destroying a handler. -/
theorem inv_destroy {w : HWorld} {v : HVWorld} {r : ℕ → Option (ℕ ⊕ Bool)} {L : List ℕ}
    (I : HandInv w v r L) {i : ℕ} {x : HandlerM} (hx : w.hs i = some x) :
    ∃ h r', x.destroy w.heap = .ok h ∧
      HandInv { w with heap := h, hs := Function.update w.hs i none }
        { v with hs := Function.update v.hs i none } r' L := by
  cases hs : x.solver with
  | none =>
    refine ⟨w.heap, r, by simp [HandlerM.destroy, hs, BMem.delete], I.fresh, I.live, ?_, I.given, I.lost,
      I.nodup, I.len, ?_⟩
    · intro j a
      rw [I.own j a]
      by_cases hj : j = i
      · subst hj; simp [hx, hs]
      · simp [Function.update, hj]
    · refine ⟨fun j => ?_, I.shows.handed⟩
      by_cases hj : j = i
      · subst hj; simp [HShow]
      · simpa [Function.update, hj] using I.shows.hs j
  | some a0 =>
    have hr0 : r a0 = some (.inl i) := (I.own i a0).2 ⟨x, hx, hs⟩
    have hlive : w.heap.mem a0 ≠ none := fun h => by
      rw [(I.live a0).1 h] at hr0; cases hr0
    obtain ⟨c, hc⟩ := Option.ne_none_iff_exists'.1 hlive
    refine ⟨{ w.heap with mem := Function.update w.heap.mem a0 none }, Function.update r a0 none,
      by simp [HandlerM.destroy, hs, BMem.delete, hc], ?_, ?_, ?_, ?_, ?_, I.nodup, I.len, ?_⟩
    · intro a ha
      by_cases h2 : a = a0
      · subst h2; simp
      · rw [Function.update_of_ne h2]; exact I.fresh a ha
    · intro a
      by_cases h2 : a = a0
      · subst h2; simp
      · simpa [Function.update, h2] using I.live a
    · intro j a
      by_cases h2 : a = a0
      · subst h2
        simp only [Function.update_self, reduceCtorEq, false_iff]
        rintro ⟨z, hz, hza⟩
        by_cases hj : j = i
        · subst hj; rw [Function.update_self] at hz; cases hz
        · rw [Function.update_of_ne hj] at hz
          have := (I.own j a).2 ⟨z, hz, hza⟩
          rw [hr0] at this; cases this; exact hj rfl
      · rw [Function.update_of_ne h2, I.own j a]
        by_cases hj : j = i
        · subst hj
          constructor
          · rintro ⟨z, hz, hza⟩
            rw [hx] at hz; cases hz
            rw [hs] at hza; exact absurd (Option.some.inj hza).symm h2
          · rintro ⟨z, hz, -⟩
            dsimp only at hz
            rw [Function.update_self] at hz; cases hz
        · simp [Function.update, hj]
    · intro a
      by_cases h2 : a = a0
      · subst h2
        simp only [Function.update_self, reduceCtorEq, false_iff]
        intro hc'
        have := (I.given a).2 hc'
        rw [hr0] at this; cases this
      · rw [Function.update_of_ne h2]; exact I.given a
    · intro a
      by_cases h2 : a = a0
      · subst h2
        simp only [Function.update_self, reduceCtorEq, false_iff]
        intro hc'
        have := (I.lost a).2 hc'
        rw [hr0] at this; cases this
      · rw [Function.update_of_ne h2]; exact I.lost a
    · refine ⟨fun j => ?_, ?_⟩
      · by_cases hj : j = i
        · subst hj; simp [HShow]
        · simp only [Function.update, hj, dite_false]
          refine hShow_mono (I.shows.hs j) fun z hz a ha _ => ?_
          have : r a = some (.inl j) := (I.own j a).2 ⟨z, hz, ha⟩
          have h2 : a ≠ a0 := fun h => by subst h; rw [hr0] at this; cases this; exact hj rfl
          simp [Function.update, h2]
      · have hg : ∀ a ∈ w.given, a ≠ a0 := fun a ha h => by
          subst h
          have := (I.given a).2 ha
          rw [hr0] at this; cases this
        have : ∀ (l : List ℕ) (m : List HSolver), (∀ a ∈ l, a ≠ a0) →
            List.Forall₂ (fun a s => w.heap.mem a = some s) l m →
            List.Forall₂ (fun a s => (Function.update w.heap.mem a0 none) a = some s) l m := by
          intro l m hl hf
          induction hf with
          | nil => exact .nil
          | @cons a c l' m' hac _ ih =>
            refine .cons ?_ (ih fun b hb => hl b (by simp [hb]))
            rw [Function.update_of_ne (hl a (by simp))]; exact hac
        exact this _ _ hg I.shows.handed

/-- Copying gives the value of the source. -/
theorem initFrom_spec {h : BMem HSolver} {x : HandlerM} {y : HVal} (hd : x.data = y.data)
    (hs : SolShow h x.solver y.solver) :
    (y.solver = none → x.initFrom h = .undef) ∧
    (∀ c, y.solver = some c → x.initFrom h = .ok (h.new c, ⟨y.data, some h.next⟩)) := by
  constructor
  · intro hy
    rw [hy] at hs
    cases hx : x.solver with
    | none => simp [HandlerM.initFrom, hx]
    | some a => rw [hx] at hs; exact hs.elim
  · intro c hy
    rw [hy] at hs
    cases hx : x.solver with
    | none => rw [hx] at hs; exact hs.elim
    | some a =>
      rw [hx] at hs
      have hm : h.mem a = some c := hs
      simp only [HandlerM.initFrom, hx, hm, hd]

theorem hshow_some {h : BMem HSolver} {x : Option HandlerM} {y : HVal} (hs : HShow h x (some y)) :
    ∃ z, x = some z ∧ z.data = y.data ∧ SolShow h z.solver y.solver := by
  cases x with
  | none => exact hs.elim
  | some z => exact ⟨z, rfl, hs.1, hs.2⟩

theorem hshow_none {h : BMem HSolver} {x : Option HandlerM} (hs : HShow h x none) : x = none := by
  cases x with
  | none => rfl
  | some z => exact hs.elim

/-- One operation: undefined if and only if the specification does not allow it, and otherwise the same
values afterwards. -/
theorem hstep_spec {w : HWorld} {v : HVWorld} {r : ℕ → Option (ℕ ⊕ Bool)} {L : List ℕ}
    (I : HandInv w v r L) (o : HOp) :
    match v.step o with
    | none => w.step o = .undef
    | some v' => ∃ w' r' L', w.step o = .ok w' ∧ HandInv w' v' r' L' := by
  cases o with
  | new i =>
    cases hv : v.hs i with
    | none =>
      have hw : w.hs i = none := by have := I.shows.hs i; rw [hv] at this; exact hshow_none this
      simp only [HVWorld.step, hv, HWorld.step, hw, Option.isSome_none, Bool.false_eq_true, if_false]
      exact ⟨_, r, L, rfl, inv_put_empty I i hw {}⟩
    | some y =>
      obtain ⟨z, hz, -⟩ := hshow_some (by have := I.shows.hs i; rwa [hv] at this)
      simp [HVWorld.step, hv, HWorld.step, hz]
  | newFor i ow m t k =>
    cases hv : v.hs i with
    | none =>
      have hw : w.hs i = none := by have := I.shows.hs i; rw [hv] at this; exact hshow_none this
      simp only [HVWorld.step, hv, HWorld.step, hw, Option.isSome_none, Bool.false_eq_true, if_false]
      exact ⟨_, r, L, rfl, inv_put_empty I i hw
        { owner := some ow, maxNumLeafNodes := m, maxTime := t, keepPrunedNodes := k }⟩
    | some y =>
      obtain ⟨z, hz, -⟩ := hshow_some (by have := I.shows.hs i; rwa [hv] at this)
      simp [HVWorld.step, hv, HWorld.step, hz]
  | copy i j =>
    cases hv : v.hs i with
    | none =>
      have hw : w.hs i = none := by have := I.shows.hs i; rw [hv] at this; exact hshow_none this
      simp only [HVWorld.step, hv, HWorld.step, hw, ite_self]
    | some y =>
      obtain ⟨z, hz, hd, hs⟩ := hshow_some (by have := I.shows.hs i; rwa [hv] at this)
      cases hj : v.hs j with
      | some y' =>
        obtain ⟨z', hz', -⟩ := hshow_some (by have := I.shows.hs j; rwa [hj] at this)
        simp [HVWorld.step, hv, hj, HWorld.step, hz']
      | none =>
        have hw : w.hs j = none := by have := I.shows.hs j; rw [hj] at this; exact hshow_none this
        obtain ⟨h1, h2⟩ := initFrom_spec hd hs
        cases hc : y.solver with
        | none =>
          simp only [HVWorld.step, hv, hj, HWorld.step, hw, hz, h1 hc, hc, Res.bind, Option.isSome_none,
            Bool.false_eq_true, if_false]
        | some c =>
          obtain ⟨r', L', I'⟩ := inv_overwrite I j c y.data 0 (by rw [hj])
          simp only [HVWorld.step, hv, hj, HWorld.step, hw, hz, h2 c hc, hc, Res.bind, Option.isSome_none,
            Option.isSome_some, Bool.false_eq_true, if_false, if_true]
          refine ⟨_, r', L', rfl, ?_⟩
          have he : y = ⟨y.data, some c⟩ := by rw [← hc]
          rw [he]; exact I'
  | assign i j =>
    cases hv : v.hs i with
    | none =>
      have hw : w.hs i = none := by have := I.shows.hs i; rw [hv] at this; exact hshow_none this
      simp only [HVWorld.step, hv, HWorld.step, hw]
    | some y =>
      obtain ⟨z, hz, hd, hs⟩ := hshow_some (by have := I.shows.hs i; rwa [hv] at this)
      cases hj : v.hs j with
      | none =>
        have hw : w.hs j = none := by have := I.shows.hs j; rw [hj] at this; exact hshow_none this
        simp only [HVWorld.step, hv, hj, HWorld.step, hz, hw]
      | some y' =>
        obtain ⟨z', hz', -⟩ := hshow_some (by have := I.shows.hs j; rwa [hj] at this)
        obtain ⟨h1, h2⟩ := initFrom_spec hd hs
        cases hc : y.solver with
        | none =>
          simp only [HVWorld.step, hv, hj, HWorld.step, hz, hz', h1 hc, hc, Res.bind, Option.isSome_none,
            Bool.false_eq_true, if_false]
        | some c =>
          obtain ⟨r', L', I'⟩ := inv_overwrite I j c y.data y'.held (by rw [hj])
          simp only [HVWorld.step, hv, hj, HWorld.step, hz, hz', h2 c hc, hc, Res.bind,
            Option.isSome_some, if_true]
          refine ⟨_, r', L', rfl, ?_⟩
          have he : y = ⟨y.data, some c⟩ := by rw [← hc]
          rw [he]; exact I'
  | setOriginal i s b =>
    cases hv : v.hs i with
    | none =>
      have hw : w.hs i = none := by have := I.shows.hs i; rw [hv] at this; exact hshow_none this
      simp only [HVWorld.step, hv, HWorld.step, hw]
    | some y =>
      obtain ⟨z, hz, hd, hs⟩ := hshow_some (by have := I.shows.hs i; rwa [hv] at this)
      have hclone : z.oldSolver w.heap b = .ok (w.heap, none) ∧ (b = false ∨ y.solver = none) ∨
          ∃ c, b = true ∧ y.solver = some c ∧
            z.oldSolver w.heap b = .ok (w.heap.new c, some w.heap.next) := by
        cases b with
        | false => left; simp [HandlerM.oldSolver]
        | true =>
          cases hc : y.solver with
          | none =>
            left
            rw [hc] at hs
            cases hzs : z.solver with
            | none => simp [HandlerM.oldSolver, hzs, BMem.clone]
            | some a => rw [hzs] at hs; exact hs.elim
          | some c =>
            right
            rw [hc] at hs
            cases hzs : z.solver with
            | none => rw [hzs] at hs; exact hs.elim
            | some a =>
              rw [hzs] at hs
              have hm : w.heap.mem a = some c := hs
              exact ⟨c, rfl, rfl, by simp [HandlerM.oldSolver, hzs, BMem.clone, hm]⟩
      cases s with
      | none =>
        rcases hclone with ⟨h1, -⟩ | ⟨c, -, -, h1⟩ <;>
          simp only [HVWorld.step, hv, HWorld.step, hz, HandlerM.setOriginal, h1, Res.bind]
      | some s =>
        rcases hclone with ⟨h1, hb⟩ | ⟨c, rfl, hc, h1⟩
        · obtain ⟨r', L', I'⟩ := inv_overwrite I i s
            { y.data with originalLB := s.lower, originalUB := s.upper } y.held (by rw [hv])
          simp only [HVWorld.step, hv, HWorld.step, hz, HandlerM.setOriginal, h1, Res.bind, hd]
          refine ⟨_, r', L', rfl, ?_⟩
          have he : (if b = true then y.solver.toList else []) = [] := by
            rcases hb with rfl | hb
            · simp
            · simp [hb]
          simpa [he] using I'
        · have I1 := inv_hand I c
          obtain ⟨r', L', I'⟩ := inv_overwrite I1 i s
            { y.data with originalLB := s.lower, originalUB := s.upper } y.held (by dsimp only; rw [hv])
          simp only [HVWorld.step, hv, HWorld.step, hz, HandlerM.setOriginal, h1, Res.bind, hd]
          refine ⟨_, r', L', rfl, ?_⟩
          simpa [hc] using I'
  | record i f =>
    cases hv : v.hs i with
    | none =>
      have hw : w.hs i = none := by have := I.shows.hs i; rw [hv] at this; exact hshow_none this
      simp only [HVWorld.step, hv, HWorld.step, hw]
    | some y =>
      obtain ⟨z, hz, hd, hs⟩ := hshow_some (by have := I.shows.hs i; rwa [hv] at this)
      simp only [HVWorld.step, hv, HWorld.step, hz, hd]
      exact ⟨_, r, L, rfl, inv_record I hz hv (f y.data)⟩
  | destroy i =>
    cases hv : v.hs i with
    | none =>
      have hw : w.hs i = none := by have := I.shows.hs i; rw [hv] at this; exact hshow_none this
      simp only [HVWorld.step, hv, HWorld.step, hw]
    | some y =>
      obtain ⟨z, hz, hd, hs⟩ := hshow_some (by have := I.shows.hs i; rwa [hv] at this)
      obtain ⟨h, r', h1, I'⟩ := inv_destroy I hz
      simp only [HVWorld.step, hv, HWorld.step, hz, h1, Res.bind]
      exact ⟨_, r', L, rfl, I'⟩

theorem hinit_inv : HandInv HWorld.init HVWorld.init (fun _ => none) [] where
  fresh := fun _ _ => rfl
  live := fun _ => by simp [HWorld.init]
  own := fun _ _ => by simp [HWorld.init]
  given := fun _ => by simp [HWorld.init]
  lost := fun _ => by simp
  nodup := List.nodup_nil
  len := rfl
  shows := ⟨fun _ => trivial, .nil⟩

theorem hrun_spec {ops : List HOp} : ∀ {w : HWorld} {v : HVWorld} {r : ℕ → Option (ℕ ⊕ Bool)} {L : List ℕ},
    HandInv w v r L →
    match v.run ops with
    | none => w.run ops = .undef
    | some v' => ∃ w' r' L', w.run ops = .ok w' ∧ HandInv w' v' r' L' := by
  induction ops with
  | nil => intro w v r L I; exact ⟨w, r, L, rfl, I⟩
  | cons o ops ih =>
    intro w v r L I
    have h := hstep_spec I o
    simp only [HVWorld.run, HWorld.run]
    cases hv : v.step o with
    | none => rw [hv] at h; simp only [Option.bind_none]; rw [h]; rfl
    | some v1 =>
      rw [hv] at h
      obtain ⟨w1, r1, L1, h1, I1⟩ := h
      simp only [Option.bind_some]
      rw [h1]
      exact ih I1

/-! ## The property -/

/-- **C128**: handlers are values. For every history that the specification allows (handlers exist when
they are used, names are free when handlers are created, the source of a copy has a solver, and a solver
given is of the right class), no undefined behaviour occurs, and the handlers and the solvers handed out
have exactly the specified contents. -/
theorem handlers_are_values_partial {ops : List HOp} {v : HVWorld} (h : HVWorld.init.run ops = some v) :
    ∃ w, HWorld.init.run ops = .ok w ∧ HShows w v := by
  have := hrun_spec (ops := ops) hinit_inv
  rw [h] at this
  obtain ⟨w, _, _, h1, I⟩ := this
  exact ⟨w, h1, I.shows⟩

/-- **C128**: every other history is undefined behaviour. -/
theorem handlers_undefined {ops : List HOp} (h : HVWorld.init.run ops = none) :
    HWorld.init.run ops = .undef := by
  have := hrun_spec (ops := ops) hinit_inv
  rwa [h] at this

/-- **C128**: two handlers never share a solver, and none shares one with the caller. -/
theorem handlers_own_solvers {ops : List HOp} {w : HWorld} (h : HWorld.init.run ops = .ok w)
    {i : ℕ} {x : HandlerM} {a : ℕ} (hx : w.hs i = some x) (ha : x.solver = some a) :
    (∀ j y, w.hs j = some y → y.solver = some a → j = i) ∧ a ∉ w.given := by
  have h0 := hrun_spec (ops := ops) hinit_inv
  cases hv : HVWorld.init.run ops with
  | none => rw [hv] at h0; dsimp only at h0; rw [h] at h0; cases h0
  | some v =>
    rw [hv] at h0
    obtain ⟨w', r, L, h1, I⟩ := h0
    rw [h] at h1; cases h1
    have hr := (I.own i a).2 ⟨x, hx, ha⟩
    refine ⟨fun j y hy hya => ?_, fun hg => ?_⟩
    · have := (I.own j a).2 ⟨y, hy, hya⟩
      rw [hr] at this; cases this; rfl
    · have := (I.given a).2 hg
      rw [hr] at this; cases this

/-- **C128**: what stays allocated. When all handlers are destroyed and no solver was handed out, the
solvers still allocated are as many as the ones that were overwritten by an assignment or by
`setOriginalSolver`. -/
theorem handlers_leak_exactly {ops : List HOp} {v : HVWorld} {w : HWorld}
    (h : HVWorld.init.run ops = some v) (hw : HWorld.init.run ops = .ok w)
    (hd : ∀ i, v.hs i = none) (hg : v.handed = []) :
    ∃ L : List ℕ, L.Nodup ∧ L.length = v.lost ∧ ∀ a, w.heap.mem a ≠ none ↔ a ∈ L := by
  have h0 := hrun_spec (ops := ops) hinit_inv
  rw [h] at h0
  obtain ⟨w', r, L, h1, I⟩ := h0
  rw [hw] at h1; cases h1
  refine ⟨L, I.nodup, I.len, fun a => ?_⟩
  rw [Ne, I.live a, ← I.lost a]
  have hgiven : w.given = [] := by
    have := I.shows.handed
    rw [hg] at this
    exact List.forall₂_nil_right_iff.1 this
  constructor
  · intro hr
    obtain ⟨q, hq⟩ := Option.ne_none_iff_exists'.1 hr
    rw [hq]
    rcases q with i | b
    · obtain ⟨x, hx, -⟩ := (I.own i a).1 hq
      have hi := I.shows.hs i
      rw [hd i] at hi
      rw [hshow_none hi] at hx; cases hx
    · cases b with
      | false => rfl
      | true => have := (I.given a).1 hq; rw [hgiven] at this; cases this
  · intro hr hn; rw [hn] at hr; cases hr

/-- **C128**: nothing leaks if and only if no solver was overwritten. -/
theorem handlers_all_freed_iff {ops : List HOp} {v : HVWorld} {w : HWorld}
    (h : HVWorld.init.run ops = some v) (hw : HWorld.init.run ops = .ok w)
    (hd : ∀ i, v.hs i = none) (hg : v.handed = []) :
    (∀ a, w.heap.mem a = none) ↔ v.lost = 0 := by
  obtain ⟨L, hn, hl, hm⟩ := handlers_leak_exactly h hw hd hg
  constructor
  · intro ha
    rw [← hl]
    cases L with
    | nil => rfl
    | cons a L => exact absurd (ha a) ((hm a).2 (by simp))
  · intro h0 a
    rw [h0] at hl
    have hL := List.eq_nil_of_length_eq_zero hl
    by_contra hc
    have := (hm a).1 hc
    rw [hL] at this; cases this

/-! ## The use in the generator -/

/-- **C128**, for the generator: the handler that the search works with has the limits, the time limit, the
option and the disjunction it was made for, the bounds of the solver given as original bounds, a solver of
its own with the same contents, and whatever the events recorded; the handler of the caller is gone, and the
only solver allocated is that of the search's handler. -/
theorem tree_handler (owner : ℕ) (maxLeaf : ℤ) (timeLimit : ℚ) (keep : Bool) (s : HSolver)
    (events : List (HData → HData)) :
    ∃ w a, HWorld.init.run (treeHandlers owner maxLeaf timeLimit keep s events) = .ok w ∧
      w.hs 0 = none ∧
      w.hs 1 = some ⟨events.foldl (fun d f => f d)
        { owner := some owner, maxNumLeafNodes := maxLeaf, maxTime := timeLimit, keepPrunedNodes := keep
          originalLB := s.lower, originalUB := s.upper }, some a⟩ ∧
      ∀ b, w.heap.mem b = if b = a then some s else none := by
  have hrec : ∀ (fs : List (HData → HData)) (w : HWorld) (x : HandlerM), w.hs 1 = some x →
      w.run (fs.map (fun f => HOp.record 1 f) ++ [.destroy 0]) =
        HWorld.run { w with
          hs := Function.update w.hs 1 (some { x with data := fs.foldl (fun d f => f d) x.data }) }
          [.destroy 0] := by
    intro fs
    induction fs with
    | nil =>
      intro w x hx
      have : Function.update w.hs 1 (some x) = w.hs := by rw [← hx]; exact Function.update_eq_self _ _
      simp [this]
    | cons f fs ih =>
      intro w x hx
      simp only [List.map_cons, List.cons_append, HWorld.run, HWorld.step, hx, Res.bind, List.foldl_cons]
      rw [ih _ { x with data := f x.data } (by simp)]
      simp only [Function.update_idem]
      rfl
  refine ⟨⟨⟨Function.update (Function.update (Function.update (fun _ => none) 0 (some s)) 1 (some s)) 0 none, 2⟩,
      Function.update (Function.update (Function.update (Function.update (fun _ => none) 0
        (some ⟨{ owner := some owner, maxNumLeafNodes := maxLeaf, maxTime := timeLimit,
                 keepPrunedNodes := keep, originalLB := s.lower, originalUB := s.upper }, some 0⟩)) 1
        (some ⟨{ owner := some owner, maxNumLeafNodes := maxLeaf, maxTime := timeLimit,
                 keepPrunedNodes := keep, originalLB := s.lower, originalUB := s.upper }, some 1⟩)) 1
        (some ⟨events.foldl (fun d f => f d)
          { owner := some owner, maxNumLeafNodes := maxLeaf, maxTime := timeLimit,
            keepPrunedNodes := keep, originalLB := s.lower, originalUB := s.upper }, some 1⟩)) 0 none, []⟩,
    1, ?_, by simp, ?_, ?_⟩
  · unfold treeHandlers
    simp only [List.cons_append, List.nil_append, HWorld.run, HWorld.step, HWorld.init, Option.isSome_none,
      Bool.false_eq_true, if_false, Res.bind, Function.update_self, HandlerM.setOriginal, HandlerM.oldSolver,
      HandlerM.newFor, HandlerM.new, HandlerM.initFrom, BMem.new, Option.toList, List.append_nil,
      Function.update_idem]
    rw [Function.update_of_ne (by decide)]
    simp only [Option.isSome_none, Bool.false_eq_true, if_false]
    rw [hrec events _ (HandlerM.mk (HData.mk (some owner) maxLeaf 0 timeLimit keep 0 0 0 dblMax s.lower s.upper
      [] [] [] [] [] [] none none .no false false) (some 1)) (by simp)]
    simp [HWorld.run, HWorld.step, HandlerM.destroy, BMem.delete, Res.bind, Function.update]
  · simp [Function.update]
  · intro b
    simp only [Function.update]
    by_cases h0 : b = 0
    · subst h0; simp
    · by_cases h1 : b = 1
      · subst h1; simp
      · simp [h0, h1]

/-! ## Where the code departs -/

/-- **C128 fails**: copying a handler that was never given a solver is undefined behaviour. -/
theorem copy_without_solver (owner : ℕ) (m : ℤ) (t : ℚ) (k : Bool) :
    HWorld.init.run [.newFor 0 owner m t k, .copy 0 1] = .undef ∧
    HWorld.init.run [.new 0, .assign 0 0] = .undef :=
  ⟨handlers_undefined (by simp [HVWorld.run, HVWorld.step, HVWorld.init, Function.update]),
   handlers_undefined (by simp [HVWorld.run, HVWorld.step, HVWorld.init, Function.update])⟩

/-- **C128 fails**: setting the solver twice, assigning to another handler with a solver, and assigning a
handler to itself each leak a solver. -/
theorem handlers_leak (s : HSolver) :
    (∀ v, HVWorld.init.run [.new 0, .setOriginal 0 (some s) false, .setOriginal 0 (some s) false,
      .destroy 0] = some v → v.lost = 1) ∧
    (∀ v, HVWorld.init.run [.new 0, .setOriginal 0 (some s) false, .copy 0 1, .assign 0 1,
      .destroy 0, .destroy 1] = some v → v.lost = 1) ∧
    (∀ v, HVWorld.init.run [.new 0, .setOriginal 0 (some s) false, .assign 0 0,
      .destroy 0] = some v → v.lost = 1) := by
  refine ⟨?_, ?_, ?_⟩ <;> intro v h <;>
    simp [HVWorld.run, HVWorld.step, HVWorld.init, HVal.held, Function.update] at h <;> rw [← h]

/-- The histories of `handlers_leak` are allowed, and in memory a solver is left behind. -/
example : ∃ w, HWorld.init.run [.new 0, .setOriginal 0 (some ⟨[0], [1], 7⟩) false, .copy 0 1, .assign 0 1,
      .destroy 0, .destroy 1] = .ok w ∧ w.hs 0 = none ∧ w.hs 1 = none ∧
      w.heap.mem 1 = some ⟨[0], [1], 7⟩ := by
  refine ⟨_, rfl, ?_, ?_, ?_⟩ <;> rfl

/-- **C128 fails**: a solver of another class given to a handler is undefined behaviour, not an error. -/
theorem foreign_solver (b : Bool) : HWorld.init.run [.new 0, .setOriginal 0 none b] = .undef :=
  handlers_undefined (by simp [HVWorld.run, HVWorld.step, HVWorld.init, Function.update])

/-- **C128**: the getter of the time limit returns it if it is integral and small. -/
theorem getMaxTime_partial (d : HData) (n : ℤ) (h : d.maxTime = n) (hn : -(2 ^ 31) ≤ n ∧ n < 2 ^ 31) :
    d.getMaxTime = .ok n := by
  unfold HData.getMaxTime truncInt
  rw [h]
  simp
  omega

/-- **C128 fails**: a time limit of half a second is reported as 0, and the default for "no limit" is
undefined behaviour; infinite bounds likewise. -/
theorem getMaxTime_wrong :
    ({ maxTime := 1/2 } : HData).getMaxTime = .ok 0 ∧
    ({ maxTime := dblMax } : HData).getMaxTime = .undef ∧
    ({ originalLB := [-dblMax, 5/2] } : HData).getOriginalLB 0 = .undef ∧
    ({ originalLB := [-dblMax, 5/2] } : HData).getOriginalLB 1 = .ok 2 := by
  decide +kernel

/-! ## Events -/

/-- **C128**: once the search has been stopped or has ended, or the number of leaf nodes has reached the
limit, every event is answered by `stop` and changes nothing — also the final event `endSearch`. -/
theorem event_stops (body : HEvent → HData → HData × HAction) (d : HData) (e : HEvent) (status : ℤ)
    (h : d.reachedEnd = true ∨ d.maxNumLeafNodes ≤ d.numLeafNodes) :
    d.event body e status = .ok (d, .stop) := by
  unfold HData.event
  rcases h with h | h <;> simp [h]

/-- **C128**: a search that ends by itself leaves a handler with no leaf nodes, and from then on every
event is answered by `stop`. -/
theorem event_end (body : HEvent → HData → HData × HAction) (d : HData) (status : ℤ)
    (hs : status = 0 ∨ status = 1 ∨ status = 2) (h1 : d.reachedEnd = false)
    (h2 : d.numLeafNodes < d.maxNumLeafNodes) :
    ∃ d', d.event body .endSearch status = .ok (d', .noAction) ∧ d'.numLeafNodes = 0 ∧
      d'.numNodesOnTree = 0 ∧ d'.stats = d.stats ∧ d'.savedSolution = d.savedSolution ∧
      ∀ e st, d'.event body e st = .ok (d', .stop) := by
  refine ⟨{ d with numNodesOnTree := 0, numLeafNodes := 0, reachedEnd := true }, ?_, rfl, rfl, rfl, rfl,
    fun e st => event_stops body _ e st (Or.inl rfl)⟩
  unfold HData.event
  have : ¬ d.numLeafNodes ≥ d.maxNumLeafNodes := by omega
  rcases hs with rfl | rfl | rfl <;> simp [h1, this]

/-- **C128**: a handler made by the default constructor stops the search at the first event. -/
theorem default_handler_stops (body : HEvent → HData → HData × HAction) (e : HEvent) (status : ℤ) :
    HandlerM.new.data.event body e status = .ok (HandlerM.new.data, .stop) :=
  event_stops body _ e status (Or.inr (by simp [HandlerM.new]))

/-- **C128**: cuts generated by the search and other events leave the handler unchanged. -/
theorem event_other (body : HEvent → HData → HData × HAction) (d d' : HData) (act : HAction) (e : HEvent)
    (he : e = .generatedCuts ∨ e = .other) (status : ℤ) (h : d.event body e status = .ok (d', act)) :
    d' = d := by
  unfold HData.event at h
  rcases he with rfl | rfl <;> (split at h <;> cases h <;> rfl)

/-- **C128 fails**: an end of the search with another status is an assertion failure. -/
theorem event_bad_status (body : HEvent → HData → HData × HAction) :
    ({ maxNumLeafNodes := 2 } : HData).event body .endSearch 5 = .undef := by
  simp [HData.event]

/-- The number of leaf nodes can reach the limit with nothing saved (`saveInformation` failed): the next
event then stops the search all the same. -/
example : ({ maxNumLeafNodes := 2, numLeafNodes := 2 } : HData).event (fun _ d => (d, .noAction)) .node 0 =
    .ok ({ maxNumLeafNodes := 2, numLeafNodes := 2 }, .stop) := by decide +kernel

/-- Non-vacuity of `handlers_are_values_partial` and `handlers_all_freed_iff`: the generator's history is
allowed and loses nothing. -/
example (s : HSolver) : ∃ v, HVWorld.init.run (treeHandlers 3 8 100 false s
      [fun d => { d with numLeafNodes := 8 }] ++ [.destroy 1]) = some v ∧ v.lost = 0 ∧ v.handed = [] ∧
      v.hs 0 = none ∧ v.hs 1 = none := by
  refine ⟨_, rfl, rfl, rfl, rfl, rfl⟩

end VPC
