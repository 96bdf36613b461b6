import Verif.Model.Own
import Mathlib.Tactic.Common

/-!
# Ownership (C27)
-/
namespace VPC

/-! ## The ownership invariant -/

/-- Every owning pointer points to a live object and no object has two owners. `ptr` lists the
owning pointers, `α` names them. -/
structure HInv {α : Type} (h : Heap) (ptr : α → Option ℕ) : Prop where
  bound : ∀ id, h.live id = true → id < h.next
  live : ∀ a id, ptr a = some id → h.live id = true
  inj : ∀ a b id, ptr a = some id → ptr b = some id → a = b

theorem HInv.weaken {α : Type} {h : Heap} {ptr ptr' : α → Option ℕ} (H : HInv h ptr)
    (hp : ∀ a, ptr' a = none ∨ ptr' a = ptr a) : HInv h ptr' := by
  have key : ∀ a id, ptr' a = some id → ptr a = some id := by
    intro a id ha
    rcases hp a with h1 | h1
    · rw [h1] at ha; cases ha
    · rw [← h1, ha]
  exact ⟨H.bound, fun a id ha => H.live a id (key a id ha),
    fun a b id ha hb => H.inj a b id (key a id ha) (key b id hb)⟩

theorem HInv.alloc {α : Type} [DecidableEq α] {h : Heap} {ptr : α → Option ℕ} (H : HInv h ptr)
    (a : α) : HInv h.alloc (Function.update ptr a (some h.next)) := by
  have old : ∀ b id, ptr b = some id → id < h.next := fun b id hb => H.bound id (H.live b id hb)
  refine ⟨fun id hid => ?_, fun b id hb => ?_, fun b c id hb hc => ?_⟩
  · simp only [Heap.alloc, Function.update_apply] at hid ⊢
    split at hid
    · omega
    · have := H.bound id hid; omega
  · simp only [Heap.alloc, Function.update_apply] at hb ⊢
    split at hb
    · simp at hb; simp [hb]
    · have := H.live b id hb
      split <;> simp_all
  · simp only [Function.update_apply] at hb hc
    split at hb <;> split at hc
    · simp_all
    · simp at hb; have := old c id hc; omega
    · simp at hc; have := old b id hb; omega
    · exact H.inj b c id hb hc

theorem HInv.free {α : Type} [DecidableEq α] {h : Heap} {ptr : α → Option ℕ} (H : HInv h ptr)
    (a : α) : ∃ h', h.free (ptr a) = .ok h' ∧ h'.next = h.next ∧
      (∀ id, ptr a ≠ some id → h'.live id = h.live id) ∧
      HInv h' (Function.update ptr a none) := by
  cases hp : ptr a with
  | none =>
    refine ⟨h, rfl, rfl, fun _ _ => rfl, H.weaken fun b => ?_⟩
    simp only [Function.update_apply]
    split <;> simp
  | some id =>
    have hl := H.live a id hp
    refine ⟨{ h with live := Function.update h.live id false }, by simp [Heap.free, hl], rfl, ?_, ?_⟩
    · intro id' hne
      simp only [Function.update_apply]
      rw [if_neg]
      rintro rfl
      exact hne rfl
    · refine ⟨fun i hi => ?_, fun b i hb => ?_, fun b c i hb hc => ?_⟩
      · simp only [Function.update_apply] at hi
        split at hi
        · cases hi
        · exact H.bound i hi
      · simp only [Function.update_apply] at hb ⊢
        split at hb
        · cases hb
        · rename_i hne
          have hl' := H.live b i hb
          rw [if_neg]
          · exact hl'
          · rintro rfl
            exact hne (H.inj b a i hb hp)
      · simp only [Function.update_apply] at hb hc
        split at hb <;> split at hc
        · cases hb
        · cases hb
        · cases hc
        · exact H.inj b c i hb hc

/-- Names of the owning pointers of a program state: the user's, and for each generator its
disjunction and set (when the generator owns them) and its point-ray LP. -/
inductive Handle
  | user (k : ℕ)
  | disj (i : ℕ)
  | dset (i : ℕ)
  | prlp (i : ℕ)
deriving DecidableEq

/-- The owning pointers of generator `g` in slot `i`; the others are given by `f`. -/
def gptr (w : ℕ → Option ℕ) (gen : ℕ → Option Vpc) : Handle → Option ℕ
  | .user k => w k
  | .disj i => (gen i).bind fun g => if g.owns then g.disj else none
  | .dset i => (gen i).bind fun g => if g.owns then g.dset else none
  | .prlp i => (gen i).bind fun g => g.prlp

/-- The invariant: owners are live and unique. -/
def World.Inv (w : World) : Prop := HInv w.heap (gptr w.user w.gen)

/-- The discipline under which the code is safe. Copying and assigning: only *from* generators that
own nothing and have no point-ray LP. Setting an owned disjunction (set): from a live object that is
not the one about to be deleted, and not while holding a borrowed set (disjunction). -/
def Allowed (w : World) : GOp → Prop
  | .userNew k => w.user k = none
  | .userFree _ => True
  | .create i => w.gen i = none
  | .copy i j => w.gen i = none ∧ ∃ s, w.gen j = some s ∧ s.owns = false ∧ s.prlp = none
  | .assign i j => (∃ g, w.gen i = some g) ∧
      ∃ s, w.gen j = some s ∧ (i = j ∨ (s.owns = false ∧ s.prlp = none))
  | .setDisj i p own => ∃ g, w.gen i = some g ∧ (ownFlag g own = true →
      (∃ id, p = some id ∧ w.heap.live id = true ∧ ¬(g.owns = true ∧ g.disj = some id)) ∧
      (g.owns = true ∨ g.dset = none))
  | .setSet i p own => ∃ g, w.gen i = some g ∧ (ownFlag g own = true →
      (∃ id, p = some id ∧ w.heap.live id = true ∧ ¬(g.owns = true ∧ g.dset = some id)) ∧
      (g.owns = true ∨ g.disj = none))
  | .generate i _ _ => ∃ g, w.gen i = some g
  | .destroy i => ∃ g, w.gen i = some g

/-- Every operation of the program is allowed when it is executed. -/
def AllowedRun (w : World) : List GOp → Prop
  | [] => True
  | op :: ops => Allowed w op ∧ ∀ w', w.step op = .ok w' → AllowedRun w' ops

theorem free_disj {w : World} (H : w.Inv) (i : ℕ) (g : Vpc) (hg : w.gen i = some g) :
    ∃ h', (if g.owns then w.heap.free g.disj else .ok w.heap) = .ok h' ∧
      h'.next = w.heap.next ∧
      (∀ id, ¬(g.owns = true ∧ g.disj = some id) → h'.live id = w.heap.live id) ∧
      HInv h' (Function.update (gptr w.user w.gen) (.disj i) none) := by
  have e : gptr w.user w.gen (.disj i) = if g.owns then g.disj else none := by simp [gptr, hg]
  obtain ⟨h', h1, h2, h3, h4⟩ := HInv.free H (.disj i)
  rw [e] at h1 h3
  cases ho : g.owns with
  | true =>
    simp only [ho, if_true] at h1 h3 ⊢
    exact ⟨h', h1, h2, fun id hne => h3 id (by simpa using hne), h4⟩
  | false =>
    simp only [ho, Bool.false_eq_true, if_false] at h1 h3 ⊢
    simp only [Heap.free, Res.ok.injEq] at h1
    subst h1
    exact ⟨_, rfl, h2, fun id _ => rfl, h4⟩

theorem free_dset {w : World} (H : w.Inv) (i : ℕ) (g : Vpc) (hg : w.gen i = some g) :
    ∃ h', (if g.owns then w.heap.free g.dset else .ok w.heap) = .ok h' ∧
      h'.next = w.heap.next ∧
      (∀ id, ¬(g.owns = true ∧ g.dset = some id) → h'.live id = w.heap.live id) ∧
      HInv h' (Function.update (gptr w.user w.gen) (.dset i) none) := by
  have e : gptr w.user w.gen (.dset i) = if g.owns then g.dset else none := by simp [gptr, hg]
  obtain ⟨h', h1, h2, h3, h4⟩ := HInv.free H (.dset i)
  rw [e] at h1 h3
  cases ho : g.owns with
  | true =>
    simp only [ho, if_true] at h1 h3 ⊢
    exact ⟨h', h1, h2, fun id hne => h3 id (by simpa using hne), h4⟩
  | false =>
    simp only [ho, Bool.false_eq_true, if_false] at h1 h3 ⊢
    simp only [Heap.free, Res.ok.injEq] at h1
    subst h1
    exact ⟨_, rfl, h2, fun id _ => rfl, h4⟩

/-- Replacing generator `i`: all other owning pointers are unchanged. -/
theorem gptr_other (u : ℕ → Option ℕ) (gen : ℕ → Option Vpc) (i : ℕ) (o : Option Vpc) (a : Handle)
    (h1 : a ≠ .disj i) (h2 : a ≠ .dset i) (h3 : a ≠ .prlp i) :
    gptr u (Function.update gen i o) a = gptr u gen a := by
  cases a with
  | user k => rfl
  | disj j => have : j ≠ i := fun h => h1 (by rw [h]); simp [gptr, Function.update_apply, this]
  | dset j => have : j ≠ i := fun h => h2 (by rw [h]); simp [gptr, Function.update_apply, this]
  | prlp j => have : j ≠ i := fun h => h3 (by rw [h]); simp [gptr, Function.update_apply, this]

theorem setDisj_step {w : World} (H : w.Inv) (i : ℕ) (g : Vpc) (hg : w.gen i = some g)
    (p : Option ℕ) (own : ℤ)
    (ha : ownFlag g own = true →
      (∃ id, p = some id ∧ w.heap.live id = true ∧ ¬(g.owns = true ∧ g.disj = some id)) ∧
      (g.owns = true ∨ g.dset = none)) :
    ∃ w', w.put i (g.setDisjunction w.heap p own) = .ok w' ∧ w'.Inv := by
  obtain ⟨h', e1, e2, e3, e4⟩ := free_disj H i g hg
  unfold Vpc.setDisjunction
  rw [e1]
  simp only [Res.bind]
  cases ho : ownFlag g own with
  | true =>
    obtain ⟨⟨id, rfl, hl, hne⟩, hd⟩ := ha ho
    have hl' : h'.live id = true := by rw [e3 id hne, hl]
    simp only [if_true, Heap.clone, hl', World.put, Res.bind]
    refine ⟨_, rfl, ?_⟩
    refine HInv.weaken (HInv.alloc e4 (.disj i)) fun a => ?_
    by_cases h1 : a = .disj i
    · right; subst h1; simp [gptr]
    by_cases h2 : a = .dset i
    · subst h2
      rcases hd with hd | hd
      · right; simp [gptr, hg, hd]
      · left; simp [gptr, hd]
    by_cases h3 : a = .prlp i
    · right; subst h3; simp [gptr, hg]
    right
    rw [gptr_other _ _ _ _ _ h1 h2 h3]
    simp [Function.update_apply, h1]
  | false =>
    simp only [Bool.false_eq_true, if_false, World.put, Res.bind]
    refine ⟨_, rfl, HInv.weaken e4 fun a => ?_⟩
    by_cases h1 : a = .disj i
    · left; subst h1; simp [gptr]
    by_cases h2 : a = .dset i
    · left; subst h2; simp [gptr]
    by_cases h3 : a = .prlp i
    · right; subst h3; simp [gptr, hg]
    right
    rw [gptr_other _ _ _ _ _ h1 h2 h3]
    simp [Function.update_apply, h1]

theorem setSet_step {w : World} (H : w.Inv) (i : ℕ) (g : Vpc) (hg : w.gen i = some g)
    (p : Option ℕ) (own : ℤ)
    (ha : ownFlag g own = true →
      (∃ id, p = some id ∧ w.heap.live id = true ∧ ¬(g.owns = true ∧ g.dset = some id)) ∧
      (g.owns = true ∨ g.disj = none)) :
    ∃ w', w.put i (g.setDisjunctionSet w.heap p own) = .ok w' ∧ w'.Inv := by
  obtain ⟨h', e1, e2, e3, e4⟩ := free_dset H i g hg
  unfold Vpc.setDisjunctionSet
  rw [e1]
  simp only [Res.bind]
  cases ho : ownFlag g own with
  | true =>
    obtain ⟨⟨id, rfl, hl, hne⟩, hd⟩ := ha ho
    have hl' : h'.live id = true := by rw [e3 id hne, hl]
    simp only [if_true, Heap.clone, hl', World.put, Res.bind]
    refine ⟨_, rfl, ?_⟩
    refine HInv.weaken (HInv.alloc e4 (.dset i)) fun a => ?_
    by_cases h1 : a = .dset i
    · right; subst h1; simp [gptr]
    by_cases h2 : a = .disj i
    · subst h2
      rcases hd with hd | hd
      · right; simp [gptr, hg, hd]
      · left; simp [gptr, hd]
    by_cases h3 : a = .prlp i
    · right; subst h3; simp [gptr, hg]
    right
    rw [gptr_other _ _ _ _ _ h2 h1 h3]
    simp [Function.update_apply, h1]
  | false =>
    simp only [Bool.false_eq_true, if_false, World.put, Res.bind]
    refine ⟨_, rfl, HInv.weaken e4 fun a => ?_⟩
    by_cases h1 : a = .dset i
    · left; subst h1; simp [gptr]
    by_cases h2 : a = .disj i
    · left; subst h2; simp [gptr]
    by_cases h3 : a = .prlp i
    · right; subst h3; simp [gptr, hg]
    right
    rw [gptr_other _ _ _ _ _ h2 h1 h3]
    simp [Function.update_apply, h1]

/-- Copying from a source that owns nothing and has no point-ray LP. -/
theorem copyFrom_step {w : World} (H : w.Inv) (i : ℕ) (g s : Vpc) (hg : w.gen i = some g)
    (hs : s.owns = false) (hp : s.prlp = none) :
    ∃ w', w.put i (g.copyFrom w.heap s) = .ok w' ∧ w'.Inv := by
  obtain ⟨h', e1, e2, e3, e4⟩ := free_disj H i g hg
  have f0 : ∀ g : Vpc, ownFlag g 0 = false := fun g => by simp [ownFlag]
  have hcopy : g.copyFrom w.heap s = .ok (h', ⟨s.disj, s.dset, none, false⟩) := by
    unfold Vpc.copyFrom Vpc.setDisjunction Vpc.setDisjunctionSet
    rw [e1]
    simp [Res.bind, hs, hp, f0]
  rw [hcopy]
  refine ⟨_, rfl, HInv.weaken e4 fun a => ?_⟩
  by_cases h1 : a = .disj i
  · left; subst h1; simp [gptr]
  by_cases h2 : a = .dset i
  · left; subst h2; simp [gptr]
  by_cases h3 : a = .prlp i
  · left; subst h3; simp [gptr]
  right
  simp only
  rw [gptr_other _ _ _ _ _ h1 h2 h3]
  simp [Function.update_apply, h1]

theorem newPrlps_inv (u : ℕ → Option ℕ) (gen : ℕ → Option Vpc) (i : ℕ) (n : ℕ) (h : Heap) (g : Vpc)
    (H : HInv h (gptr u (Function.update gen i (some g)))) :
    HInv (Vpc.newPrlps n h g).1
      (gptr u (Function.update gen i (some (Vpc.newPrlps n h g).2))) := by
  induction n generalizing h g with
  | zero => exact H
  | succ n ih =>
    refine ih _ _ (HInv.weaken (HInv.alloc H (.prlp i)) fun a => Or.inr ?_)
    by_cases h3 : a = .prlp i
    · subst h3; simp [gptr]
    by_cases h1 : a = .disj i
    · subst h1; simp [gptr]
    by_cases h2 : a = .dset i
    · subst h2; simp [gptr]
    rw [gptr_other _ _ _ _ _ h1 h2 h3]
    simp only [Function.update_apply, h3, if_false]
    rw [gptr_other _ _ _ _ _ h1 h2 h3]

theorem step_safe {w : World} (H : w.Inv) (op : GOp) (ha : Allowed w op) :
    w.step op = .exit ∨ ∃ w', w.step op = .ok w' ∧ w'.Inv := by
  cases op with
  | userNew k =>
    right
    refine ⟨_, rfl, HInv.weaken (HInv.alloc H (.user k)) fun a => Or.inr ?_⟩
    cases a with
    | user j => by_cases hj : j = k <;> simp [gptr, Function.update_apply, hj]
    | disj j => simp [gptr, Function.update_apply]
    | dset j => simp [gptr, Function.update_apply]
    | prlp j => simp [gptr, Function.update_apply]
  | userFree k =>
    right
    obtain ⟨h', e1, _, _, e4⟩ := HInv.free H (.user k)
    simp only [World.step]
    rw [show w.user k = gptr w.user w.gen (.user k) from rfl, e1]
    refine ⟨_, rfl, HInv.weaken e4 fun a => Or.inr ?_⟩
    cases a with
    | user j => by_cases hj : j = k <;> simp [gptr, Function.update_apply, hj]
    | disj j => simp [gptr, Function.update_apply]
    | dset j => simp [gptr, Function.update_apply]
    | prlp j => simp [gptr, Function.update_apply]
  | create i =>
    right
    refine ⟨_, rfl, HInv.weaken H fun a => ?_⟩
    by_cases h1 : a = .disj i
    · left; subst h1; simp [gptr, Vpc.fresh]
    by_cases h2 : a = .dset i
    · left; subst h2; simp [gptr, Vpc.fresh]
    by_cases h3 : a = .prlp i
    · left; subst h3; simp [gptr, Vpc.fresh]
    right; exact gptr_other _ _ _ _ _ h1 h2 h3
  | copy i j =>
    right
    obtain ⟨hi, s, hs, h1, h2⟩ := ha
    simp only [World.step, hs]
    have hw : (⟨w.heap, w.user, Function.update w.gen i (some Vpc.fresh)⟩ : World).Inv := by
      refine HInv.weaken H fun a => ?_
      by_cases h1 : a = .disj i
      · left; subst h1; simp [gptr, Vpc.fresh]
      by_cases h2 : a = .dset i
      · left; subst h2; simp [gptr, Vpc.fresh]
      by_cases h3 : a = .prlp i
      · left; subst h3; simp [gptr, Vpc.fresh]
      right; exact gptr_other _ _ _ _ _ h1 h2 h3
    obtain ⟨w', e, hv⟩ := copyFrom_step hw i Vpc.fresh s (by simp) h1 h2
    refine ⟨w', ?_, hv⟩
    rw [← e]
    simp [World.put]
  | assign i j =>
    right
    obtain ⟨⟨g, hg⟩, s, hs, h⟩ := ha
    simp only [World.step, hg, hs]
    by_cases hij : i = j
    · rw [if_pos hij]; exact ⟨w, rfl, H⟩
    · rw [if_neg hij]
      rcases h with h | ⟨h1, h2⟩
      · exact absurd h hij
      · exact copyFrom_step H i g s hg h1 h2
  | setDisj i p own =>
    right
    obtain ⟨g, hg, h⟩ := ha
    simp only [World.step, hg]
    exact setDisj_step H i g hg p own h
  | setSet i p own =>
    right
    obtain ⟨g, hg, h⟩ := ha
    simp only [World.step, hg]
    exact setSet_step H i g hg p own h
  | generate i set n =>
    obtain ⟨g, hg⟩ := ha
    simp only [World.step, hg, Vpc.generate]
    by_cases hn : (g.disj.isNone && g.dset.isNone) = true
    · right
      rw [if_pos hn]
      simp only [Bool.and_eq_true, Option.isNone_iff_eq_none] at hn
      refine ⟨_, rfl, ?_⟩
      refine newPrlps_inv _ _ _ _ _ _ ?_
      cases set with
      | true =>
        refine HInv.weaken (HInv.alloc H (.dset i)) fun a => ?_
        by_cases h2 : a = .dset i
        · right; subst h2; simp [gptr]
        by_cases h1 : a = .disj i
        · left; subst h1; simp [gptr, hn.1]
        by_cases h3 : a = .prlp i
        · right; subst h3; simp [gptr, hg]
        right
        rw [gptr_other _ _ _ _ _ h1 h2 h3]
        simp [Function.update_apply, h2]
      | false =>
        refine HInv.weaken (HInv.alloc H (.disj i)) fun a => ?_
        by_cases h1 : a = .disj i
        · right; subst h1; simp [gptr]
        by_cases h2 : a = .dset i
        · left; subst h2; simp [gptr, hn.2]
        by_cases h3 : a = .prlp i
        · right; subst h3; simp [gptr, hg]
        right
        rw [gptr_other _ _ _ _ _ h1 h2 h3]
        simp [Function.update_apply, h1]
    · left; rw [if_neg hn]; rfl
  | destroy i =>
    right
    obtain ⟨g, hg⟩ := ha
    simp only [World.step, hg, Vpc.destroy]
    obtain ⟨h1, a1, _, _, a4⟩ := free_disj H i g hg
    rw [a1]
    simp only [Res.bind]
    -- free the set
    have b : ∃ h2, (if g.owns then h1.free g.dset else .ok h1) = .ok h2 ∧
        HInv h2 (Function.update (Function.update (gptr w.user w.gen) (.disj i) none) (.dset i) none) := by
      obtain ⟨h2, b1, _, _, b4⟩ := HInv.free a4 (.dset i)
      have e : Function.update (gptr w.user w.gen) (.disj i) none (.dset i)
          = if g.owns then g.dset else none := by simp [gptr, hg]
      rw [e] at b1
      cases ho : g.owns with
      | true => simp only [ho, if_true] at b1 ⊢; exact ⟨h2, b1, b4⟩
      | false =>
        simp only [ho, Bool.false_eq_true, if_false] at b1 ⊢
        simp only [Heap.free, Res.ok.injEq] at b1
        subst b1
        exact ⟨_, rfl, b4⟩
    obtain ⟨h2, b1, b4⟩ := b
    rw [b1]
    simp only
    obtain ⟨h3, c1, _, _, c4⟩ := HInv.free b4 (.prlp i)
    have e : Function.update (Function.update (gptr w.user w.gen) (.disj i) none) (.dset i) none (.prlp i)
        = g.prlp := by simp [gptr, hg]
    rw [e] at c1
    rw [c1]
    refine ⟨_, rfl, HInv.weaken c4 fun a => ?_⟩
    by_cases h1 : a = .disj i
    · left; subst h1; simp [gptr]
    by_cases h2 : a = .dset i
    · left; subst h2; simp [gptr]
    by_cases h3 : a = .prlp i
    · left; subst h3; simp [gptr]
    right
    simp only
    rw [gptr_other _ _ _ _ _ h1 h2 h3]
    simp [Function.update_apply, h1, h2, h3]

/-- **C27 (partial), generators.** No program that keeps to the discipline `Allowed` ever deletes an
object twice, uses a deleted object or calls through a null pointer, and at every point every owning
pointer is live and unique. Missing: copies of and assignments from generators that own a
disjunction or hold a point-ray LP, re-setting a generator's own disjunction, mixing borrowed and
owned (the theorems below show that each of these is indeed undefined). -/
theorem generators_safe_partial (ops : List GOp) (w : World) (H : w.Inv) (h : AllowedRun w ops) :
    w.run ops ≠ .undef ∧ ∀ w', w.run ops = .ok w' → w'.Inv := by
  induction ops generalizing w with
  | nil => exact ⟨by simp [World.run], fun w' e => by cases e; exact H⟩
  | cons op ops ih =>
    rcases step_safe H op h.1 with e | ⟨w', e, hv⟩
    · simp [World.run, e, Res.bind]
    · simp only [World.run, e, Res.bind]
      exact ih w' hv (h.2 w' e)

theorem init_inv : World.init.Inv := by
  refine ⟨fun id h => by simp [World.init] at h, fun a id h => ?_, fun a b id h => ?_⟩ <;>
    cases a <;> simp [gptr, World.init] at h

/-! ### What the discipline excludes is undefined -/

/-- **C27 fails**: copying a generator that owns only a disjunction or only a set (every generator
that has generated cuts) calls `clone` through a null pointer. -/
theorem copy_owner_undefined (h : Heap) (s : Vpc) (ho : s.owns = true)
    (hn : s.disj = none ∨ s.dset = none) : Vpc.fresh.copyFrom h s = .undef := by
  have f1 : ∀ g : Vpc, ownFlag g 1 = true := fun g => by simp [ownFlag]
  unfold Vpc.copyFrom
  simp only [ho, if_true]
  cases hd : s.disj with
  | none => simp [Vpc.setDisjunction, Vpc.fresh, f1, Res.bind, Heap.clone]
  | some id =>
    have hn : s.dset = none := by
      rcases hn with hn | hn
      · rw [hd] at hn; cases hn
      · exact hn
    by_cases hl : h.live id = true
    · simp [Vpc.setDisjunction, Vpc.setDisjunctionSet, Vpc.fresh, f1, Res.bind, Heap.clone, hl, hn,
        Heap.free]
    · simp [Vpc.setDisjunction, Vpc.fresh, f1, Res.bind, Heap.clone, hl]

theorem newPrlps_fields (n : ℕ) (h : Heap) (g : Vpc) :
    (Vpc.newPrlps n h g).2.disj = g.disj ∧ (Vpc.newPrlps n h g).2.dset = g.dset ∧
    (Vpc.newPrlps n h g).2.owns = g.owns := by
  induction n generalizing h g with
  | zero => exact ⟨rfl, rfl, rfl⟩
  | succ n ih => exact ih _ _

/-- In particular the copy of a generator that has generated cuts is undefined, whatever the mode
and the number of point-ray LPs. -/
theorem copy_after_generate_undefined (set : Bool) (n : ℕ) :
    World.init.run [.create 0, .generate 0 set n, .copy 1 0] = .undef := by
  simp only [World.run, World.step, Res.bind, Function.update_self, Vpc.generate, Vpc.fresh,
    Option.isNone_none, Bool.and_self, if_true, World.put]
  cases set with
  | true =>
    obtain ⟨f1, f2, f3⟩ := newPrlps_fields n World.init.heap.alloc
      ⟨none, some World.init.heap.next, none, true⟩
    have := copy_owner_undefined (Vpc.newPrlps n World.init.heap.alloc
      ⟨none, some World.init.heap.next, none, true⟩).1 _ f3 (Or.inl f1)
    simp only [Vpc.fresh] at this
    simp [this]
  | false =>
    obtain ⟨f1, f2, f3⟩ := newPrlps_fields n World.init.heap.alloc
      ⟨some World.init.heap.next, none, none, true⟩
    have := copy_owner_undefined (Vpc.newPrlps n World.init.heap.alloc
      ⟨some World.init.heap.next, none, none, true⟩).1 _ f3 (Or.inr f2)
    simp only [Vpc.fresh] at this
    simp [this]

/-- **C27 fails**: two generators that share a point-ray LP delete it twice. -/
theorem shared_prlp_double_free :
    World.init.run [.create 0, .generate 0 false 1, .setDisj 0 none 0, .copy 1 0, .destroy 0,
      .destroy 1] = .undef := by
  simp [World.run, World.step, World.put, World.init, Vpc.fresh, Vpc.generate, Vpc.newPrlps,
    Vpc.setDisjunction, Vpc.setDisjunctionSet, Vpc.copyFrom, Vpc.destroy, Res.bind, Heap.free,
    Heap.clone, Heap.alloc, ownFlag, Function.update_apply]

/-- **C27 fails**: handing a generator the disjunction it already owns uses it after deleting it. -/
theorem reset_own_disjunction_undefined (h : Heap) (g : Vpc) (id : ℕ) (ho : g.owns = true)
    (hd : g.disj = some id) (own : ℤ) (hf : ownFlag g own = true) :
    g.setDisjunction h (some id) own = .undef := by
  unfold Vpc.setDisjunction
  by_cases hl : h.live id = true
  · simp [ho, hd, Heap.free, hl, Res.bind, hf, Heap.clone]
  · simp [ho, hd, Heap.free, hl, Res.bind]

/-- **C27 fails**: one flag for two pointers. A borrowed set is deleted by the generator once an
owned disjunction is set, and again by its owner. -/
theorem borrowed_set_double_free :
    World.init.run [.userNew 0, .userNew 1, .create 0, .setSet 0 (some 0) 0, .setDisj 0 (some 1) 1,
      .destroy 0, .userFree 0] = .undef := by
  simp [World.run, World.step, World.put, World.init, Vpc.fresh,
    Vpc.setDisjunction, Vpc.setDisjunctionSet, Vpc.destroy, Res.bind, Heap.free,
    Heap.clone, Heap.alloc, ownFlag, Function.update_apply]

/-- A generator cannot be used twice: once it has a disjunction (its own from the first call, or a
given one), generating terminates the process. -/
theorem second_generate_exits (h : Heap) (g : Vpc) (set : Bool) (n : ℕ)
    (hg : g.disj ≠ none ∨ g.dset ≠ none) : g.generate h set n = .exit := by
  unfold Vpc.generate
  rw [if_neg]
  simp only [Bool.and_eq_true, Option.isNone_iff_eq_none]
  tauto

/-- Memory is lost: with two disjunctions the first point-ray LP is never deleted. -/
theorem prlp_leak :
    ∃ w, World.init.run [.create 0, .generate 0 true 2, .destroy 0] = .ok w ∧
      w.heap.live 1 = true ∧ ∀ a, gptr w.user w.gen a = none := by
  refine ⟨_, rfl, ?_, ?_⟩
  · simp [World.step, World.put, World.init, Vpc.fresh, Vpc.generate, Vpc.newPrlps, Vpc.destroy,
      Res.bind, Heap.free, Heap.alloc, Function.update_apply]
  · intro a
    cases a <;> simp [gptr, World.init, Function.update_apply] <;>
      exact fun h1 h2 => absurd h2 h1

/-- Non-vacuity: a program with a user disjunction, owned clones, assignment from a borrowing
generator, generation and destruction keeps to the discipline. -/
def exProg : List GOp :=
  [.userNew 0, .create 0, .setDisj 0 (some 0) 1, .create 1, .setDisj 1 (some 0) 0, .assign 0 1,
   .create 2, .generate 2 true 2, .destroy 2, .destroy 0, .destroy 1, .userFree 0]

example : AllowedRun World.init exProg := by
  simp [exProg, AllowedRun, Allowed, World.step, World.put, World.init, Vpc.fresh, Vpc.generate,
    Vpc.newPrlps, Vpc.setDisjunction, Vpc.setDisjunctionSet, Vpc.copyFrom, Vpc.destroy, Res.bind,
    Heap.free, Heap.clone, Heap.alloc, ownFlag, Function.update_apply]

/-! ## VPCSolverInterface -/

/-- Fields of an interface object. -/
inductive VFld
  | solver | cuts | disj | params
deriving DecidableEq

/-- Read a field. -/
def Vsi.get (v : Vsi) : VFld → Option ℕ
  | .solver => v.solver
  | .cuts => v.cuts
  | .disj => v.disj
  | .params => v.params

/-- Names of the owning pointers of a program state: the user's and every field of every object. -/
inductive VHandle
  | user (k : ℕ)
  | fld (i : ℕ) (f : VFld)
deriving DecidableEq

/-- The owning pointers. -/
def vptr (u : ℕ → Option ℕ) (obj : ℕ → Option Vsi) : VHandle → Option ℕ
  | .user k => u k
  | .fld i f => (obj i).bind fun v => v.get f

/-- The invariant: owners are live and unique. -/
def VWorld.Inv (w : VWorld) : Prop := HInv w.heap (vptr w.user w.obj)

/-- A pointer that may be cloned into field `f` of `v`: live, and not the object that field
currently holds. -/
def CloneOk (h : Heap) (v : Vsi) (f : VFld) (p : Option ℕ) : Prop :=
  ∃ id, p = some id ∧ h.live id = true ∧ v.get f ≠ some id

/-- The discipline: never copy-construct, never call `setDisjunction`, assign only from objects
that have all four fields set (in particular a disjunction). -/
def VAllowed (w : VWorld) : VOp → Prop
  | .userNew k => w.user k = none
  | .userFree _ => True
  | .create i => w.obj i = none
  | .copy _ _ => False
  | .assign i j => (∃ v, w.obj i = some v) ∧
      ∃ s, w.obj j = some s ∧ (i = j ∨ ∀ f, s.get f ≠ none)
  | .setDisj _ _ => False
  | .setParams i p => ∃ v, w.obj i = some v ∧ CloneOk w.heap v .params p
  | .load i p => ∃ v, w.obj i = some v ∧ CloneOk w.heap v .solver p
  | .take i d => ∃ v, w.obj i = some v ∧ (d = none ∨ CloneOk w.heap v .disj d)
  | .destroy i => ∃ v, w.obj i = some v

/-- Every operation of the program is allowed when it is executed. -/
def VAllowedRun (w : VWorld) : List VOp → Prop
  | [] => True
  | op :: ops => VAllowed w op ∧ ∀ w', w.step op = .ok w' → VAllowedRun w' ops

theorem HInv.congr {α : Type} {h : Heap} {ptr ptr' : α → Option ℕ} (H : HInv h ptr)
    (hp : ∀ a, ptr' a = ptr a) : HInv h ptr' := H.weaken fun a => Or.inr (hp a)

theorem clone_into {w : VWorld} (H : w.Inv) (i : ℕ) (v : Vsi) (hv : w.obj i = some v) (f : VFld)
    (p : Option ℕ) (hp : CloneOk w.heap v f p) :
    ∃ h1 h2, w.heap.free (v.get f) = .ok h1 ∧ h1.clone p = .ok h2 ∧
      HInv h2 (Function.update (vptr w.user w.obj) (.fld i f) (some h1.next)) := by
  obtain ⟨id, rfl, hl, hne⟩ := hp
  obtain ⟨h1, e1, _, e3, e4⟩ := HInv.free H (.fld i f)
  have e : vptr w.user w.obj (.fld i f) = v.get f := by simp [vptr, hv]
  rw [e] at e1 e3
  have hl1 : h1.live id = true := by rw [e3 id hne, hl]
  refine ⟨h1, h1.alloc, e1, by simp [Heap.clone, hl1], ?_⟩
  refine (HInv.alloc e4 (.fld i f)).congr fun a => ?_
  by_cases ha : a = .fld i f <;> simp [Function.update_apply, ha]

theorem vptr_set (u : ℕ → Option ℕ) (obj : ℕ → Option Vsi) (i : ℕ) (v v' : Vsi)
    (hv : obj i = some v) (f : VFld) (x : Option ℕ) (h1 : v'.get f = x)
    (h2 : ∀ g, g ≠ f → v'.get g = v.get g) (a : VHandle) :
    vptr u (Function.update obj i (some v')) a
      = Function.update (vptr u obj) (.fld i f) x a := by
  cases a with
  | user k => simp [vptr]
  | fld j g =>
    by_cases hj : j = i
    · subst hj
      by_cases hg : g = f
      · subst hg; simp [vptr, h1]
      · simp [vptr, hg, h2 g hg, hv]
    · simp [vptr, hj]

theorem vfree_inv {w : VWorld} (H : w.Inv) (i : ℕ) (v : Vsi) (hv : w.obj i = some v) :
    ∃ h', v.free w.heap = .ok h' ∧ HInv h' (vptr w.user (Function.update w.obj i none)) := by
  obtain ⟨h1, a1, -, -, a4⟩ := HInv.free H (.fld i .solver)
  obtain ⟨h2, b1, -, -, b4⟩ := HInv.free a4 (.fld i .cuts)
  obtain ⟨h3, c1, -, -, c4⟩ := HInv.free b4 (.fld i .disj)
  obtain ⟨h4, d1, -, -, d4⟩ := HInv.free c4 (.fld i .params)
  simp only [vptr, hv, Option.bind_some, Vsi.get, Function.update_apply, VHandle.fld.injEq,
    reduceCtorEq, and_false, if_false] at a1 b1 c1 d1
  refine ⟨h4, by simp [Vsi.free, a1, b1, c1, d1, Res.bind], d4.congr fun a => ?_⟩
  cases a with
  | user k => simp [vptr]
  | fld j g =>
    by_cases hj : j = i
    · subst hj; cases g <;> simp [vptr]
    · simp [vptr, hj]

theorem vassign_step {w : VWorld} (H : w.Inv) (i j : ℕ) (hij : i ≠ j) (v s : Vsi)
    (hv : w.obj i = some v) (hs : w.obj j = some s) (hn : ∀ f, s.get f ≠ none) :
    ∃ w', w.put i (v.assign w.heap s) = .ok w' ∧ w'.Inv := by
  obtain ⟨h0, e0, H0⟩ := vfree_inv H i v hv
  have src : ∀ f, ∃ id, s.get f = some id := fun f => Option.ne_none_iff_exists'.mp (hn f)
  obtain ⟨i1, s1⟩ := src .solver
  obtain ⟨i2, s2⟩ := src .cuts
  obtain ⟨i3, s3⟩ := src .disj
  obtain ⟨i4, s4⟩ := src .params
  have hsj : ∀ f, vptr w.user (Function.update w.obj i none) (.fld j f) = s.get f := by
    intro f; simp [vptr, Ne.symm hij, hs]
  have hne : ∀ f g, (VHandle.fld j f) ≠ .fld i g := fun f g h => hij (by cases h; rfl)
  have l1 : h0.live i1 = true := H0.live _ _ ((hsj .solver).trans s1)
  have H1 := HInv.alloc H0 (.fld i .solver)
  have l2 : h0.alloc.live i2 = true := by
    apply H1.live (.fld j .cuts)
    rw [Function.update_of_ne (hne _ _)]; exact (hsj .cuts).trans s2
  have H2 := HInv.alloc H1 (.fld i .cuts)
  have l3 : h0.alloc.alloc.live i3 = true := by
    apply H2.live (.fld j .disj)
    rw [Function.update_of_ne (hne _ _), Function.update_of_ne (hne _ _)]
    exact (hsj .disj).trans s3
  have H3 := HInv.alloc H2 (.fld i .disj)
  have l4 : h0.alloc.alloc.alloc.live i4 = true := by
    apply H3.live (.fld j .params)
    rw [Function.update_of_ne (hne _ _), Function.update_of_ne (hne _ _),
      Function.update_of_ne (hne _ _)]
    exact (hsj .params).trans s4
  have H4 := HInv.alloc H3 (.fld i .params)
  simp only [Vsi.get] at s1 s2 s3 s4
  refine ⟨⟨_, _, _⟩, by
    simp only [Vsi.assign, e0, Res.bind, s1, Heap.clone, l1, if_true, s2, l2, s3, l3, s4, l4,
      VWorld.put]; rfl, H4.congr fun a => ?_⟩
  cases a with
  | user k => simp [vptr]
  | fld j g =>
    by_cases hj : j = i
    · subst hj; cases g <;> simp [vptr, Vsi.get]
    · simp [vptr, hj]

theorem vstep_safe {w : VWorld} (H : w.Inv) (op : VOp) (ha : VAllowed w op) :
    ∃ w', w.step op = .ok w' ∧ w'.Inv := by
  cases op with
  | userNew k =>
    refine ⟨_, rfl, (HInv.alloc H (.user k)).congr fun a => ?_⟩
    cases a with
    | user j => by_cases hj : j = k <;> simp [vptr, Function.update_apply, hj]
    | fld j g => simp [vptr]
  | userFree k =>
    obtain ⟨h', e1, _, _, e4⟩ := HInv.free H (.user k)
    simp only [VWorld.step]
    rw [show w.user k = vptr w.user w.obj (.user k) from rfl, e1]
    refine ⟨_, rfl, e4.congr fun a => ?_⟩
    cases a with
    | user j => by_cases hj : j = k <;> simp [vptr, Function.update_apply, hj]
    | fld j g => simp [vptr]
  | create i =>
    refine ⟨_, rfl, ?_⟩
    refine (HInv.alloc (HInv.alloc (HInv.alloc H (.fld i .solver)) (.fld i .cuts))
      (.fld i .params)).congr fun a => ?_
    cases a with
    | user k => simp [vptr]
    | fld j g =>
      by_cases hj : j = i
      · subst hj
        have : w.obj j = none := ha
        cases g <;> simp [vptr, Vsi.create, Vsi.get, Heap.alloc, this]
      · simp [vptr, hj]
  | copy i j => exact absurd ha (by simp [VAllowed])
  | setDisj i p => exact absurd ha (by simp [VAllowed])
  | assign i j =>
    obtain ⟨⟨v, hv⟩, s, hs, h⟩ := ha
    simp only [VWorld.step, hv, hs]
    by_cases hij : i = j
    · rw [if_pos hij]; exact ⟨w, rfl, H⟩
    · rw [if_neg hij]
      rcases h with h | h
      · exact absurd h hij
      · exact vassign_step H i j hij v s hv hs h
  | setParams i p =>
    obtain ⟨v, hv, hp⟩ := ha
    obtain ⟨h1, h2, e1, e2, e3⟩ := clone_into H i v hv .params p hp
    simp only [Vsi.get] at e1
    refine ⟨_, by simp [VWorld.step, hv, Vsi.setParams, e1, e2, Res.bind, VWorld.put]; rfl, ?_⟩
    exact e3.congr (vptr_set _ _ _ v _ hv .params _ rfl (by intro g hg; cases g <;> simp_all [Vsi.get]))
  | load i p =>
    obtain ⟨v, hv, hp⟩ := ha
    obtain ⟨h1, h2, e1, e2, e3⟩ := clone_into H i v hv .solver p hp
    simp only [Vsi.get] at e1
    refine ⟨_, by simp [VWorld.step, hv, Vsi.load, e1, e2, Res.bind, VWorld.put]; rfl, ?_⟩
    exact e3.congr (vptr_set _ _ _ v _ hv .solver _ rfl (by intro g hg; cases g <;> simp_all [Vsi.get]))
  | take i d =>
    obtain ⟨v, hv, hp⟩ := ha
    cases d with
    | none =>
      refine ⟨_, by simp [VWorld.step, hv, Vsi.takeDisj, Res.bind, VWorld.put]; rfl, ?_⟩
      refine HInv.congr H fun a => ?_
      rw [← hv, Function.update_eq_self]
    | some id =>
      rcases hp with hp | hp
      · cases hp
      obtain ⟨h1, h2, e1, e2, e3⟩ := clone_into H i v hv .disj (some id) hp
      simp only [Vsi.get] at e1
      refine ⟨_, by simp [VWorld.step, hv, Vsi.takeDisj, e1, e2, Res.bind, VWorld.put]; rfl, ?_⟩
      exact e3.congr (vptr_set _ _ _ v _ hv .disj _ rfl (by intro g hg; cases g <;> simp_all [Vsi.get]))
  | destroy i =>
    obtain ⟨v, hv⟩ := ha
    obtain ⟨h', e, hi⟩ := vfree_inv H i v hv
    exact ⟨⟨h', w.user, Function.update w.obj i none⟩, by simp [VWorld.step, hv, e, Res.bind], hi⟩

/-- **C27 (partial), interface objects.** No program that keeps to the discipline `VAllowed` ever
deletes an object twice, uses a deleted object or calls through a null pointer, and at every point
every owning pointer is live and unique. Missing: copy construction, `setDisjunction`, assignment
from an object without disjunction (each is undefined, see below). -/
theorem interfaces_safe_partial (ops : List VOp) (w : VWorld) (H : w.Inv) (h : VAllowedRun w ops) :
    ∃ w', w.run ops = .ok w' ∧ w'.Inv := by
  induction ops generalizing w with
  | nil => exact ⟨w, rfl, H⟩
  | cons op ops ih =>
    obtain ⟨w', e, hv⟩ := vstep_safe H op h.1
    simp only [VWorld.run, e, Res.bind]
    exact ih w' hv (h.2 w' e)

theorem vinit_inv : VWorld.init.Inv := by
  refine ⟨fun id h => by simp [VWorld.init] at h, fun a id h => ?_, fun a b id h => ?_⟩ <;>
    cases a <;> simp [vptr, VWorld.init] at h

/-- **C27 fails**: copying or cloning an interface object is always undefined. -/
theorem vsi_copy_undefined (w : VWorld) (i j : ℕ) : w.step (.copy i j) = .undef := by
  simp only [VWorld.step]
  cases w.obj j <;> rfl

/-- **C27 fails**: handing an interface object a disjunction is always undefined. -/
theorem vsi_setDisjunction_undefined (w : VWorld) (i : ℕ) (p : Option ℕ) :
    w.step (.setDisj i p) = .undef := by
  simp only [VWorld.step]
  cases w.obj i with
  | none => rfl
  | some v =>
    cases p with
    | none => rfl
    | some id =>
      simp only [Vsi.setDisjunction, Heap.free, VWorld.put]
      by_cases hl : w.heap.live id = true <;> simp [hl, Res.bind, Heap.clone]

/-- **C27 fails**: assigning from an interface object that has no disjunction yet (for example one
that has not generated cuts) never succeeds; it calls `clone` through a null pointer. -/
theorem vsi_assign_null_disj_undefined (w : VWorld) (i j : ℕ) (hij : i ≠ j) (s : Vsi)
    (hs : w.obj j = some s) (hd : s.disj = none) : w.step (.assign i j) = .undef := by
  have hfree : ∀ (h : Heap) p, h.free p = .undef ∨ ∃ h', h.free p = .ok h' := by
    intro h p; cases p with
    | none => right; exact ⟨h, rfl⟩
    | some id => by_cases hl : h.live id = true <;> simp [Heap.free, hl]
  have hclone : ∀ (h : Heap) p, h.clone p = .undef ∨ ∃ h', h.clone p = .ok h' := by
    intro h p; cases p with
    | none => left; rfl
    | some id => by_cases hl : h.live id = true <;> simp [Heap.clone, hl]
  simp only [VWorld.step, hs]
  cases w.obj i with
  | none => rfl
  | some v =>
    simp only [if_neg hij, Vsi.assign, Vsi.free, hd, VWorld.put]
    rcases hfree w.heap v.solver with e | ⟨h1, e⟩
    · simp [e, Res.bind]
    rcases hfree h1 v.cuts with e2 | ⟨h2, e2⟩
    · simp [e, e2, Res.bind]
    rcases hfree h2 v.disj with e3 | ⟨h3, e3⟩
    · simp [e, e2, e3, Res.bind]
    rcases hfree h3 v.params with e4 | ⟨h4, e4⟩
    · simp [e, e2, e3, e4, Res.bind]
    rcases hclone h4 s.solver with e5 | ⟨h5, e5⟩
    · simp [e, e2, e3, e4, e5, Res.bind]
    rcases hclone h5 s.cuts with e6 | ⟨h6, e6⟩
    · simp [e, e2, e3, e4, e5, e6, Res.bind]
    have e7 : h6.clone none = .undef := rfl
    simp [e, e2, e3, e4, e5, e6, e7, Res.bind]

/-- Non-vacuity: create two objects, load, set parameters, generate, assign, destroy. -/
def exVProg : List VOp :=
  [.userNew 0, .create 0, .load 0 (some 0), .setParams 0 (some 0), .take 0 (some 0), .create 1,
   .assign 1 0, .take 1 none, .destroy 0, .destroy 1, .userFree 0]

example : VAllowedRun VWorld.init exVProg := by
  simp [exVProg, VAllowedRun, VAllowed, CloneOk, VWorld.step, VWorld.put, VWorld.init, Vsi.create,
    Vsi.load, Vsi.setParams, Vsi.takeDisj, Vsi.assign, Vsi.free, Vsi.get, Res.bind,
    Heap.free, Heap.clone, Heap.alloc, Function.update_apply]
  intro f; cases f <;> simp

end VPC
