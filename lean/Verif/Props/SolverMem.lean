import Verif.Model.SolverMem
import Mathlib.Order.Interval.Finset.Nat
import Mathlib.Algebra.BigOperators.Group.List.Basic
import Mathlib.Tactic

/-!
# Copies of solvers are released exactly once (C139)

Specification: `Bal M h h' k` compares the heap before (`h`) and after (`h'`) a call: nothing that existed
was deleted, only objects in `M` may have been changed, and exactly `k` objects created meanwhile still
exist. `RunsTo r P`: the code does not run into undefined behaviour, and if it returns, `P` holds.
-/
namespace VPC

variable {σ : Type}

/-- Objects numbered `lo` or higher that exist. -/
def liveFrom (h : BMem σ) (lo : ℕ) : ℕ := ((Finset.Ico lo h.next).filter fun a => (h.mem a).isSome).card

/-- Does the object exist? -/
def BMem.Live (h : BMem σ) (a : ℕ) : Prop := (h.mem a).isSome = true

/-- Numbers not given out yet are unused. -/
def BMem.Fresh (h : BMem σ) : Prop := ∀ a, h.next ≤ a → h.mem a = none

/-- The comparison of two heaps. -/
structure Bal (M : Set ℕ) (h h' : BMem σ) (k : ℕ) : Prop where
  next : h.next ≤ h'.next
  same : ∀ a < h.next, a ∉ M → h'.mem a = h.mem a
  alive : ∀ a < h.next, (h'.mem a).isSome = (h.mem a).isSome
  top : h'.Fresh
  left : liveFrom h' h.next = k

/-- No undefined behaviour, and the postcondition if the code returns. -/
def RunsTo {α : Type} (r : Res α) (P : α → Prop) : Prop := r ≠ .undef ∧ ∀ x, r = .ok x → P x

/-! ## Rules -/

theorem RunsTo.ok {α : Type} {x : α} {P : α → Prop} (h : P x) : RunsTo (.ok x) P :=
  ⟨by simp, fun y hy => by cases hy; exact h⟩

theorem RunsTo.exit {α : Type} {P : α → Prop} : RunsTo (.exit : Res α) P := ⟨by simp, fun _ h => by cases h⟩

theorem RunsTo.bind {α β : Type} {r : Res α} {f : α → Res β} {P : α → Prop} {Q : β → Prop}
    (hr : RunsTo r P) (hf : ∀ x, P x → RunsTo (f x) Q) : RunsTo (r.bind f) Q := by
  cases r with
  | ok x => exact hf x (hr.2 x rfl)
  | exit => exact RunsTo.exit
  | undef => exact absurd rfl hr.1

theorem RunsTo.mono {α : Type} {r : Res α} {P Q : α → Prop} (hr : RunsTo r P) (h : ∀ x, P x → Q x) : RunsTo r Q :=
  ⟨hr.1, fun x hx => h x (hr.2 x hx)⟩

theorem orExit_runs (h : BMem σ) (b : Bool) : RunsTo (orExit h b) fun x => x = h := by
  unfold orExit
  split
  · exact RunsTo.exit
  · exact RunsTo.ok rfl

theorem Bal.refl {h : BMem σ} (hf : h.Fresh) (M : Set ℕ) : Bal M h h 0 :=
  ⟨le_rfl, fun _ _ _ => rfl, fun _ _ => rfl, hf, by simp [liveFrom]⟩

theorem Bal.trans {M M' : Set ℕ} {h h1 h2 : BMem σ} {k k' : ℕ} (b : Bal M h h1 k) (b' : Bal M' h1 h2 k')
    (hM : ∀ a < h.next, a ∈ M' → a ∈ M) : Bal M h h2 (k + k') := by
  refine ⟨b.next.trans b'.next, fun a ha hn => ?_, fun a ha => ?_, b'.top, ?_⟩
  · rw [b'.same a (ha.trans_le b.next) (fun hm => hn (hM a ha hm)), b.same a ha hn]
  · rw [b'.alive a (ha.trans_le b.next), b.alive a ha]
  · have : Finset.Ico h.next h2.next = Finset.Ico h.next h1.next ∪ Finset.Ico h1.next h2.next :=
      (Finset.Ico_union_Ico_eq_Ico b.next b'.next).symm
    unfold liveFrom
    rw [this, Finset.filter_union, Finset.card_union_of_disjoint
      (Finset.disjoint_filter_filter (Finset.Ico_disjoint_Ico_consecutive _ _ _))]
    congr 1
    · rw [← b.left]
      unfold liveFrom
      congr 1
      apply Finset.filter_congr
      intro a ha
      rw [b'.alive a (Finset.mem_Ico.1 ha).2]
    · rw [← b'.left]; rfl

theorem Bal.live {M : Set ℕ} {h h' : BMem σ} {k a : ℕ} (b : Bal M h h' k) (hf : h.Fresh) (ha : h.Live a) :
    h'.Live a := by
  have : a < h.next := by
    by_contra hc
    have := hf a (not_lt.1 hc)
    simp [BMem.Live, this] at ha
  unfold BMem.Live
  rw [b.alive a this]
  exact ha

theorem isLive_lt {h : BMem σ} (hf : h.Fresh) {a : ℕ} (ha : h.Live a) : a < h.next := by
  by_contra hc
  have := hf a (not_lt.1 hc)
  simp [BMem.Live, this] at ha

theorem new_bal {h : BMem σ} (hf : h.Fresh) (s : σ) (M : Set ℕ) : Bal M h (h.new s) 1 := by
  refine ⟨Nat.le_succ _, fun a ha _ => ?_, fun a ha => ?_, fun a ha => ?_, ?_⟩
  · simp [BMem.new, Function.update_of_ne (Nat.ne_of_lt ha)]
  · simp [BMem.new, Function.update_of_ne (Nat.ne_of_lt ha)]
  · have : h.next + 1 ≤ a := ha
    simp only [BMem.new]
    rw [Function.update_of_ne (by omega)]
    exact hf a (by omega)
  · simp [liveFrom, BMem.new, Nat.Ico_succ_singleton, Finset.filter_singleton]

theorem new_live (h : BMem σ) (s : σ) : (h.new s).Live h.next := by simp [BMem.Live, BMem.new]

theorem dup_runs {h : BMem σ} (hf : h.Fresh) {a : ℕ} (ha : h.Live a) (M : Set ℕ) :
    RunsTo (h.dup a) fun r => r.2 = h.next ∧ Bal M h r.1 1 ∧ r.1.Live r.2 := by
  unfold BMem.dup
  unfold BMem.Live at ha
  cases hm : h.mem a with
  | none => simp [hm] at ha
  | some s => exact RunsTo.ok ⟨rfl, new_bal hf s M, new_live h s⟩

theorem use_runs {h : BMem σ} (hf : h.Fresh) {a : ℕ} (ha : h.Live a) (f : σ → σ) :
    RunsTo (h.use a f) fun h' => Bal {a} h h' 0 := by
  unfold BMem.use
  have hlt := isLive_lt hf ha
  unfold BMem.Live at ha
  cases hm : h.mem a with
  | none => simp [hm] at ha
  | some s =>
    refine RunsTo.ok ⟨le_rfl, fun b _ hn => ?_, fun b _ => ?_, fun b hb => ?_, by simp [liveFrom]⟩
    · simp only [Set.mem_singleton_iff] at hn
      simp [Function.update_of_ne hn]
    · by_cases hab : b = a
      · subst hab; simp [hm]
      · simp [Function.update_of_ne hab]
    · have : h.next ≤ b := hb
      simp only
      rw [Function.update_of_ne (by omega)]
      exact hf b this

/-- Deleting an object created since `h`. -/
theorem delete_runs {M : Set ℕ} {h h' : BMem σ} {k a : ℕ} (b : Bal M h h' (k + 1)) (ha : h.next ≤ a)
    (hl : h'.Live a) :
    RunsTo (h'.delete (some a)) fun h2 => Bal M h h2 k ∧ ∀ c, c ≠ a → h'.Live c → h2.Live c := by
  have hlt := isLive_lt b.top hl
  unfold BMem.delete
  unfold BMem.Live at hl
  cases hm : h'.mem a with
  | none => simp [hm] at hl
  | some s =>
    simp only [hm]
    apply RunsTo.ok
    refine ⟨⟨b.next, fun c hc hn => ?_, fun c hc => ?_, fun c hc => ?_, ?_⟩, fun c hc hcl => ?_⟩
    · simp only
      rw [Function.update_of_ne (by omega)]
      exact b.same c hc hn
    · simp only
      rw [Function.update_of_ne (by omega)]
      exact b.alive c hc
    · have : h'.next ≤ c := hc
      simp only
      rw [Function.update_of_ne (by omega)]
      exact b.top c this
    · have he : ((Finset.Ico h.next h'.next).filter fun c => (Function.update h'.mem a none c).isSome)
          = ((Finset.Ico h.next h'.next).filter fun c => (h'.mem c).isSome).erase a := by
        ext c
        simp only [Finset.mem_filter, Finset.mem_erase]
        by_cases hca : c = a
        · subst hca; simp
        · simp [Function.update_of_ne hca, hca]
      have hmem : a ∈ (Finset.Ico h.next h'.next).filter fun c => (h'.mem c).isSome := by
        simp [Finset.mem_filter, Finset.mem_Ico, ha, hlt, hm]
      have hl := b.left
      unfold liveFrom at hl ⊢
      simp only
      rw [he, Finset.card_erase_of_mem hmem, hl]
      rfl
    · unfold BMem.Live at hcl ⊢
      simp only
      rw [Function.update_of_ne hc]
      exact hcl

/-- A call made in the middle: `h` is the heap at the start, `h1` the heap now. -/
theorem RunsTo.step {M M' : Set ℕ} {h h1 : BMem σ} {k k' : ℕ} {r : Res (BMem σ)} (b : Bal M h h1 k)
    (hr : RunsTo r fun h' => Bal M' h1 h' k') (hM : ∀ a < h.next, a ∈ M' → a ∈ M) :
    RunsTo r fun h' => Bal M h h' (k + k') ∧ ∀ c, h1.Live c → h'.Live c :=
  hr.mono fun _ hx => ⟨b.trans hx hM, fun _ hc => hx.live b.top hc⟩

/-! ## The functions -/

theorem scratch_runs {h : BMem σ} (hf : h.Fresh) {a : ℕ} (ha : h.Live a) (f : σ → σ) (bad : Bool) :
    RunsTo (scratchMem f bad h a) fun h' => Bal ∅ h h' 0 := by
  unfold scratchMem
  refine (dup_runs hf ha ∅).bind ?_
  rintro ⟨h1, b⟩ ⟨hb, b1, hl⟩
  dsimp only at hb b1 hl ⊢
  subst hb
  refine ((use_runs b1.top hl f).step b1 (M' := {h.next}) (by
    intro a ha hm; simp only [Set.mem_singleton_iff] at hm; omega)).bind ?_
  rintro h2 ⟨b2, l2⟩
  refine (orExit_runs h2 bad).bind ?_
  rintro h3 rfl
  exact (delete_runs (by simpa using b2) le_rfl (l2 _ hl)).mono fun _ hx => hx.1

theorem term_runs {h : BMem σ} (hf : h.Fresh) {p : Option ℕ} (hp : ∀ a ∈ p, h.Live a) (f : σ → σ) (bad : Bool) :
    RunsTo (termMem f bad h p) fun h' => Bal ∅ h h' 0 := by
  cases p with
  | none =>
    exact (orExit_runs h bad).mono fun _ hx => hx ▸ Bal.refl hf ∅
  | some a => exact scratch_runs hf (hp a rfl) f bad

theorem children_runs {base : ℕ} (cs : List ((σ → σ) × Bool)) : ∀ {h : BMem σ}, h.Fresh → h.Live base →
    RunsTo (childrenMem base cs h) fun h' => Bal ∅ h h' 0 := by
  induction cs with
  | nil => intro h hf _; exact RunsTo.ok (Bal.refl hf ∅)
  | cons c cs ih =>
    intro h hf hl
    refine (term_runs hf (p := some base) (by rintro _ ⟨⟩; exact hl) c.1 c.2).bind ?_
    intro h1 b1
    exact ((ih b1.top (b1.live hf hl)).step b1 (by simp)).mono fun _ hx => by simpa using hx.1

/-- Setup of one open node: afterwards one more object, the solver of the node, exists. -/
theorem node_runs {h : BMem σ} (hf : h.Fresh) {orig : ℕ} (ho : h.Live orig) (n : NodeMem σ) {β : Type}
    (f : ℕ → BMem σ → Res β) (Q : β → Prop)
    (hq : ∀ h', Bal ∅ h h' 1 → h'.Live h.next → RunsTo (f h.next h') Q) :
    RunsTo ((h.dup orig).bind fun r =>
      (r.1.use r.2 n.setup).bind fun h =>
      (orExit h n.bad).bind fun h =>
      (childrenMem r.2 n.children h).bind fun h => f r.2 h) Q := by
  refine (dup_runs hf ho ∅).bind ?_
  rintro ⟨h1, b⟩ ⟨hb, b1, hl⟩
  dsimp only at hb b1 hl ⊢
  subst hb
  refine ((use_runs b1.top hl n.setup).step b1 (M' := {h.next}) (by
    intro a ha hm; simp only [Set.mem_singleton_iff] at hm; omega)).bind ?_
  rintro h2 ⟨b2, l2⟩
  refine (orExit_runs h2 n.bad).bind ?_
  rintro h3 rfl
  refine ((children_runs n.children b2.top (l2 _ hl)).step b2 (by simp)).bind ?_
  rintro h4 ⟨b4, l4⟩
  exact hq h4 (by simpa using b4) (l4 _ (l2 _ hl))

theorem save_runs {orig : ℕ} (ns : List (NodeMem σ)) : ∀ {h : BMem σ}, h.Fresh → h.Live orig →
    RunsTo (saveMem orig ns h) fun h' => Bal ∅ h h' 0 := by
  induction ns with
  | nil => intro h hf _; exact RunsTo.ok (Bal.refl hf ∅)
  | cons n ns ih =>
    intro h hf hl
    unfold saveMem
    split
    · exact RunsTo.ok (Bal.refl hf ∅)
    · refine node_runs hf hl n (fun b h => (h.delete (some b)).bind fun h => saveMem orig ns h) _ ?_
      intro h1 b1 l1
      refine (delete_runs (k := 0) b1 le_rfl l1).bind ?_
      rintro h2 ⟨b2, -⟩
      exact ((ih b2.top (b2.live hf hl)).step b2 (by simp)).mono fun _ hx => by simpa using hx.1

theorem saveStats_runs {orig : ℕ} (ns : List (NodeMem σ)) : ∀ {h : BMem σ}, h.Fresh → h.Live orig →
    RunsTo (saveStatsMem orig ns h) fun h' => Bal ∅ h h' ns.length := by
  induction ns with
  | nil => intro h hf _; exact RunsTo.ok (Bal.refl hf ∅)
  | cons n ns ih =>
    intro h hf hl
    unfold saveStatsMem
    refine node_runs hf hl n (fun _ h => saveStatsMem orig ns h) _ ?_
    intro h1 b1 l1
    exact ((ih b1.top (b1.live hf hl)).step b1 (by simp)).mono fun _ hx => by
      simpa [Nat.add_comm] using hx.1

/-- Solvers left behind by one step of a search. -/
def stepLeaks (keep : Bool) : SearchStep σ → ℕ
  | .save nodes => if keep then nodes.length else 0
  | _ => 0

/-- Solvers left behind by a search. -/
def searchLeaks (keep : Bool) (ss : List (SearchStep σ)) : ℕ := (ss.map (stepLeaks keep)).sum

/-- One step of a search: the solver of the model is one of the objects created since `h`. -/
theorem step_runs {M : Set ℕ} {h h1 : BMem σ} {k cur orig : ℕ} (keep : Bool) (b : Bal M h h1 (k + 1))
    (hc : h.next ≤ cur) (lc : h1.Live cur) (s : SearchStep σ) (lo : s.isSave = true → h1.Live orig) :
    RunsTo (stepMem keep orig h1 cur s) fun r => Bal M h r.1 (k + 1 + stepLeaks keep s) ∧ h.next ≤ r.2 ∧
      r.1.Live r.2 ∧ (∀ c, c ≠ cur → h1.Live c → r.1.Live c) ∧ (r.2 = cur ∨ h1.next ≤ r.2) := by
  cases s with
  | work f =>
    refine ((use_runs b.top lc f).step b (M' := {cur}) (by
      intro a ha hm; simp only [Set.mem_singleton_iff] at hm; omega)).bind ?_
    rintro h2 ⟨b2, l2⟩
    exact RunsTo.ok ⟨b2, hc, l2 _ lc, fun c _ h => l2 c h, Or.inl rfl⟩
  | replace f =>
    refine (dup_runs b.top lc M).bind ?_
    rintro ⟨h2, c⟩ ⟨hc2, b2, l2⟩
    dsimp only at hc2 b2 l2 ⊢
    subst hc2
    have b2' := b.trans b2 (fun _ _ h => h)
    have lk2 : ∀ c, h1.Live c → h2.Live c := fun c h => b2.live b.top h
    refine ((use_runs b2'.top l2 f).step b2' (M' := {h1.next}) (by
      intro a ha hm; simp only [Set.mem_singleton_iff] at hm; have := b.next; omega)).bind ?_
    rintro h3 ⟨b3, l3⟩
    have hne : h1.next ≠ cur := by have := isLive_lt b.top lc; omega
    refine (delete_runs (k := k + 1) (by simpa using b3) hc (l3 _ (lk2 _ lc))).bind ?_
    rintro h4 ⟨b4, l4⟩
    exact RunsTo.ok ⟨b4, b.next, l4 _ hne (l3 _ l2), fun c hcn h => l4 c hcn (l3 _ (lk2 _ h)),
      Or.inr le_rfl⟩
  | probe f bad =>
    refine ((scratch_runs b.top lc f bad).step b (by simp)).bind ?_
    rintro h2 ⟨b2, l2⟩
    exact RunsTo.ok ⟨b2, hc, l2 _ lc, fun c _ h => l2 c h, Or.inl rfl⟩
  | save nodes =>
    have lo := lo rfl
    have hr : RunsTo (if keep then saveStatsMem orig nodes h1 else saveMem orig nodes h1)
        fun h' => Bal ∅ h1 h' (stepLeaks keep (.save nodes)) := by
      cases keep with
      | true => simpa [stepLeaks] using saveStats_runs nodes b.top lo
      | false => simpa [stepLeaks] using save_runs nodes b.top lo
    refine (hr.step b (by simp)).bind ?_
    rintro h2 ⟨b2, l2⟩
    exact RunsTo.ok ⟨b2, hc, l2 _ lc, fun c _ h => l2 c h, Or.inl rfl⟩

theorem search_runs {M : Set ℕ} {h : BMem σ} (keep : Bool) (orig : ℕ) (ss : List (SearchStep σ)) :
    ∀ {h1 : BMem σ} {k cur : ℕ} (P : ℕ → Prop), Bal M h h1 (k + 1) → h.next ≤ cur → h1.Live cur →
      (∀ c, P c → h1.Live c ∧ c ≠ cur) → ((∃ s ∈ ss, s.isSave = true) → P orig) →
    RunsTo (searchMem keep orig ss h1 cur) fun r => Bal M h r.1 (k + 1 + searchLeaks keep ss) ∧ h.next ≤ r.2 ∧
      r.1.Live r.2 ∧ ∀ c, P c → r.1.Live c ∧ c ≠ r.2 := by
  induction ss with
  | nil =>
    intro h1 k cur P b hc lc hP _
    exact RunsTo.ok ⟨by simpa [searchLeaks] using b, hc, lc, hP⟩
  | cons s ss ih =>
    intro h1 k cur P b hc lc hP ho
    unfold searchMem
    refine (step_runs keep b hc lc s (fun hs => (hP _ (ho ⟨s, by simp, hs⟩)).1)).bind ?_
    rintro ⟨h2, c2⟩ ⟨b2, hc2, lc2, l2, hd⟩
    dsimp only at b2 hc2 lc2 l2 hd ⊢
    have b2' : Bal M h h2 (k + stepLeaks keep s + 1) := by
      convert b2 using 1; omega
    refine (ih P b2' hc2 lc2 (fun c hc => ⟨l2 c (hP c hc).2 (hP c hc).1, ?_⟩)
      (fun ⟨x, hx, hxs⟩ => ho ⟨x, by simp [hx], hxs⟩)).mono ?_
    · rcases hd with hd | hd
      · rw [hd]; exact (hP c hc).2
      · have := isLive_lt b.top (hP c hc).1
        omega
    · rintro r ⟨br, hr, lr, lo⟩
      refine ⟨?_, hr, lr, lo⟩
      convert br using 1
      simp only [searchLeaks, List.map_cons, List.sum_cons]
      omega

/-- A model that owns its solver frees that solver only. -/
theorem freeModel_runs {M : Set ℕ} {h h' : BMem σ} {k cur : ℕ} (bb : ℕ) (b : Bal M h h' (k + 1))
    (hc : h.next ≤ cur) (hl : h'.Live cur) :
    RunsTo (freeModel h' bb cur true) fun h2 => Bal M h h2 k ∧ ∀ c, c ≠ cur → h'.Live c → h2.Live c := by
  have : freeModel h' bb cur true = h'.delete (some cur) := rfl
  rw [this]
  exact delete_runs b hc hl

/-- Solvers left behind by the preparation of a tree. -/
def treeLeaks (t : TreeMem σ) : ℕ := if t.terms < 2 then 0 else searchLeaks t.keep t.steps

theorem tree_runs (t : TreeMem σ) {h : BMem σ} (hf : h.Fresh) {si : ℕ} (hs : h.Live si) :
    RunsTo (treeMem t h si) fun h' => Bal ∅ h h' (treeLeaks t) := by
  unfold treeMem treeLeaks
  split
  · exact RunsTo.ok (Bal.refl hf ∅)
  · refine (dup_runs hf hs ∅).bind ?_
    rintro ⟨h1, bb⟩ ⟨hb, b1, lb⟩
    dsimp only at hb b1 lb ⊢
    subst hb
    refine ((use_runs b1.top lb t.setup).step b1 (M' := {h.next}) (by
      intro a ha hm; simp only [Set.mem_singleton_iff] at hm; omega)).bind ?_
    rintro h2 ⟨b2, l2⟩
    have ls2 := l2 _ (b1.live hf hs)
    have lb2 := l2 _ lb
    refine (dup_runs b2.top ls2 ∅).bind ?_
    rintro ⟨h3, ev⟩ ⟨he, b3, le⟩
    dsimp only at he b3 le ⊢
    subst he
    have B3 := b2.trans b3 (by simp)
    have lb3 := b3.live b2.top lb2
    refine (dup_runs b3.top le ∅).bind ?_
    rintro ⟨h4, hd⟩ ⟨hh, b4, lh⟩
    dsimp only at hh b4 lh ⊢
    subst hh
    have B4 := B3.trans b4 (by simp)
    have lb4 := b4.live b3.top lb3
    have le4 := b4.live b3.top le
    have n12 : h.next < h2.next := isLive_lt b2.top lb2
    have n23 : h2.next < h3.next := isLive_lt b3.top le
    refine (search_runs t.keep h3.next t.steps (fun c => c = h2.next ∨ c = h3.next)
      (k := 2) (by simpa using B4) le_rfl lb4 ?_ (fun _ => Or.inr rfl)).bind ?_
    · rintro c (rfl | rfl)
      · exact ⟨le4, by omega⟩
      · exact ⟨lh, by omega⟩
    rintro ⟨h5, cur⟩ ⟨b5, hc5, lc5, l5⟩
    dsimp only at b5 hc5 lc5 l5 ⊢
    have e5 := l5 _ (Or.inl rfl)
    have d5 := l5 _ (Or.inr rfl)
    refine (delete_runs (k := 2 + searchLeaks t.keep t.steps) (by convert b5 using 1; omega) (by omega) e5.1).bind
      ?_
    rintro h6 ⟨b6, l6⟩
    refine (orExit_runs h6 t.bad).bind ?_
    rintro h7 rfl
    have lc7 := l6 _ (Ne.symm e5.2) lc5
    have ld7 := l6 _ (show h3.next ≠ h2.next by omega) d5.1
    refine (freeModel_runs h.next (k := 1 + searchLeaks t.keep t.steps) (by convert b6 using 1; omega) hc5
      lc7).bind ?_
    rintro h8 ⟨b8, l8⟩
    exact (delete_runs (by convert b8 using 1; omega) (by omega) (l8 _ d5.2 ld7)).mono fun _ hx => hx.1

theorem split_runs (s : SplitMem σ) {h : BMem σ} (hf : h.Fresh) {si : ℕ} (hs : h.Live si) :
    RunsTo (splitMem s h si) fun h' => Bal ∅ h h' 0 := by
  unfold splitMem
  refine (dup_runs hf hs ∅).bind ?_
  rintro ⟨h1, b⟩ ⟨hb, b1, hl⟩
  dsimp only at hb b1 hl ⊢
  subst hb
  split
  · exact (delete_runs (k := 0) b1 le_rfl hl).mono fun _ hx => hx.1
  · refine ((use_runs b1.top hl s.work).step b1 (M' := {h.next}) (by
      intro a ha hm; simp only [Set.mem_singleton_iff] at hm; omega)).bind ?_
    rintro h2 ⟨b2, l2⟩
    refine (orExit_runs h2 s.bad).bind ?_
    rintro h3 rfl
    exact (delete_runs (by simpa using b2) le_rfl (l2 _ hl)).mono fun _ hx => hx.1

/-- Solvers left behind by a preparation. -/
def prepLeaks : PrepMem σ → ℕ
  | .tree t => treeLeaks t
  | _ => 0

theorem prep_runs (p : PrepMem σ) {h : BMem σ} (hf : h.Fresh) {si : ℕ} (hs : h.Live si) :
    RunsTo (prepMem h si p) fun h' => Bal ∅ h h' (prepLeaks p) := by
  cases p with
  | tree t => exact tree_runs t hf hs
  | split s => exact split_runs s hf hs
  | splits n w b =>
    show RunsTo (splitsMem n w b h si) _
    unfold splitsMem
    split
    · exact RunsTo.ok (Bal.refl hf ∅)
    · exact scratch_runs hf hs w b

theorem preps_runs (si : ℕ) (ps : List (PrepMem σ)) : ∀ {h : BMem σ}, h.Fresh → h.Live si →
    RunsTo (prepsMem si ps h) fun h' => Bal ∅ h h' (ps.map prepLeaks).sum := by
  induction ps with
  | nil => intro h hf _; exact RunsTo.ok (Bal.refl hf ∅)
  | cons p ps ih =>
    intro h hf hs
    refine (prep_runs p hf hs).bind ?_
    intro h1 b1
    exact ((ih b1.top (b1.live hf hs)).step b1 (by simp)).mono fun _ hx => by simpa using hx.1

theorem terms_runs (c : ℕ) (ts : List (TermMem σ)) : ∀ {h : BMem σ}, h.Fresh → h.Live c →
    RunsTo (termsMem c ts h) fun h' => Bal ∅ h h' 0 := by
  induction ts with
  | nil => intro h hf _; exact RunsTo.ok (Bal.refl hf ∅)
  | cons t ts ih =>
    intro h hf hc
    unfold termsMem
    split
    · exact ih hf hc
    · refine (scratch_runs hf hc t.work t.bad).bind ?_
      intro h1 b1
      exact ((ih b1.top (b1.live hf hc)).step b1 (by simp)).mono fun _ hx => by simpa using hx.1

theorem post_runs (p : PostMem σ) {h : BMem σ} (hf : h.Fresh) {c : ℕ} (hc : h.Live c) :
    RunsTo (postMem h c p) fun h' => Bal ∅ h h' 0 := by
  cases p with
  | off => exact RunsTo.ok (Bal.refl hf ∅)
  | on f bad => exact scratch_runs hf hc f bad

theorem disj_runs (d : DisjMem σ) {h : BMem σ} (hf : h.Fresh) {c : ℕ} (hc : h.Live c) :
    RunsTo (disjMem d h c) fun h' => Bal {c} h h' 0 := by
  unfold disjMem
  refine (use_runs hf hc d.setup).bind ?_
  intro h1 b1
  have l1 := b1.live hf hc
  refine ((terms_runs c d.terms b1.top l1).step b1 (by simp)).bind ?_
  rintro h2 ⟨b2, l2⟩
  split
  · exact RunsTo.ok (by simpa using b2)
  · refine ((post_runs d.post b2.top (l2 _ l1)).step b2 (by simp)).bind ?_
    rintro h3 ⟨b3, l3⟩
    refine ((use_runs b3.top (l3 _ (l2 _ l1)) d.solve).step b3 (M' := {c}) (fun _ _ h => h)).bind ?_
    rintro h4 ⟨b4, -⟩
    exact (orExit_runs h4 d.bad).mono fun _ hx => by subst hx; simpa using b4

theorem disjs_runs (many : Bool) (v : ℕ) (ds : List (DisjMem σ)) : ∀ {h : BMem σ}, h.Fresh → h.Live v →
    RunsTo (disjsMem many v ds h) fun h' => Bal {v} h h' 0 := by
  induction ds with
  | nil => intro h hf _; exact RunsTo.ok (Bal.refl hf _)
  | cons d ds ih =>
    intro h hf hv
    unfold disjsMem
    split
    · exact RunsTo.ok (Bal.refl hf _)
    · have key : ∀ {h1 : BMem σ}, Bal {v} h h1 0 →
          RunsTo (if !d.setupOk then .ok h1 else disjsMem many v ds h1) fun h' => Bal {v} h h' 0 := by
        intro h1 b1
        split
        · exact RunsTo.ok b1
        · exact ((ih b1.top (b1.live hf hv)).step b1 (fun _ _ h => h)).mono fun _ hx => by simpa using hx.1
      cases many with
      | true =>
        simp only [if_true]
        refine (dup_runs hf hv {v}).bind ?_
        rintro ⟨h1, c⟩ ⟨hc, b1, l1⟩
        dsimp only at hc b1 l1 ⊢
        subst hc
        refine ((disj_runs d b1.top l1).step b1 (M' := {h.next}) (by
          intro a ha hm; simp only [Set.mem_singleton_iff] at hm; omega)).bind ?_
        rintro h2 ⟨b2, l2⟩
        refine (delete_runs (k := 0) (by simpa using b2) le_rfl (l2 _ l1)).bind ?_
        rintro h3 ⟨b3, -⟩
        exact key b3
      | false =>
        simp only [Bool.false_eq_true, if_false]
        refine (RunsTo.ok (P := fun x => x = (h, v)) rfl).bind ?_
        rintro _ rfl
        refine (disj_runs d hf hv).bind ?_
        intro h1 b1
        refine (RunsTo.ok (P := fun x => x = h1) rfl).bind ?_
        rintro _ rfl
        exact key b1

/-- Solvers left behind by a call of the generator. -/
def genLeaks (g : GenMem σ) : ℕ := (g.preps.map prepLeaks).sum

/-- Is the caller's solver changed? -/
def flipped (g : GenMem σ) (si : ℕ) : Set ℕ := {a | a = si ∧ g.flip.isSome = true}

/-- A call of the generator: no undefined behaviour on any path; if it returns, all objects that existed
still exist and are unchanged (the solver given is changed at most into a minimization problem), and of the
solvers created during the call exactly `genLeaks g` still exist. -/
theorem gen_runs (g : GenMem σ) {h : BMem σ} (hf : h.Fresh) {si : ℕ} (hs : h.Live si) :
    RunsTo (genMem g h si) fun h' => Bal (flipped g si) h h' (genLeaks g) := by
  unfold genMem
  have h0 : RunsTo (match g.flip with | none => Res.ok h | some f => h.use si f)
      fun h' => Bal (flipped g si) h h' 0 := by
    cases hg : g.flip with
    | none => exact RunsTo.ok (Bal.refl hf _)
    | some f =>
      refine (use_runs hf hs f).mono ?_
      intro h' b
      have := (Bal.refl hf (flipped g si)).trans b (by
        intro a _ hm
        simp only [Set.mem_singleton_iff] at hm
        exact ⟨hm, by simp [hg]⟩)
      simpa using this
  refine h0.bind ?_
  intro h1 b1
  refine ((preps_runs si g.preps b1.top (b1.live hf hs)).step b1 (by simp)).bind ?_
  rintro h2 ⟨b2, l2⟩
  have ls2 := l2 _ (b1.live hf hs)
  have hB : Bal (flipped g si) h h2 (genLeaks g) := by simpa [genLeaks] using b2
  split
  · exact RunsTo.ok hB
  · refine (dup_runs hB.top ls2 ∅).bind ?_
    rintro ⟨h3, v⟩ ⟨hv, b3, l3⟩
    dsimp only at hv b3 l3 ⊢
    subst hv
    have B3 := hB.trans b3 (by simp)
    have hle := hB.next
    refine ((use_runs B3.top l3 g.root).step B3 (M' := {h2.next}) (by
      intro a ha hm; simp only [Set.mem_singleton_iff] at hm; omega)).bind ?_
    rintro h4 ⟨b4, l4⟩
    split
    · exact (delete_runs (by simpa using b4) hle (l4 _ l3)).mono fun _ hx => hx.1
    · refine ((disjs_runs _ h2.next g.disjs b4.top (l4 _ l3)).step b4 (by
        intro a ha hm; simp only [Set.mem_singleton_iff] at hm; omega)).bind ?_
      rintro h5 ⟨b5, l5⟩
      exact (delete_runs (by simpa using b5) hle (l5 _ (l4 _ l3))).mono fun _ hx => hx.1

/-! ## Branch-and-bound tests, cleaning, main program -/

theorem noSaveLeaks (ss : List (SearchStep σ)) : searchLeaks false ss = 0 := by
  unfold searchLeaks
  apply List.sum_eq_zero
  intro x hx
  obtain ⟨s, -, rfl⟩ := List.mem_map.1 hx
  cases s <;> rfl

/-- A search of Cbc without the event handler of the partial tree, then the model freed. -/
theorem plainSearch_runs {h h1 : BMem σ} {cur bb : ℕ} (b : Bal ∅ h h1 1) (hc : h.next ≤ cur)
    (lc : h1.Live cur) (ss : List (SearchStep σ)) (bad : Bool) :
    RunsTo ((searchMem false 0 (ss.filter fun s => !s.isSave) h1 cur).bind
      fun r => (orExit r.1 bad).bind fun h' => freeModel h' bb r.2 true) fun h' => Bal ∅ h h' 0 := by
  refine (search_runs false 0 (ss.filter fun s => !s.isSave) (fun _ => False) (k := 0) b hc lc
    (fun _ h => h.elim) ?_).bind ?_
  · rintro ⟨s, hs, hi⟩
    have := (List.mem_filter.1 hs).2
    simp [hi] at this
  rintro ⟨h2, c2⟩ ⟨b2, hc2, l2, -⟩
  dsimp only at b2 hc2 l2 ⊢
  refine (orExit_runs h2 bad).bind ?_
  rintro h3 rfl
  rw [noSaveLeaks] at b2
  exact (freeModel_runs bb b2 hc2 l2).mono fun _ hx => hx.1

/-- Cbc on a copy of a solver: the solver given is untouched and no object is left. -/
theorem cbc_runs (setup : σ → σ) (cuts : Option (σ → σ)) (steps : List (SearchStep σ)) (bad : Bool)
    {h : BMem σ} (hf : h.Fresh) {solver : ℕ} (hs : h.Live solver) :
    RunsTo (cbcMem setup cuts steps bad h solver) fun h' => Bal ∅ h h' 0 := by
  unfold cbcMem
  refine (dup_runs hf hs ∅).bind ?_
  rintro ⟨h1, b⟩ ⟨hb, b1, hl⟩
  dsimp only at hb b1 hl ⊢
  subst hb
  refine ((use_runs b1.top hl setup).step b1 (M' := {h.next}) (by
    intro a ha hm; simp only [Set.mem_singleton_iff] at hm; omega)).bind ?_
  rintro h2 ⟨b2, l2⟩
  have hcut : RunsTo (match cuts with | none => Res.ok h2 | some f => h2.use h.next f)
      fun h3 => Bal ∅ h h3 1 ∧ h3.Live h.next := by
    cases cuts with
    | none => exact RunsTo.ok ⟨b2, l2 _ hl⟩
    | some f =>
      exact ((use_runs b2.top (l2 _ hl) f).step b2 (M' := {h.next}) (by
        intro a ha hm; simp only [Set.mem_singleton_iff] at hm; omega)).mono
        fun _ hx => ⟨hx.1, hx.2 _ (l2 _ hl)⟩
  refine hcut.bind ?_
  rintro h3 ⟨b3, l3⟩
  exact plainSearch_runs b3 le_rfl l3 steps bad

/-- Cbc on a file. -/
theorem cbcFile_runs (file : Option σ) (cuts : Option (σ → σ)) (steps : List (SearchStep σ)) (bad : Bool)
    {h : BMem σ} (hf : h.Fresh) :
    RunsTo (cbcFileMem file cuts steps bad h) fun h' => Bal ∅ h h' 0 := by
  unfold cbcFileMem
  cases file with
  | none => exact RunsTo.exit
  | some s =>
    have b1 := new_bal hf s ∅
    have l1 := new_live h s
    have hcut : RunsTo (match cuts with | none => Res.ok (h.new s) | some f => (h.new s).use h.next f)
        fun h3 => Bal ∅ h h3 1 ∧ h3.Live h.next := by
      cases cuts with
      | none => exact RunsTo.ok ⟨b1, l1⟩
      | some f =>
        exact ((use_runs b1.top l1 f).step b1 (M' := {h.next}) (by
          intro a ha hm; simp only [Set.mem_singleton_iff] at hm; omega)).mono
          fun _ hx => ⟨hx.1, hx.2 _ l1⟩
    refine hcut.bind ?_
    rintro h3 ⟨b3, l3⟩
    exact plainSearch_runs b3 le_rfl l3 steps bad

theorem cbcs_runs (solver : ℕ) (cs : List (CbcMem σ)) : ∀ {h : BMem σ}, h.Fresh → h.Live solver →
    RunsTo (cbcsMem solver cs h) fun h' => Bal ∅ h h' 0 := by
  induction cs with
  | nil => intro h hf _; exact RunsTo.ok (Bal.refl hf ∅)
  | cons c cs ih =>
    intro h hf hs
    refine (cbc_runs c.setup c.cuts c.steps c.bad hf hs).bind ?_
    intro h1 b1
    exact ((ih b1.top (b1.live hf hs)).step b1 (by simp)).mono fun _ hx => by simpa using hx.1

/-- The branch-and-bound tests, all runs permuted or none: the solver given survives unchanged and no object
is left. -/
theorem bbPasses_runs (solver : ℕ) (perm : Bool) (ps : List (BBPass σ)) : ∀ {h : BMem σ} {cur : Option ℕ},
    h.Fresh → h.Live solver → (∀ p ∈ ps, p.permuted.isSome = perm) →
    (perm = false → cur = none ∨ cur = some solver) →
    RunsTo (bbPassesMem solver ps h cur) fun h' => Bal ∅ h h' 0 := by
  induction ps with
  | nil => intro h cur hf _ _ _; exact RunsTo.ok (Bal.refl hf ∅)
  | cons p ps ih =>
    intro h cur hf hs hp hc
    unfold bbPassesMem
    have hp1 := hp p (by simp)
    have key : RunsTo (bbPassMem solver p h cur) fun r => Bal ∅ h r.1 0 ∧
        (perm = false → r.2 = none ∨ r.2 = some solver) := by
      unfold bbPassMem
      cases hq : p.permuted with
      | some s =>
        rw [hq] at hp1
        have b1 := new_bal hf s ∅
        refine ((cbcs_runs h.next p.calls b1.top (new_live h s)).step b1 (by simp)).bind ?_
        rintro h2 ⟨b2, l2⟩
        have hne : h.next ≠ solver := by have := isLive_lt hf hs; omega
        rw [if_pos hne]
        refine (delete_runs (k := 0) (by simpa using b2) le_rfl (l2 _ (new_live h s))).bind ?_
        rintro h3 ⟨b3, -⟩
        exact RunsTo.ok ⟨b3, fun hpf => by simp [hpf] at hp1⟩
      | none =>
        rw [hq] at hp1
        have hcur : cur.getD solver = solver := by
          rcases hc (by simpa using hp1.symm) with rfl | rfl <;> rfl
        simp only [hcur]
        refine (cbcs_runs solver p.calls hf hs).bind ?_
        intro h1 b1
        exact RunsTo.ok ⟨b1, fun _ => Or.inr rfl⟩
    refine key.bind ?_
    rintro ⟨h1, c1⟩ ⟨b1, hc1⟩
    dsimp only at b1 hc1 ⊢
    exact ((ih b1.top (b1.live hf hs) (fun q hq => hp q (by simp [hq])) hc1).step b1 (by simp)).mono
      fun _ hx => by simpa using hx.1

/-- All runs of a test are permuted, or none is. -/
def Uniform (ps : List (BBPass σ)) : Prop := ∃ b, ∀ p ∈ ps, p.permuted.isSome = b

theorem bbTests_runs {solver : ℕ} {ps : List (BBPass σ)} (hu : Uniform ps) {h : BMem σ} (hf : h.Fresh)
    (hs : h.Live solver) : RunsTo (bbPassesMem solver ps h none) fun h' => Bal ∅ h h' 0 := by
  obtain ⟨b, hb⟩ := hu
  exact bbPasses_runs solver b ps hf hs hb (fun _ => Or.inl rfl)

/-- The unused function that counts rounds of Gomory cuts leaves one solver behind on every call. -/
theorem gomoryRounds_leaks (work : σ → σ) {h : BMem σ} (hf : h.Fresh) {orig : ℕ} (ho : h.Live orig) :
    RunsTo (gomoryRoundsMem work h orig) fun h' => Bal ∅ h h' 1 := by
  unfold gomoryRoundsMem
  refine (dup_runs hf ho ∅).bind ?_
  rintro ⟨h1, b⟩ ⟨hb, b1, hl⟩
  dsimp only at hb b1 hl ⊢
  subst hb
  exact ((use_runs b1.top hl work).step b1 (M' := {h.next}) (by
    intro a ha hm; simp only [Set.mem_singleton_iff] at hm; omega)).mono fun _ hx => hx.1

/-- A solver for a term: the caller gets the only new object, or no object and a null pointer. -/
theorem termSolver_runs (work : σ → σ) (bad optimal : Bool) {h : BMem σ} (hf : h.Fresh) {solver : ℕ}
    (hs : h.Live solver) :
    RunsTo (termSolverMem work bad optimal h solver) fun r =>
      (r.2 = none ∧ Bal ∅ h r.1 0) ∨ ∃ a, r.2 = some a ∧ h.next ≤ a ∧ r.1.Live a ∧ Bal ∅ h r.1 1 := by
  unfold termSolverMem
  refine (dup_runs hf hs ∅).bind ?_
  rintro ⟨h1, b⟩ ⟨hb, b1, hl⟩
  dsimp only at hb b1 hl ⊢
  subst hb
  refine ((use_runs b1.top hl work).step b1 (M' := {h.next}) (by
    intro a ha hm; simp only [Set.mem_singleton_iff] at hm; omega)).bind ?_
  rintro h2 ⟨b2, l2⟩
  refine (orExit_runs h2 bad).bind ?_
  rintro h3 rfl
  split
  · exact RunsTo.ok (Or.inr ⟨_, rfl, le_rfl, l2 _ hl, b2⟩)
  · refine (delete_runs (k := 0) (by simpa using b2) le_rfl (l2 _ hl)).bind ?_
    rintro h4 ⟨b4, -⟩
    exact RunsTo.ok (Or.inl ⟨rfl, b4⟩)

theorem cleans_runs (c : ℕ) (ps : List ((σ → σ) × (σ → σ) × Bool)) : ∀ {h : BMem σ}, h.Fresh → h.Live c →
    RunsTo (cleansMem c ps h) fun h' => Bal {c} h h' 0 := by
  induction ps with
  | nil => intro h hf _; exact RunsTo.ok (Bal.refl hf _)
  | cons p ps ih =>
    intro h hf hc
    refine ((scratch_runs hf hc p.1 p.2.2).step (Bal.refl hf {c}) (by simp)).bind ?_
    rintro h1 ⟨b1, l1⟩
    refine ((use_runs b1.top (l1 _ hc) p.2.1).step b1 (M' := {c}) (fun _ _ h => h)).bind ?_
    rintro h2 ⟨b2, l2⟩
    exact ((ih b2.top (l2 _ (l1 _ hc))).step b2 (fun _ _ h => h)).mono fun _ hx => by simpa using hx.1

/-- Cleaning: the solver given survives unchanged and no object is left. -/
theorem cleaning_runs {before after : List (BBPass σ)} (hb : Uniform before) (ha : Uniform after) (empty : σ)
    (read : σ → σ) (cleans : List ((σ → σ) × (σ → σ) × Bool)) (bad : Bool) {h : BMem σ} (hf : h.Fresh)
    {solver : ℕ} (hs : h.Live solver) :
    RunsTo (cleaningMem before empty read cleans bad after h solver) fun h' => Bal ∅ h h' 0 := by
  unfold cleaningMem
  refine (bbTests_runs hb hf hs).bind ?_
  intro h1 b1
  have b2 := b1.trans (new_bal b1.top empty ∅) (by simp)
  have l2 := new_live h1 empty
  have hle := b1.next
  refine ((use_runs b2.top l2 read).step b2 (M' := {h1.next}) (by
    intro a ha hm; simp only [Set.mem_singleton_iff] at hm; omega)).bind ?_
  rintro h3 ⟨b3, l3⟩
  refine ((cleans_runs h1.next cleans b3.top (l3 _ l2)).step b3 (by
    intro a ha hm; simp only [Set.mem_singleton_iff] at hm; omega)).bind ?_
  rintro h4 ⟨b4, l4⟩
  refine (orExit_runs h4 bad).bind ?_
  rintro h5 rfl
  refine ((bbTests_runs ha b4.top (l4 _ (l3 _ l2))).step b4 (by simp)).bind ?_
  rintro h6 ⟨b6, l6⟩
  exact (delete_runs (k := 0) (by simpa using b6) hle (l6 _ (l4 _ (l3 _ l2)))).mono fun _ hx => hx.1

/-! ## The main program -/

/-- The pointers of the main program: `n` is the heap before the program; all that are set are different and
exist. -/
structure PtrOk (n : ℕ) (gomory : ℤ) (p : MainPtrs) (h : BMem σ) : Prop where
  solver : ∃ a, p.solver = some a ∧ n ≤ a ∧ h.Live a
  orig : ∃ a, p.orig = some a ∧ n ≤ a ∧ h.Live a ∧ p.solver ≠ some a
  noGom : gomory = 0 → p.gmic = none ∧ p.vpc = none ∧ p.all = none
  gom : gomory ≠ 0 → ∃ g v a, p.gmic = some g ∧ p.vpc = some v ∧ p.all = some a ∧ n ≤ g ∧ n ≤ v ∧ n ≤ a ∧
    h.Live g ∧ h.Live v ∧ h.Live a ∧ p.solver ≠ some g ∧ p.solver ≠ some v ∧ p.solver ≠ some a ∧
    p.orig ≠ some g ∧ p.orig ≠ some v ∧ p.orig ≠ some a ∧ g ≠ v ∧ g ≠ a ∧ v ≠ a

theorem PtrOk.keep {n : ℕ} {gomory : ℤ} {p : MainPtrs} {h h' : BMem σ} (o : PtrOk n gomory p h)
    (hl : ∀ c, h.Live c → h'.Live c) : PtrOk n gomory p h' := by
  obtain ⟨a, h1, h2, h3⟩ := o.solver
  obtain ⟨b, g1, g2, g3, g4⟩ := o.orig
  refine ⟨⟨a, h1, h2, hl _ h3⟩, ⟨b, g1, g2, hl _ g3, g4⟩, o.noGom, fun hg => ?_⟩
  obtain ⟨g, v, a, x1, x2, x3, x4, x5, x6, x7, x8, x9, x⟩ := o.gom hg
  exact ⟨g, v, a, x1, x2, x3, x4, x5, x6, hl _ x7, hl _ x8, hl _ x9, x⟩

/-- The number of solvers the main program holds. -/
def mainHeld (gomory : ℤ) : ℕ := if gomory = 0 then 2 else 5

theorem mainSetup_runs (gomory : ℤ) (read : Option σ) (solve : σ → σ) (bad : Bool) {h : BMem σ}
    (hf : h.Fresh) :
    RunsTo (mainSetup gomory read solve bad h) fun r =>
      Bal ∅ h r.1 (mainHeld gomory) ∧ PtrOk h.next gomory r.2 r.1 := by
  unfold mainSetup
  cases read with
  | none => exact RunsTo.exit
  | some s =>
    have b1 := new_bal hf s ∅
    have l1 := new_live h s
    dsimp only
    refine ((use_runs b1.top l1 solve).step b1 (M' := {h.next}) (by
      intro a ha hm; simp only [Set.mem_singleton_iff] at hm; omega)).bind ?_
    rintro h2 ⟨b2, l2⟩
    have l2 := l2 _ l1
    refine (orExit_runs h2 bad).bind ?_
    rintro h3 rfl
    have hd : ∀ {k : ℕ} {g : BMem σ}, Bal ∅ h g k → g.Live h.next →
        RunsTo (dupPtr g (some h.next)) fun r => r.2 = some g.next ∧ Bal ∅ h r.1 (k + 1) ∧
          r.1.Live g.next ∧ h.next < g.next ∧ g.next < r.1.next ∧ ∀ c, g.Live c → r.1.Live c := by
      intro k g bg lg
      unfold dupPtr
      refine (dup_runs bg.top lg ∅).bind ?_
      rintro ⟨g1, c⟩ ⟨hc, c1, lc⟩
      dsimp only at hc c1 lc ⊢
      subst hc
      exact RunsTo.ok ⟨rfl, bg.trans c1 (by simp), lc, isLive_lt bg.top lg, isLive_lt c1.top lc,
        fun c hc => c1.live bg.top hc⟩
    refine (hd b2 l2).bind ?_
    rintro ⟨h4, o⟩ ⟨ho, b4, l4, n4, m4, k4⟩
    dsimp only at ho b4 l4 n4 m4 k4 ⊢
    subst ho
    unfold gomoryCopies
    split
    · rename_i hg
      refine (hd b4 (k4 _ l2)).bind ?_
      rintro ⟨h5, g⟩ ⟨hg', b5, l5, n5, m5, k5⟩
      dsimp only at hg' b5 l5 n5 m5 k5 ⊢
      subst hg'
      refine (hd b5 (k5 _ (k4 _ l2))).bind ?_
      rintro ⟨h6, v⟩ ⟨hv, b6, l6, n6, m6, k6⟩
      dsimp only at hv b6 l6 n6 m6 k6 ⊢
      subst hv
      refine (hd b6 (k6 _ (k5 _ (k4 _ l2)))).bind ?_
      rintro ⟨h7, a⟩ ⟨ha, b7, l7, n7, m7, k7⟩
      dsimp only at ha b7 l7 n7 m7 k7 ⊢
      subst ha
      refine RunsTo.ok ⟨by simpa [mainHeld, hg] using b7, ⟨_, rfl, le_rfl, k7 _ (k6 _ (k5 _ (k4 _ l2)))⟩,
        ⟨_, rfl, n4.le, k7 _ (k6 _ (k5 _ l4)), by simp; omega⟩, fun h0 => absurd h0 hg, fun _ =>
        ⟨_, _, _, rfl, rfl, rfl, n5.le, n6.le, n7.le, k7 _ (k6 _ l5), k7 _ l6, l7, ?_, ?_, ?_, ?_, ?_, ?_,
          ?_, ?_, ?_⟩⟩ <;> (try simp) <;> omega
    · rename_i hg
      refine RunsTo.ok ⟨by
        have : gomory = 0 := not_not.1 hg
        simpa [mainHeld, this] using b4, ⟨_, rfl, le_rfl, k4 _ l2⟩, ⟨_, rfl, n4.le, l4, by simp; omega⟩,
        fun _ => ⟨rfl, rfl, rfl⟩, fun h0 => absurd h0 hg⟩

/-- Solvers left behind by a round. -/
def roundLeaks (r : RoundMem σ) : ℕ := match r.gen with | none => 0 | some g => genLeaks g

theorem round_runs (gomory : ℤ) {p : MainPtrs} (r : RoundMem σ) {h h1 : BMem σ} {k : ℕ} (b : Bal ∅ h h1 k)
    (o : PtrOk h.next gomory p h1) :
    RunsTo (roundMem gomory p r h1) fun h' => Bal ∅ h h' (k + roundLeaks r) ∧ PtrOk h.next gomory p h' := by
  have hu : ∀ {k : ℕ} {g : BMem σ} {q : Option ℕ} (f : σ → σ), Bal ∅ h g k → PtrOk h.next gomory p g →
      (∃ a, q = some a ∧ h.next ≤ a ∧ g.Live a) →
      RunsTo (usePtr g q f) fun g' => Bal ∅ h g' k ∧ PtrOk h.next gomory p g' := by
    rintro k g _ f bg og ⟨a, rfl, ha, la⟩
    refine ((use_runs bg.top la f).step bg (M' := {a}) (by
      intro c hc hm; simp only [Set.mem_singleton_iff] at hm; omega)).mono ?_
    rintro g' ⟨b', l'⟩
    exact ⟨b', og.keep l'⟩
  have hg : ∀ {g : BMem σ}, PtrOk h.next gomory p g → gomory ≠ 0 →
      (∃ a, p.gmic = some a ∧ h.next ≤ a ∧ g.Live a) ∧ (∃ a, p.vpc = some a ∧ h.next ≤ a ∧ g.Live a) ∧
      (∃ a, p.all = some a ∧ h.next ≤ a ∧ g.Live a) := by
    intro g og h0
    obtain ⟨x, v, a, x1, x2, x3, x4, x5, x6, x7, x8, x9, -⟩ := og.gom h0
    exact ⟨⟨x, x1, x4, x7⟩, ⟨v, x2, x5, x8⟩, ⟨a, x3, x6, x9⟩⟩
  unfold roundMem
  have s1 : RunsTo (if gomory = -1 ∨ gomory = 1 then
      (usePtr h1 p.gmic r.gmic).bind fun h =>
      (if 0 < gomory then usePtr h p.solver r.gmic else .ok h).bind fun h => usePtr h p.all r.gmic
      else .ok h1) fun h' => Bal ∅ h h' k ∧ PtrOk h.next gomory p h' := by
    split
    · rename_i hc
      have h0 : gomory ≠ 0 := by rcases hc with h | h <;> omega
      refine (hu r.gmic b o (hg o h0).1).bind ?_
      rintro h2 ⟨b2, o2⟩
      have : RunsTo (if 0 < gomory then usePtr h2 p.solver r.gmic else .ok h2)
          fun h' => Bal ∅ h h' k ∧ PtrOk h.next gomory p h' := by
        split
        · exact hu r.gmic b2 o2 o2.solver
        · exact RunsTo.ok ⟨b2, o2⟩
      refine this.bind ?_
      rintro h3 ⟨b3, o3⟩
      exact hu r.gmic b3 o3 (hg o3 h0).2.2
    · exact RunsTo.ok ⟨b, o⟩
  refine s1.bind ?_
  rintro h2 ⟨b2, o2⟩
  have s2 : RunsTo (match r.gen with
      | none => Res.ok h2
      | some g => match p.solver with | none => Res.undef | some a => genMem g h2 a)
      fun h' => Bal ∅ h h' (k + roundLeaks r) ∧ PtrOk h.next gomory p h' := by
    cases hr : r.gen with
    | none => exact RunsTo.ok ⟨by simpa [roundLeaks, hr] using b2, o2⟩
    | some g =>
      obtain ⟨a, ha, hn, la⟩ := o2.solver
      simp only [ha]
      refine ((gen_runs g b2.top la).step b2 (by
        rintro c hc ⟨rfl, -⟩; omega)).mono ?_
      rintro h3 ⟨b3, l3⟩
      exact ⟨by simpa [roundLeaks, hr] using b3, o2.keep l3⟩
  refine s2.bind ?_
  rintro h3 ⟨b3, o3⟩
  split
  · rename_i h0
    refine (hu r.apply b3 o3 (hg o3 h0).2.1).bind ?_
    rintro h4 ⟨b4, o4⟩
    refine (hu r.apply b4 o4 o4.solver).bind ?_
    rintro h5 ⟨b5, o5⟩
    exact hu r.apply b5 o5 (hg o5 h0).2.2
  · exact hu r.apply b3 o3 o3.solver

theorem rounds_runs (gomory : ℤ) {p : MainPtrs} (rs : List (RoundMem σ)) : ∀ {h h1 : BMem σ} {k : ℕ},
    Bal ∅ h h1 k → PtrOk h.next gomory p h1 →
    RunsTo (roundsMem gomory p rs h1) fun h' => Bal ∅ h h' (k + (rs.map roundLeaks).sum) ∧
      PtrOk h.next gomory p h' := by
  induction rs with
  | nil => intro h h1 k b o; exact RunsTo.ok ⟨by simpa using b, o⟩
  | cons r rs ih =>
    intro h h1 k b o
    refine (round_runs gomory r b o).bind ?_
    rintro h2 ⟨b2, o2⟩
    refine (ih b2 o2).mono ?_
    rintro h3 ⟨b3, o3⟩
    exact ⟨by simpa [Nat.add_assoc] using b3, o3⟩

/-- Deleting the pointers at the end: all that the program holds. -/
theorem wrap_runs {gomory : ℤ} {p : MainPtrs} {h h1 : BMem σ} {k : ℕ} (b : Bal ∅ h h1 (k + mainHeld gomory))
    (o : PtrOk h.next gomory p h1) : RunsTo (wrapMem p h1) fun h' => Bal ∅ h h' k := by
  obtain ⟨a, ha, na, la⟩ := o.solver
  obtain ⟨c, hc, nc, lc, hac⟩ := o.orig
  unfold wrapMem
  rw [ha] at hac
  have hac : c ≠ a := fun h => hac (by rw [h])
  rw [ha, hc]
  by_cases h0 : gomory = 0
  · obtain ⟨g1, g2, g3⟩ := o.noGom h0
    rw [g1, g2, g3]
    have b' : Bal ∅ h h1 (k + 1 + 1) := by simpa [mainHeld, h0, Nat.add_assoc] using b
    refine (delete_runs b' na la).bind ?_
    rintro h2 ⟨b2, l2⟩
    refine (delete_runs b2 nc (l2 _ hac lc)).bind ?_
    rintro h3 ⟨b3, -⟩
    exact RunsTo.ok b3
  · obtain ⟨g, v, w, x1, x2, x3, x4, x5, x6, x7, x8, x9, y1, y2, y3, y4, y5, y6, y7, y8, y9⟩ := o.gom h0
    rw [x1, x2, x3]
    rw [ha] at y1 y2 y3
    rw [hc] at y4 y5 y6
    simp only [ne_eq, Option.some.injEq] at y1 y2 y3 y4 y5 y6
    have b' : Bal ∅ h h1 (k + 1 + 1 + 1 + 1 + 1) := by simpa [mainHeld, h0, Nat.add_assoc] using b
    refine (delete_runs b' na la).bind ?_
    rintro h2 ⟨b2, l2⟩
    refine (delete_runs b2 nc (l2 _ hac lc)).bind ?_
    rintro h3 ⟨b3, l3⟩
    refine (delete_runs b3 x4 (l3 _ (Ne.symm y4) (l2 _ (Ne.symm y1) x7))).bind ?_
    rintro h4 ⟨b4, l4⟩
    refine (delete_runs b4 x5 (l4 _ (Ne.symm y7) (l3 _ (Ne.symm y5) (l2 _ (Ne.symm y2) x8)))).bind ?_
    rintro h5 ⟨b5, l5⟩
    exact (delete_runs b5 x6 (l5 _ (Ne.symm y9) (l4 _ (Ne.symm y8) (l3 _ (Ne.symm y6)
      (l2 _ (Ne.symm y3) x9))))).mono fun _ hx => hx.1

/-- Solvers left behind by the work of the main program. -/
def workLeaks : MainMem σ → ℕ
  | .cuts rs _ => (rs.map roundLeaks).sum
  | _ => 0

/-- All branch-and-bound tests of the program permute in all runs or in none. -/
def MainMem.Uniform : MainMem σ → Prop
  | .stop => True
  | .clean b _ _ _ _ a => VPC.Uniform b ∧ VPC.Uniform a
  | .cuts _ ts => VPC.Uniform ts

/-- The main program: no solver is used after it is deleted or deleted twice, nothing that existed before is
touched, and if it returns exactly the solvers left behind by partial trees still exist. -/
theorem main_runs (started : Bool) (gomory : ℤ) (read : Option σ) (solve : σ → σ) (bad : Bool)
    {m : MainMem σ} (hm : m.Uniform) {h : BMem σ} (hf : h.Fresh) :
    RunsTo (mainMem started gomory read solve bad m h)
      fun h' => Bal ∅ h h' (if started then workLeaks m else 0) := by
  unfold mainMem
  cases started with
  | false => exact RunsTo.ok (Bal.refl hf ∅)
  | true =>
    simp only [Bool.not_true, Bool.false_eq_true, if_false, if_true]
    refine (mainSetup_runs gomory read solve bad hf).bind ?_
    rintro ⟨h1, p⟩ ⟨b1, o1⟩
    dsimp only at b1 o1 ⊢
    have hw : RunsTo (workMem gomory p h1 m) fun h' => Bal ∅ h h' (workLeaks m + mainHeld gomory) ∧
        PtrOk h.next gomory p h' := by
      cases m with
      | stop => exact RunsTo.ok ⟨by simpa [workLeaks] using b1, o1⟩
      | clean b e r cs bd a =>
        obtain ⟨s, hs, -, ls⟩ := o1.solver
        simp only [workMem, hs]
        refine ((cleaning_runs hm.1 hm.2 e r cs bd b1.top ls).step b1 (by simp)).mono ?_
        rintro h2 ⟨b2, l2⟩
        exact ⟨by simpa [workLeaks] using b2, o1.keep l2⟩
      | cuts rs ts =>
        refine (rounds_runs gomory rs b1 o1).bind ?_
        rintro h2 ⟨b2, o2⟩
        obtain ⟨s, hs, -, ls, -⟩ := o2.orig
        simp only [hs]
        refine ((bbTests_runs hm b2.top ls).step b2 (by simp)).mono ?_
        rintro h3 ⟨b3, l3⟩
        exact ⟨by simpa [workLeaks, Nat.add_comm] using b3, o2.keep l3⟩
    refine hw.bind ?_
    rintro h2 ⟨b2, o2⟩
    exact wrap_runs b2 o2

/-! ## The property -/

/-- Nothing left and nothing changed: every object is as before. -/
theorem Bal.eq {h h' : BMem σ} (hf : h.Fresh) (b : Bal ∅ h h' 0) : ∀ a, h'.mem a = h.mem a := by
  intro a
  by_cases ha : a < h.next
  · exact b.same a ha (by simp)
  · rw [hf a (not_lt.1 ha)]
    by_cases hb : a < h'.next
    · have := b.left
      unfold liveFrom at this
      rw [Finset.card_eq_zero, Finset.filter_eq_empty_iff] at this
      have := this (Finset.mem_Ico.2 ⟨not_lt.1 ha, hb⟩)
      simpa using this
    · exact b.top a (not_lt.1 hb)

/-- No partial tree of the call keeps pruned nodes. -/
def GenMem.noKeep (g : GenMem σ) : Prop := ∀ t, PrepMem.tree t ∈ g.preps → t.keep = false

theorem genLeaks_noKeep {g : GenMem σ} (hk : g.noKeep) : genLeaks g = 0 := by
  unfold genLeaks
  apply List.sum_eq_zero
  intro x hx
  obtain ⟨p, hp, rfl⟩ := List.mem_map.1 hx
  cases p with
  | tree t =>
    have := hk t hp
    simp only [prepLeaks, treeLeaks]
    split
    · rfl
    · rw [this, noSaveLeaks]
  | split s => rfl
  | splits a b c => rfl

/-- **C139**, generator: whatever the solvers compute and on whatever path the call ends, no solver is used
after its deletion or deleted twice; if the call returns, and pruned nodes are not kept and the problem is a
minimization, then the objects that exist are exactly those that existed before, all unchanged (the solver of
the caller among them). Missing: the two excluded cases, in which the claim is false
(`gen_leaves_solvers`, `gen_changes_solver`). -/
theorem gen_copies_freed_partial (g : GenMem σ) (h : BMem σ) (hf : h.Fresh) (si : ℕ) (hs : h.Live si)
    (hk : g.noKeep) (hm : g.flip = none) :
    genMem g h si ≠ .undef ∧ ∀ h', genMem g h si = .ok h' → ∀ a, h'.mem a = h.mem a := by
  have r := gen_runs g hf hs
  refine ⟨r.1, fun h' he => ?_⟩
  have b := r.2 h' he
  have : flipped g si = ∅ := by
    ext a; simp [flipped, hm]
  rw [this, genLeaks_noKeep hk] at b
  exact b.eq hf

/-- **C139**, generator, all cases: no undefined behaviour; every object that existed before still exists,
every one but the solver of the caller is unchanged, and the number of new objects left behind is the number of
open nodes of the partial trees that keep pruned nodes. -/
theorem gen_copies_count (g : GenMem σ) (h : BMem σ) (hf : h.Fresh) (si : ℕ) (hs : h.Live si) :
    genMem g h si ≠ .undef ∧ ∀ h', genMem g h si = .ok h' →
      (∀ a, h.Live a → h'.Live a ∧ (a ≠ si → h'.mem a = h.mem a)) ∧ liveFrom h' h.next = genLeaks g := by
  have r := gen_runs g hf hs
  refine ⟨r.1, fun h' he => ?_⟩
  have b := r.2 h' he
  exact ⟨fun a ha => ⟨b.live hf ha, fun hn => b.same a (isLive_lt hf ha) (fun hm => hn hm.1)⟩, b.left⟩

/-- A heap with one solver; solvers hold a list of numbers here. -/
def oneSolver : BMem (List ℕ) := BMem.new ⟨fun _ => none, 0⟩ [7]

theorem oneSolver_fresh : oneSolver.Fresh := by
  intro a ha
  simp only [oneSolver, BMem.new] at ha ⊢
  rw [Function.update_of_ne (by omega)]

theorem oneSolver_live : oneSolver.Live 0 := by simp [oneSolver, BMem.new, BMem.Live]

/-- A call with a partial tree (two open nodes with two children each), then the point-ray LP for it. -/
def demoTree (keep : Bool) : TreeMem (List ℕ) where
  terms := 4
  keep := keep
  setup := fun s => 1 :: s
  steps := [.work (2 :: ·), .probe (3 :: ·) false, .replace (4 :: ·),
    .save [⟨false, (5 :: ·), false, [((6 :: ·), false), ((8 :: ·), false)]⟩,
      ⟨false, (9 :: ·), false, [((6 :: ·), false)]⟩]]

/-- The call of the generator with it. -/
def demoGenMem (keep : Bool) (flip : Option (List ℕ → List ℕ)) : GenMem (List ℕ) where
  flip := flip
  preps := [.tree (demoTree keep)]
  root := fun s => 10 :: s
  disjs := [⟨false, (11 :: ·), [⟨true, (12 :: ·), false⟩, ⟨false, (13 :: ·), false⟩], true, (14 :: ·),
    .on (15 :: ·) false, false⟩]

/-- What the call leaves: does it return, the caller's solver, and how many new objects exist. -/
def leftBy (r : Res (BMem (List ℕ))) : Option (Option (List ℕ) × ℕ) :=
  match r with
  | .ok h => some (h.mem 0, liveFrom h 1)
  | _ => none

/-- The hypotheses of `gen_copies_freed_partial` are met by a call that makes and frees seven copies. -/
example : oneSolver.Fresh ∧ oneSolver.Live 0 ∧ (demoGenMem false none).noKeep ∧
    (demoGenMem false none).flip = none ∧
    leftBy (genMem (demoGenMem false none) oneSolver 0) = some (some [7], 0) := by
  refine ⟨oneSolver_fresh, oneSolver_live, ?_, rfl, by decide +kernel⟩
  intro t ht
  simp [demoGenMem] at ht
  subst ht
  rfl

/-- **C139** is false when pruned nodes are kept: the two solvers of the open nodes are still there after the
call. -/
theorem gen_leaves_solvers : leftBy (genMem (demoGenMem true none) oneSolver 0) = some (some [7], 2) := by
  decide +kernel

/-- **C139** is false for maximization problems: the solver given as `const` is changed. -/
theorem gen_changes_solver : leftBy (genMem (demoGenMem false (some (0 :: ·))) oneSolver 0) =
    some (some [0, 7], 0) := by
  decide +kernel

/-- No call of the generator in the program keeps pruned nodes. -/
def MainMem.noKeep : MainMem σ → Prop
  | .cuts rs _ => ∀ r ∈ rs, ∀ g ∈ r.gen, g.noKeep
  | _ => True

/-- **C139**, main program: on every path to `return`, whatever the solvers compute, no solver is used after its
deletion or deleted twice, and if pruned nodes are not kept no solver is left. (Ends by `exit(1)` and signals are
not returns.) Missing: with pruned nodes kept, see `main_leaves_solvers`. -/
theorem main_copies_freed_partial (started : Bool) (gomory : ℤ) (read : Option σ) (solve : σ → σ) (bad : Bool)
    (m : MainMem σ) (hm : m.Uniform) (hk : m.noKeep) :
    mainMem started gomory read solve bad m ⟨fun _ => none, 0⟩ ≠ .undef ∧
    ∀ h', mainMem started gomory read solve bad m ⟨fun _ => none, 0⟩ = .ok h' → ∀ a, h'.mem a = none := by
  have hf : BMem.Fresh (⟨fun _ => none, 0⟩ : BMem σ) := fun _ _ => rfl
  have r := main_runs started gomory read solve bad hm hf
  refine ⟨r.1, fun h' he => ?_⟩
  have b := r.2 h' he
  have : (if started then workLeaks m else 0) = 0 := by
    split
    · cases m with
      | stop => rfl
      | clean => rfl
      | cuts rs ts =>
        apply List.sum_eq_zero
        intro x hx
        obtain ⟨r, hr, rfl⟩ := List.mem_map.1 hx
        unfold roundLeaks
        cases hg : r.gen with
        | none => rfl
        | some g => exact genLeaks_noKeep (hk r hr g (by simp [hg]))
    · rfl
  rw [this] at b
  exact b.eq hf

/-- A run of the program: two rounds with Gomory cuts, then two permuted runs of branch and bound, with and
without cuts. -/
def demoMemMain (keep : Bool) : MainMem (List ℕ) :=
  .cuts [⟨(20 :: ·), some (demoGenMem keep none), (21 :: ·)⟩, ⟨(20 :: ·), none, (21 :: ·)⟩]
    [⟨some [30], [⟨(31 :: ·), none, [.work (32 :: ·)], false⟩,
      ⟨(31 :: ·), some (33 :: ·), [.replace (32 :: ·)], false⟩]⟩,
     ⟨some [34], [⟨(31 :: ·), none, [], false⟩]⟩]

/-- The solvers left after a run of the program. -/
def leftByMain (r : Res (BMem (List ℕ))) : Option ℕ :=
  match r with
  | .ok h => some (liveFrom h 0)
  | _ => none

/-- The hypotheses of `main_copies_freed_partial` are met by a run that returns. -/
example : (demoMemMain false).Uniform ∧ (demoMemMain false).noKeep ∧
    leftByMain (mainMem true (-1) (some [7]) (8 :: ·) false (demoMemMain false) ⟨fun _ => none, 0⟩) = some 0 := by
  refine ⟨⟨true, by simp⟩, ?_, by decide +kernel⟩
  intro r hr g hg t ht
  simp [demoMemMain] at hr
  rcases hr with rfl | rfl
  · simp at hg
    subst hg
    simp [demoGenMem] at ht
    subst ht
    rfl
  · simp at hg

/-- With pruned nodes kept, solvers are left when the program returns. -/
theorem main_leaves_solvers :
    leftByMain (mainMem true (-1) (some [7]) (8 :: ·) false (demoMemMain true) ⟨fun _ => none, 0⟩) = some 2 := by
  decide +kernel

/-- The number left in general: for every open node saved with pruned nodes kept, one solver. -/
theorem main_leaves_count (gomory : ℤ) (read : Option σ) (solve : σ → σ) (bad : Bool)
    (m : MainMem σ) (hm : m.Uniform) (h' : BMem σ)
    (he : mainMem true gomory read solve bad m ⟨fun _ => none, 0⟩ = .ok h') :
    liveFrom h' 0 = workLeaks m := by
  have hf : BMem.Fresh (⟨fun _ => none, 0⟩ : BMem σ) := fun _ _ => rfl
  exact ((main_runs true gomory read solve bad hm hf).2 h' he).left

/-- Branch-and-bound tests on a solver (C139): the solver of the caller and all other objects are unchanged
and no copy is left. -/
theorem bb_copies_freed (solver : ℕ) (ps : List (BBPass σ)) (hu : Uniform ps) (h : BMem σ) (hf : h.Fresh)
    (hs : h.Live solver) :
    bbPassesMem solver ps h none ≠ .undef ∧
    ∀ h', bbPassesMem solver ps h none = .ok h' → ∀ a, h'.mem a = h.mem a := by
  have r := bbTests_runs hu hf hs
  exact ⟨r.1, fun h' he => (r.2 h' he).eq hf⟩

/-- Passes of both kinds would use a deleted solver: that all runs of a call are of one kind matters. -/
theorem bb_mixed_undef :
    bbPassesMem 0 [⟨some [1], []⟩, ⟨none, [⟨id, none, [], false⟩]⟩] oneSolver none = .undef := by
  rfl

example : Uniform [(⟨some [1], [⟨id, none, [], false⟩]⟩ : BBPass (List ℕ)), ⟨some [2], []⟩] ∧
    leftBy (bbPassesMem 0 [⟨some [1], [⟨id, none, [], false⟩]⟩, ⟨some [2], []⟩] oneSolver none)
      = some (some [7], 0) :=
  ⟨⟨true, by simp⟩, by decide +kernel⟩

/-- Cbc on the file: nothing is left. -/
theorem cbcFile_copies_freed (file : Option σ) (cuts : Option (σ → σ)) (steps : List (SearchStep σ)) (bad : Bool)
    (h : BMem σ) (hf : h.Fresh) :
    cbcFileMem file cuts steps bad h ≠ .undef ∧
    ∀ h', cbcFileMem file cuts steps bad h = .ok h' → ∀ a, h'.mem a = h.mem a := by
  have r := cbcFile_runs file cuts steps bad hf
  exact ⟨r.1, fun h' he => (r.2 h' he).eq hf⟩

example : leftBy (cbcFileMem (some [1]) none [.replace (2 :: ·)] false oneSolver) = some (some [7], 0) := by
  decide +kernel

/-- Cleaning: as before the call. -/
theorem cleaning_copies_freed (before after : List (BBPass σ)) (hb : Uniform before) (ha : Uniform after)
    (empty : σ) (read : σ → σ) (cleans : List ((σ → σ) × (σ → σ) × Bool)) (bad : Bool) (h : BMem σ)
    (hf : h.Fresh) (solver : ℕ) (hs : h.Live solver) :
    cleaningMem before empty read cleans bad after h solver ≠ .undef ∧
    ∀ h', cleaningMem before empty read cleans bad after h solver = .ok h' → ∀ a, h'.mem a = h.mem a := by
  have r := cleaning_runs hb ha empty read cleans bad hf hs
  exact ⟨r.1, fun h' he => (r.2 h' he).eq hf⟩

example : leftBy (cleaningMem [⟨none, [⟨id, none, [], false⟩]⟩] [] (1 :: ·)
    [((2 :: ·), (3 :: ·), false), ((2 :: ·), (3 :: ·), false)] false [⟨none, [⟨id, none, [], false⟩]⟩]
    oneSolver 0) = some (some [7], 0) := by
  decide +kernel

end VPC
