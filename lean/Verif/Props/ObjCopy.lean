import Verif.Model.ObjCopy
import Mathlib.Tactic.Linarith
import Mathlib.Data.List.Forall2
import Mathlib.Tactic.FinCases

/-!
# Disjunctions and sets of disjunctions behave as values (C126)

The specification `VWorld` has no pointers: a disjunction is a record, a set is a list of records, a copy is
the same record. Every program that is not in error runs in the model without undefined behaviour and shows
the same records.
-/
namespace VPC

variable {β π : Type}

/-! ## Specification -/

/-- A term as a value: its basis is the content. -/
structure TermV (β : Type) where
  data : Term
  basis : Option β
deriving DecidableEq, Repr

/-- A disjunction as a value. -/
structure DisjV (β π : Type) where
  head : Disj
  name : List Char
  params : π
  timer : Option ℕ
  extra : Extra
  terms : List (TermV β)
deriving DecidableEq, Repr

/-- A set of disjunctions as a value. -/
structure SetV (β π : Type) where
  members : List (DisjV β π)
  sums : DSet

/-- The objects of a program, by slot. -/
structure ValWorld (β π : Type) where
  disj : ℕ → Option (DisjV β π)
  sets : ℕ → Option (SetV β π)

/-- No object yet. -/
def ValWorld.init : ValWorld β π := ⟨fun _ => none, fun _ => none⟩

/-- Store a disjunction. -/
def ValWorld.put (s : ValWorld β π) (i : ℕ) (d : DisjV β π) : ValWorld β π :=
  { s with disj := Function.update s.disj i (some d) }

/-- Store a set. -/
def ValWorld.putSet (s : ValWorld β π) (k : ℕ) (x : SetV β π) : ValWorld β π :=
  { s with sets := Function.update s.sets k (some x) }

/-- What an operation means for values; `none` is an error of the program (an object that does not exist, a
slot in use, assignment between different classes). -/
def ValWorld.step (s : ValWorld β π) : OOp β π → Option (ValWorld β π)
  | .new i tree p =>
    if (s.disj i).isSome then none
    else some (s.put i ⟨Disj.new, [], p, none, if tree then .tree {} {} else .split (-1), []⟩)
  | .copy i j p => (s.disj j).bind fun v =>
    if (s.disj i).isSome then none else some (s.put i { v with params := p.getD v.params })
  | .assign i j => (s.disj j).bind fun v => (s.disj i).bind fun o =>
    if i = j then some s else if o.extra.isTree = v.extra.isTree then some (s.put i v) else none
  | .addTerm i t b _ => (s.disj i).bind fun v =>
    some (s.put i { v with terms := v.terms ++ [⟨t, b⟩]
                           head := { v.head with numTerms := v.head.numTerms + 1 } })
  | .write i head name p timer => (s.disj i).bind fun v =>
    some (s.put i { v with head := { head with terms := [] }, name := name, params := p, timer := timer })
  | .writeExtra i e => (s.disj i).bind fun v =>
    if v.extra.isTree = e.isTree then some (s.put i { v with extra := e }) else none
  | .writeRounds i _ => (s.disj i).bind fun _ => some s
  | .reset i => (s.disj i).bind fun v =>
    some (s.put i { v with head := Disj.new, name := [], terms := []
                           extra := match v.extra with | .tree _ _ => .tree {} {} | .split x => .split x })
  | .destroy i => (s.disj i).bind fun _ => some { s with disj := Function.update s.disj i none }
  | .newSet k => if (s.sets k).isSome then none else some (s.putSet k ⟨[], DSet.new⟩)
  | .copySet k l => (s.sets l).bind fun x => if (s.sets k).isSome then none else some (s.putSet k x)
  | .assignSet k l => (s.sets l).bind fun x => (s.sets k).bind fun _ => some (s.putSet k x)
  | .add k i => (s.sets k).bind fun x => (s.disj i).bind fun v =>
    match x.sums.updateObj { v.head with id := x.members.length } (-1) with
    | .ok sums => some (s.putSet k
        ⟨x.members ++ [{ v with head := { v.head with id := x.members.length } }], sums⟩)
    | _ => none
  | .resetSet k => (s.sets k).bind fun _ => some (s.putSet k ⟨[], DSet.new⟩)
  | .destroySet k => (s.sets k).bind fun _ => some { s with sets := Function.update s.sets k none }

/-- A program on values. -/
def ValWorld.run (s : ValWorld β π) : List (OOp β π) → Option (ValWorld β π)
  | [] => some s
  | op :: ops => (s.step op).bind fun s => s.run ops

/-- A term in memory shows a value: same data, and the basis points to an allocated object with the content
(or there is none). -/
def TShow (h : BMem β) (t : TermM) (v : TermV β) : Prop :=
  t.data = v.data ∧ t.basis.map h.mem = v.basis.map some

/-- A disjunction in memory shows a value. -/
structure DShow (h : BMem β) (d : DisjM π) (v : DisjV β π) : Prop where
  head : d.head = v.head
  name : d.name = v.name
  params : d.params = v.params
  timer : d.timer = v.timer
  extra : d.extra = v.extra
  terms : List.Forall₂ (TShow h) d.terms v.terms

/-- A set in memory shows a value. -/
structure SShow (w : OWorld β π) (s : SetM) (x : SetV β π) : Prop where
  sums : s.sums = x.sums
  members : List.Forall₂ (fun p v => ∃ d, w.obj (.inr p) = some d ∧ DShow w.bases d v) s.members x.members

/-- The state shows the values: the same slots are in use, with the same contents. -/
structure Shows (w : OWorld β π) (s : ValWorld β π) : Prop where
  disj : ∀ i, Option.Rel (DShow w.bases) (w.obj (.inl i)) (s.disj i)
  sets : ∀ k, Option.Rel (SShow w) (w.sets k) (s.sets k)

/-- The bases a disjunction owns. -/
def addrs (ts : List TermM) : List ℕ := ts.filterMap (·.basis)

/-! ## Footprints -/

/-- Going from `h` to `h'` uses up the addresses `old` and yields `new`. -/
structure Foot (h h' : BMem β) (old new : List ℕ) : Prop where
  le : h.next ≤ h'.next
  keep : ∀ a, a < h.next → a ∉ old → h'.mem a = h.mem a
  live : ∀ a, h'.mem a ≠ none → a ∈ new ∨ (a < h.next ∧ a ∉ old)
  fresh : ∀ a ∈ new, (h.next ≤ a ∧ a < h'.next) ∨ a ∈ old
  nodup : new.Nodup

/-- Nothing is allocated beyond the next free address. -/
def BMem.Ok (h : BMem β) : Prop := ∀ a, h.next ≤ a → h.mem a = none

theorem Foot.refl {h : BMem β} (hk : h.Ok) : Foot h h [] [] where
  le := le_rfl
  keep := fun _ _ _ => rfl
  live := fun a ha => Or.inr ⟨by by_contra hn; exact ha (hk a (by omega)), by simp⟩
  fresh := by simp
  nodup := by simp

theorem Foot.ok {h h' : BMem β} {old new : List ℕ} (f : Foot h h' old new) (ho : ∀ a ∈ old, a < h.next) :
    h'.Ok := by
  intro a ha
  by_contra hn
  have := f.le
  rcases f.live a hn with hm | ⟨hm, _⟩
  · rcases f.fresh a hm with h1 | h1
    · omega
    · have := ho a h1; omega
  · omega

/-- Two steps on different resources. -/
theorem Foot.append {h h1 h2 : BMem β} {o1 n1 o2 n2 : List ℕ} (f : Foot h h1 o1 n1) (g : Foot h1 h2 o2 n2)
    (hd : ∀ a ∈ o1, a ∉ o2) (ho1 : ∀ a ∈ o1, a < h.next) (ho2 : ∀ a ∈ o2, a < h.next) :
    Foot h h2 (o1 ++ o2) (n1 ++ n2) := by
  have hle := f.le
  have gle := g.le
  have hn1 : ∀ a ∈ n1, a < h1.next ∧ a ∉ o2 := by
    intro a ha
    rcases f.fresh a ha with h' | h'
    · exact ⟨h'.2, fun hc => by have := ho2 a hc; omega⟩
    · exact ⟨by have := ho1 a h'; omega, hd a h'⟩
  refine ⟨by omega, fun a ha hn => ?_, fun a ha => ?_, fun a ha => ?_, ?_⟩
  · simp only [List.mem_append, not_or] at hn
    rw [g.keep a (by omega) hn.2, f.keep a ha hn.1]
  · simp only [List.mem_append, not_or]
    rcases g.live a ha with hm | ⟨h3, h4⟩
    · exact Or.inl (Or.inr hm)
    · rw [g.keep a h3 h4] at ha
      rcases f.live a ha with hm | ⟨h5, h6⟩
      · exact Or.inl (Or.inl hm)
      · exact Or.inr ⟨h5, h6, h4⟩
  · simp only [List.mem_append] at ha ⊢
    rcases ha with ha | ha
    · rcases f.fresh a ha with h' | h'
      · exact Or.inl ⟨h'.1, by omega⟩
      · exact Or.inr (Or.inl h')
    · rcases g.fresh a ha with h' | h'
      · exact Or.inl ⟨by omega, h'.2⟩
      · exact Or.inr (Or.inr h')
  · rw [List.nodup_append]
    refine ⟨f.nodup, g.nodup, fun a ha b hb hab => ?_⟩
    subst hab
    rcases g.fresh a hb with h' | h'
    · have := (hn1 a ha).1; omega
    · exact (hn1 a ha).2 h'

/-- A second step that uses up part of what the first one yielded. -/
theorem Foot.trans {h h1 h2 : BMem β} {o n m k : List ℕ} (f : Foot h h1 o (n ++ m)) (g : Foot h1 h2 m k)
    (ho : ∀ a ∈ o, a < h.next) : Foot h h2 o (n ++ k) := by
  have hle := f.le
  have gle := g.le
  have hlt : ∀ a ∈ n ++ m, a < h1.next := by
    intro a ha
    rcases f.fresh a ha with h' | h'
    · exact h'.2
    · have := ho a h'; omega
  have hdis := List.nodup_append.mp f.nodup
  refine ⟨by omega, fun a ha hn => ?_, fun a ha => ?_, fun a ha => ?_, ?_⟩
  · have : a ∉ m := by
      intro hm
      rcases f.fresh a (by simp [hm]) with h' | h'
      · omega
      · exact hn h'
    rw [g.keep a (by omega) this, f.keep a ha hn]
  · rcases g.live a ha with hm | ⟨h3, h4⟩
    · exact Or.inl (by simp [hm])
    · rw [g.keep a h3 h4] at ha
      rcases f.live a ha with hm | h5
      · simp only [List.mem_append] at hm
        exact Or.inl (by simp [hm.resolve_right h4])
      · exact Or.inr h5
  · simp only [List.mem_append] at ha
    rcases ha with ha | ha
    · rcases f.fresh a (by simp [ha]) with h' | h'
      · exact Or.inl ⟨h'.1, by omega⟩
      · exact Or.inr h'
    · rcases g.fresh a ha with h' | h'
      · exact Or.inl ⟨by omega, h'.2⟩
      · rcases f.fresh a (by simp [h']) with h'' | h''
        · exact Or.inl ⟨h''.1, by omega⟩
        · exact Or.inr h''
  · rw [List.nodup_append]
    refine ⟨hdis.1, g.nodup, fun a ha b hb hab => ?_⟩
    subst hab
    rcases g.fresh a hb with h' | h'
    · have := hlt a (by simp [ha]); omega
    · exact hdis.2.2 a ha a h' rfl

/-! ## Terms -/

theorem tshow_mono {h h' : BMem β} {t : TermM} {v : TermV β} (ht : TShow h t v)
    (hk : ∀ a ∈ t.basis, h'.mem a = h.mem a) : TShow h' t v := by
  refine ⟨ht.1, ?_⟩
  rw [← ht.2]
  cases hb : t.basis with
  | none => rfl
  | some a => simp [hk a (by simp [hb])]

theorem mem_addrs {ts : List TermM} {a : ℕ} : a ∈ addrs ts ↔ ∃ t ∈ ts, t.basis = some a := by
  simp [addrs, List.mem_filterMap]

theorem tshows_mono {h h' : BMem β} {ts : List TermM} {vs : List (TermV β)}
    (ht : List.Forall₂ (TShow h) ts vs) (hk : ∀ a ∈ addrs ts, h'.mem a = h.mem a) :
    List.Forall₂ (TShow h') ts vs := by
  induction ht with
  | nil => exact .nil
  | @cons t v ts vs hx _ ih =>
    refine .cons (tshow_mono hx fun a ha => hk a ?_) (ih fun a ha => hk a ?_)
    · exact mem_addrs.mpr ⟨t, by simp, by simpa using ha⟩
    · obtain ⟨t, htm, hb⟩ := mem_addrs.mp ha
      exact mem_addrs.mpr ⟨t, by simp [htm], hb⟩

theorem tshow_live {h : BMem β} {t : TermM} {v : TermV β} (ht : TShow h t v) {a : ℕ} (ha : t.basis = some a) :
    ∃ b, h.mem a = some b ∧ v.basis = some b := by
  have := ht.2
  rw [ha] at this
  cases hv : v.basis with
  | none => rw [hv] at this; simp at this
  | some b => rw [hv] at this; simp at this; exact ⟨b, this, rfl⟩

theorem tshows_live {h : BMem β} {ts : List TermM} {vs : List (TermV β)}
    (ht : List.Forall₂ (TShow h) ts vs) : ∀ a ∈ addrs ts, h.mem a ≠ none := by
  induction ht with
  | nil => simp [addrs]
  | cons hx _ ih =>
    intro a ha
    obtain ⟨t, htm, hb⟩ := mem_addrs.mp ha
    simp only [List.mem_cons] at htm
    rcases htm with rfl | htm
    · obtain ⟨b, h1, _⟩ := tshow_live hx hb; simp [h1]
    · exact ih a (mem_addrs.mpr ⟨t, htm, hb⟩)

theorem delete_foot {h : BMem β} (hk : h.Ok) (p : Option ℕ) (hl : ∀ a ∈ p, h.mem a ≠ none) :
    ∃ h', h.delete p = .ok h' ∧ Foot h h' p.toList [] := by
  cases p with
  | none => exact ⟨h, rfl, Foot.refl hk⟩
  | some a =>
    have hla := hl a rfl
    cases hm : h.mem a with
    | none => exact absurd hm hla
    | some b =>
      refine ⟨{ h with mem := Function.update h.mem a none }, by simp only [BMem.delete, hm], ⟨le_rfl, fun c hc hn => ?_, fun c hc => ?_, by simp, by simp⟩⟩
      · simp only [Option.toList_some, List.mem_singleton] at hn
        simp [Function.update_of_ne hn]
      · right
        by_cases hca : c = a
        · subst hca; simp at hc
        · dsimp only at hc; rw [Function.update_of_ne hca] at hc
          refine ⟨?_, by simpa using hca⟩
          by_contra hlt
          exact hc (hk c (by simpa using hlt))

theorem new_foot {h : BMem β} (hk : h.Ok) (b : β) : Foot h (h.new b) [] [h.next] where
  le := by simp [BMem.new]
  keep := fun a ha _ => by simp [BMem.new, Function.update_of_ne (show a ≠ h.next by omega)]
  live := fun a ha => by
    by_cases hca : a = h.next
    · left; simp [hca]
    · right
      simp only [BMem.new, Function.update_of_ne hca] at ha
      exact ⟨by by_contra hn; exact ha (hk a (by omega)), by simp⟩
  fresh := by intro a ha; simp only [List.mem_singleton] at ha; subst ha; left; simp [BMem.new]
  nodup := by simp

theorem clone_foot {h : BMem β} (hk : h.Ok) (p : Option ℕ) (hl : ∀ a ∈ p, h.mem a ≠ none) :
    ∃ r, h.clone p = .ok r ∧ Foot h r.1 [] r.2.toList ∧ r.2.map r.1.mem = p.map h.mem := by
  cases p with
  | none => exact ⟨(h, none), rfl, Foot.refl hk, rfl⟩
  | some a =>
    have hla := hl a rfl
    cases hm : h.mem a with
    | none => exact absurd hm hla
    | some b =>
      refine ⟨_, by simp only [BMem.clone, hm]; rfl, new_foot hk b, ?_⟩
      simp [BMem.new, hm]

theorem blank_basis : TermM.blank.basis = none := rfl

theorem init_foot {h : BMem β} (hk : h.Ok) {t s : TermM} {v : TermV β} (hl : ∀ a ∈ t.basis, h.mem a ≠ none)
    (hs : TShow h s v) (hd : ∀ a ∈ t.basis, a ∉ s.basis) :
    ∃ r, t.init h s = .ok r ∧ TShow r.1 r.2 v ∧ Foot h r.1 t.basis.toList r.2.basis.toList := by
  obtain ⟨h1, e1, f1⟩ := delete_foot hk t.basis hl
  have hto : ∀ a ∈ t.basis.toList, a < h.next := by
    intro a ha
    by_contra hn
    exact hl a (by simpa using ha) (hk a (by omega))
  have hk1 := f1.ok hto
  have hsl : ∀ a ∈ s.basis, h.mem a ≠ none := by
    intro a ha
    obtain ⟨b, hb, _⟩ := tshow_live hs (by simpa using ha)
    simp [hb]
  have hkeep : ∀ a ∈ s.basis, h1.mem a = h.mem a := by
    intro a ha
    refine f1.keep a ?_ ?_
    · by_contra hn
      exact hsl a ha (hk a (by omega))
    · intro hm
      exact hd a (by simpa using hm) ha
  obtain ⟨r, e2, f2, hm⟩ := clone_foot hk1 s.basis (fun a ha => by rw [hkeep a ha]; exact hsl a ha)
  refine ⟨_, by simp only [TermM.init, e1, e2, Res.bind]; rfl, ⟨?_, ?_⟩, ?_⟩
  · rw [← hs.1]
  · simp only
    rw [hm, ← hs.2]
    cases hb : s.basis with
    | none => rfl
    | some a => simp [hkeep a (by simp [hb])]
  · have := f1.append f2 (by simp) hto (by simp)
    simpa using this

theorem clear_foot {h : BMem β} (hk : h.Ok) {t : TermM} (hl : ∀ a ∈ t.basis, h.mem a ≠ none) :
    ∃ r, t.clear h = .ok r ∧ r.2 = { t with basis := none } ∧ Foot h r.1 t.basis.toList [] := by
  obtain ⟨h1, e1, f1⟩ := delete_foot hk t.basis hl
  exact ⟨_, by simp only [TermM.clear, e1, Res.bind]; rfl, rfl, f1⟩

theorem addrs_cons (t : TermM) (ts : List TermM) : addrs (t :: ts) = t.basis.toList ++ addrs ts := by
  cases hb : t.basis <;> simp [addrs, hb]

theorem addrs_append (ts us : List TermM) : addrs (ts ++ us) = addrs ts ++ addrs us := by
  simp [addrs, List.filterMap_append]

theorem live_lt {h : BMem β} (hk : h.Ok) {l : List ℕ} (hl : ∀ a ∈ l, h.mem a ≠ none) : ∀ a ∈ l, a < h.next := by
  intro a ha
  by_contra hn
  exact hl a ha (hk a (by omega))

theorem clearTerms_foot {h : BMem β} (hk : h.Ok) {ts : List TermM} (hl : ∀ a ∈ addrs ts, h.mem a ≠ none)
    (hn : (addrs ts).Nodup) :
    ∃ r, clearTerms h ts = .ok r ∧ r.2 = ts.map (fun t => { t with basis := none }) ∧
      Foot h r.1 (addrs ts) [] := by
  induction ts generalizing h with
  | nil => exact ⟨(h, []), rfl, rfl, Foot.refl hk⟩
  | cons t ts ih =>
    rw [addrs_cons] at hl hn
    obtain ⟨r, e1, hr, f1⟩ := clear_foot hk (t := t) (fun a ha => hl a (by simp at ha; simp [ha]))
    have hlt := live_lt hk hl
    have hdis := List.nodup_append.mp hn
    have hkeep : ∀ a ∈ addrs ts, r.1.mem a = h.mem a := fun a ha =>
      f1.keep a (hlt a (by simp [ha])) (fun hc => hdis.2.2 a hc a ha rfl)
    obtain ⟨q, e2, hq, f2⟩ := ih (f1.ok (fun a ha => hlt a (by simp at ha; simp [ha])))
      (fun a ha => by rw [hkeep a ha]; exact hl a (by simp [ha])) hdis.2.1
    refine ⟨_, by simp only [clearTerms, e1, e2, Res.bind]; rfl, by simp [hr, hq], ?_⟩
    rw [addrs_cons]
    have := f1.append f2 (fun a ha hb => hdis.2.2 a ha a hb rfl)
      (fun a ha => hlt a (by simp at ha; simp [ha])) (fun a ha => hlt a (by simp [ha]))
    simpa using this

theorem assignTerms_foot {h : BMem β} (hk : h.Ok) {ts ss : List TermM} {vs : List (TermV β)}
    (hl : ∀ a ∈ addrs ts, h.mem a ≠ none) (hn : (addrs ts).Nodup)
    (hs : List.Forall₂ (TShow h) ss vs) (hd : ∀ a ∈ addrs ts, a ∉ addrs ss) :
    ∃ r, assignTerms h ts ss = .ok r ∧ List.Forall₂ (TShow r.1) r.2 vs ∧
      Foot h r.1 (addrs ts) (addrs r.2) := by
  induction ss generalizing h ts vs with
  | nil =>
    cases hs
    obtain ⟨r, e, _, f⟩ := clearTerms_foot hk hl hn
    exact ⟨(r.1, []), by simp only [assignTerms, e, Res.bind], .nil, f⟩
  | cons s ss ih =>
    cases hs with
    | @cons _ v _ vs hsv hs =>
    have hssl := tshows_live hs
    have hsslt := live_lt hk hssl
    cases ts with
    | nil =>
      obtain ⟨r, e1, hv, f1⟩ := init_foot hk (t := TermM.blank) (by simp [blank_basis]) hsv (by simp [blank_basis])
      rw [blank_basis] at f1
      have hkeep : ∀ a ∈ addrs ss, r.1.mem a = h.mem a := fun a ha =>
        f1.keep a (hsslt a ha) (by simp)
      obtain ⟨q, e2, hq, f2⟩ := ih (h := r.1) (ts := []) (f1.ok (by simp)) (by simp [addrs]) (by simp [addrs])
        (tshows_mono hs hkeep) (by simp [addrs])
      refine ⟨_, by simp only [assignTerms, e1, e2, Res.bind]; rfl, .cons (tshow_mono hv ?_) hq, ?_⟩
      · intro a ha
        refine f2.keep a ?_ (by simp [addrs])
        rcases f1.fresh a (by simpa using ha) with h' | h'
        · exact h'.2
        · simp at h'
      · simp only [addrs_cons]
        have := f1.append f2 (by simp) (by simp) (by simp [addrs])
        simpa [addrs] using this
    | cons t ts =>
      rw [addrs_cons] at hl hn hd
      rw [addrs_cons] at hd
      have hlt := live_lt hk hl
      have hdis := List.nodup_append.mp hn
      obtain ⟨r, e1, hv, f1⟩ := init_foot hk (t := t) (fun a ha => hl a (by simp at ha; simp [ha])) hsv
        (fun a ha hb => hd a (by simp at ha; simp [ha]) (by simp at hb; simp [hb]))
      have hkeep : ∀ a ∈ addrs ss, r.1.mem a = h.mem a := fun a ha =>
        f1.keep a (hsslt a ha) (fun hc => hd a (by simp at hc; simp [hc]) (by simp [ha]))
      have hkeep2 : ∀ a ∈ addrs ts, r.1.mem a = h.mem a := fun a ha =>
        f1.keep a (hlt a (by simp [ha])) (fun hc => hdis.2.2 a hc a ha rfl)
      obtain ⟨q, e2, hq, f2⟩ := ih (h := r.1) (ts := ts)
        (f1.ok (fun a ha => hlt a (by simp at ha; simp [ha])))
        (fun a ha => by rw [hkeep2 a ha]; exact hl a (by simp [ha])) hdis.2.1
        (tshows_mono hs hkeep) (fun a ha hb => hd a (by simp [ha]) (by simp [hb]))
      refine ⟨_, by simp only [assignTerms, e1, e2, Res.bind]; rfl, .cons (tshow_mono hv ?_) hq, ?_⟩
      · intro a ha
        rcases f1.fresh a (by simpa using ha) with h' | h'
        · exact f2.keep a h'.2 (fun hc => by have := hlt a (by simp [hc]); omega)
        · exact f2.keep a (by have := hlt a (by simp at h'; simp [h']); have := f1.le; omega)
            (fun hc => hdis.2.2 a h' a hc rfl)
      · simp only [addrs_cons]
        exact f1.append f2 (fun a ha hb => hdis.2.2 a ha a hb rfl)
          (fun a ha => hlt a (by simp at ha; simp [ha])) (fun a ha => hlt a (by simp [ha]))

theorem Foot.perm {h h' : BMem β} {o n m : List ℕ} (f : Foot h h' o n) (p : n.Perm m) : Foot h h' o m where
  le := f.le
  keep := f.keep
  live := fun a ha => (f.live a ha).imp_left p.mem_iff.mp
  fresh := fun a ha => f.fresh a (p.mem_iff.mpr ha)
  nodup := p.nodup_iff.mp f.nodup

theorem Foot.same {h : BMem β} (hk : h.Ok) {l : List ℕ} (hn : l.Nodup) : Foot h h l l where
  le := le_rfl
  keep := fun _ _ _ => rfl
  live := fun a ha => by
    by_cases hm : a ∈ l
    · exact Or.inl hm
    · exact Or.inr ⟨by by_contra hc; exact ha (hk a (by omega)), hm⟩
  fresh := fun _ ha => Or.inr ha
  nodup := hn

/-- What a step does not use up is kept. -/
theorem Foot.kept {h h' : BMem β} {o n : List ℕ} (f : Foot h h' o n) (hk : h.Ok) {a : ℕ}
    (hl : h.mem a ≠ none) (hn : a ∉ o) : h'.mem a = h.mem a :=
  f.keep a (by by_contra hc; exact hl (hk a (by omega))) hn

theorem relocate_foot {h : BMem β} (hk : h.Ok) (grow : Bool) {ts : List TermM} {vs : List (TermV β)}
    (hn : (addrs ts).Nodup) (hs : List.Forall₂ (TShow h) ts vs) :
    ∃ r, relocate h grow ts = .ok r ∧ List.Forall₂ (TShow r.1) r.2 vs ∧ Foot h r.1 (addrs ts) (addrs r.2) := by
  have hl := tshows_live hs
  have hlt := live_lt hk hl
  cases grow with
  | false => exact ⟨(h, ts), by simp [relocate], hs, Foot.same hk hn⟩
  | true =>
    obtain ⟨r, e1, hr, f1⟩ := assignTerms_foot hk (ts := []) (by simp [addrs]) (by simp [addrs]) hs (by simp [addrs])
    have hkeep : ∀ a ∈ addrs ts, r.1.mem a = h.mem a := fun a ha => f1.keep a (hlt a ha) (by simp [addrs])
    obtain ⟨q, e2, _, f2⟩ := clearTerms_foot (f1.ok (by simp [addrs])) (ts := ts)
      (fun a ha => by rw [hkeep a ha]; exact hl a ha) hn
    refine ⟨(q.1, r.2), by simp only [relocate, e1, e2, Res.bind, if_true], ?_, ?_⟩
    · refine tshows_mono hr fun a ha => ?_
      rcases f1.fresh a ha with h' | h'
      · exact f2.keep a h'.2 (fun hc => by have := hlt a hc; omega)
      · simp [addrs] at h'
    · have := f1.append f2 (by simp [addrs]) (by simp [addrs]) hlt
      simpa [addrs] using this

theorem localTerm_foot {h : BMem β} (hk : h.Ok) (d : Term) (b : Option β) :
    Foot h (localTerm h d b).1 [] (localTerm h d b).2.basis.toList ∧
      TShow (localTerm h d b).1 (localTerm h d b).2 ⟨d, b⟩ := by
  cases b with
  | none => exact ⟨Foot.refl hk, rfl, rfl⟩
  | some b => exact ⟨new_foot hk b, rfl, by simp [localTerm, BMem.new]⟩

theorem pushTerm_foot {h : BMem β} (hk : h.Ok) (grow : Bool) (d : Term) (b : Option β) {ts : List TermM}
    {vs : List (TermV β)} (hn : (addrs ts).Nodup) (hs : List.Forall₂ (TShow h) ts vs) :
    ∃ r, pushTerm h grow d b ts = .ok r ∧ List.Forall₂ (TShow r.1) r.2 (vs ++ [⟨d, b⟩]) ∧
      Foot h r.1 (addrs ts) (addrs r.2) := by
  have hl := tshows_live hs
  have hlt := live_lt hk hl
  obtain ⟨f0, hloc⟩ := localTerm_foot hk d b
  have hk0 := f0.ok (by simp)
  have hs0 : List.Forall₂ (TShow (localTerm h d b).1) ts vs :=
    tshows_mono hs fun a ha => f0.keep a (hlt a ha) (by simp)
  unfold pushTerm
  generalize localTerm h d b = L at f0 hloc hk0 hs0 ⊢
  obtain ⟨r, e1, hr, f1⟩ := relocate_foot hk0 grow hn hs0
  have hlt0 : ∀ a ∈ addrs ts, a < L.1.next := fun a ha => lt_of_lt_of_le (hlt a ha) f0.le
  have hk1 := f1.ok hlt0
  have hLfresh : ∀ a ∈ L.2.basis, h.next ≤ a ∧ a < L.1.next := by
    intro a ha
    rcases f0.fresh a (by simpa using ha) with h' | h'
    · exact h'
    · simp at h'
  have hLts : ∀ a ∈ L.2.basis, a ∉ addrs ts := fun a ha hc => by
    have := hlt a hc; have := hLfresh a ha; omega
  have hloc1 : TShow r.1 L.2 ⟨d, b⟩ :=
    tshow_mono hloc fun a ha => f1.keep a (hLfresh a ha).2 (hLts a ha)
  obtain ⟨c, e2, hc, f2⟩ := init_foot hk1 (t := TermM.blank) (by simp [blank_basis]) hloc1 (by simp [blank_basis])
  rw [blank_basis] at f2
  have hk2 := f2.ok (by simp)
  have hloc2 : TShow c.1 L.2 ⟨d, b⟩ := by
    refine tshow_mono hloc1 fun a ha => ?_
    obtain ⟨x, hx, _⟩ := tshow_live hloc1 (by simpa using ha)
    exact f2.kept hk1 (by simp [hx]) (by simp)
  obtain ⟨e, e3, _, f3⟩ := clear_foot hk2 (t := L.2) (fun a ha => by
    obtain ⟨x, hx, _⟩ := tshow_live hloc2 (by simpa using ha); simp [hx])
  have F1 : Foot h r.1 (addrs ts) (L.2.basis.toList ++ addrs r.2) := by
    have := f0.append f1 (by simp) (by simp) hlt
    simpa using this
  have F2 : Foot h c.1 (addrs ts) ((L.2.basis.toList ++ addrs r.2) ++ c.2.basis.toList) := by
    have := F1.append f2 (by simp) hlt (by simp)
    simpa using this
  have F3 : Foot h c.1 (addrs ts) ((addrs r.2 ++ c.2.basis.toList) ++ L.2.basis.toList) := by
    refine F2.perm ?_
    rw [List.append_assoc]
    exact List.perm_append_comm
  have F4 : Foot h e.1 (addrs ts) ((addrs r.2 ++ c.2.basis.toList) ++ []) := F3.trans f3 hlt
  have hnd := List.nodup_append.mp F3.nodup
  have hr1l := tshows_live hr
  have hr2 : List.Forall₂ (TShow e.1) r.2 vs := by
    refine tshows_mono hr fun a ha => ?_
    have h1 : c.1.mem a = r.1.mem a := f2.kept hk1 (hr1l a ha) (by simp)
    rw [← h1]
    refine f3.kept hk2 (by rw [h1]; exact hr1l a ha) fun hcc => ?_
    exact hnd.2.2 a (by simp [ha]) a hcc rfl
  have hc2 : TShow e.1 c.2 ⟨d, b⟩ := by
    refine tshow_mono hc fun a ha => ?_
    obtain ⟨x, hx, _⟩ := tshow_live hc (by simpa using ha)
    refine f3.kept hk2 (by simp [hx]) fun hcc => ?_
    exact hnd.2.2 a (by simp at ha; simp [ha]) a hcc rfl
  refine ⟨(e.1, r.2 ++ [c.2]), by simp only [e1, e2, e3, Res.bind], ?_, ?_⟩
  · exact List.rel_append hr2 (.cons hc2 .nil)
  · have : addrs (r.2 ++ [c.2]) = (addrs r.2 ++ c.2.basis.toList) ++ [] := by
      rw [addrs_append, addrs_cons]; simp [addrs]
    rw [this]
    exact F4

/-! ## Disjunctions -/

theorem addrs_cleared (ts : List TermM) : addrs (ts.map fun t => { t with basis := none }) = [] := by
  simp [addrs]

theorem disjInit_foot {h : BMem β} (hk : h.Ok) {d src : DisjM π} {v : DisjV β π} (p : Option π)
    (hl : ∀ a ∈ addrs d.terms, h.mem a ≠ none) (hn : (addrs d.terms).Nodup)
    (hs : DShow h src v) (hd : ∀ a ∈ addrs d.terms, a ∉ addrs src.terms) (hh : src.head.terms = []) :
    ∃ r, d.init h src p = .ok r ∧ DShow r.1 r.2 { v with params := p.getD v.params } ∧
      Foot h r.1 (addrs d.terms) (addrs r.2.terms) ∧ r.2.head.terms = [] := by
  have hlt := live_lt hk hl
  obtain ⟨r, e1, hr, f1⟩ := clearTerms_foot hk hl hn
  have hk1 := f1.ok hlt
  have hsl := tshows_live hs.terms
  have hs1 : List.Forall₂ (TShow r.1) src.terms v.terms := tshows_mono hs.terms fun a ha =>
    f1.kept hk (hsl a ha) (fun hc => hd a hc ha)
  have hz : addrs r.2 = [] := by rw [hr]; exact addrs_cleared _
  obtain ⟨q, e2, hq, f2⟩ := assignTerms_foot hk1 (ts := r.2) (by simp [hz]) (by simp [hz]) hs1 (by simp [hz])
  rw [hz] at f2
  refine ⟨_, by simp only [DisjM.init, e1, e2, Res.bind]; rfl, ?_, ?_, rfl⟩
  · refine ⟨?_, hs.name, ?_, hs.timer, ?_, hq⟩
    · rw [← hs.head]
      cases hx : src.head
      rw [hx] at hh
      simp only at hh
      subst hh
      rfl
    · cases p with
      | none => exact hs.params
      | some p => rfl
    · rw [← hs.extra]
      cases src.extra <;> rfl
  · have := f1.append f2 (by simp) hlt (by simp)
    simpa using this

theorem disjCopy_foot {h : BMem β} (hk : h.Ok) {src : DisjM π} {v : DisjV β π} (p : Option π)
    (hs : DShow h src v) (hh : src.head.terms = []) :
    ∃ r, src.copy h p = .ok r ∧ DShow r.1 r.2 { v with params := p.getD v.params } ∧
      Foot h r.1 [] (addrs r.2.terms) ∧ r.2.head.terms = [] := by
  have := disjInit_foot hk (d := DisjM.fresh src.extra.isTree src.params) p (by simp [DisjM.fresh, addrs])
    (by simp [DisjM.fresh, addrs]) hs (by simp [DisjM.fresh, addrs]) hh
  simpa [DisjM.copy, DisjM.fresh, addrs] using this

theorem twiceClear_foot {h : BMem β} (hk : h.Ok) {ts : List TermM} (hl : ∀ a ∈ addrs ts, h.mem a ≠ none)
    (hn : (addrs ts).Nodup) :
    ∃ r q, clearTerms h ts = .ok r ∧ clearTerms r.1 r.2 = .ok q ∧ Foot h q.1 (addrs ts) [] := by
  have hlt := live_lt hk hl
  obtain ⟨r, e1, hr, f1⟩ := clearTerms_foot hk hl hn
  have hz : addrs r.2 = [] := by rw [hr]; exact addrs_cleared _
  obtain ⟨q, e2, _, f2⟩ := clearTerms_foot (f1.ok hlt) (ts := r.2) (by simp [hz]) (by simp [hz])
  refine ⟨r, q, e1, e2, ?_⟩
  rw [hz] at f2
  have := f1.append f2 (by simp) hlt (by simp)
  simpa using this

/-! ## The whole state -/

/-- The bases owned by what is in a slot. -/
def owns : Option (DisjM π) → List ℕ
  | none => []
  | some d => addrs d.terms

/-- Every allocated basis is owned by exactly one object. -/
structure BasisInv (h : BMem β) (obj : ℕ ⊕ ℕ → Option (DisjM π)) : Prop where
  ok : h.Ok
  nodup : ∀ k, (owns (obj k)).Nodup
  disj : ∀ k l, k ≠ l → ∀ a ∈ owns (obj k), a ∉ owns (obj l)
  exact : ∀ a, h.mem a ≠ none ↔ ∃ k, a ∈ owns (obj k)
  plain : ∀ k d, obj k = some d → d.head.terms = []

theorem BasisInv.lt {h : BMem β} {obj : ℕ ⊕ ℕ → Option (DisjM π)} (B : BasisInv h obj) {k : ℕ ⊕ ℕ} :
    ∀ a ∈ owns (obj k), a < h.next := by
  intro a ha
  by_contra hn
  exact (B.exact a).mpr ⟨k, ha⟩ (B.ok a (by omega))

/-- Replacing what is in one slot. -/
theorem BasisInv.replace {h h' : BMem β} {obj : ℕ ⊕ ℕ → Option (DisjM π)} (B : BasisInv h obj) (k : ℕ ⊕ ℕ)
    (o : Option (DisjM π)) (f : Foot h h' (owns (obj k)) (owns o)) (hl : ∀ a ∈ owns o, h'.mem a ≠ none)
    (hp : ∀ d, o = some d → d.head.terms = []) : BasisInv h' (Function.update obj k o) := by
  have hself : Function.update obj k o k = o := by simp
  have hother : ∀ l, l ≠ k → Function.update obj k o l = obj l := fun l hn => Function.update_of_ne hn _ _
  have hsep : ∀ l, l ≠ k → ∀ a ∈ owns o, a ∉ owns (obj l) := by
    intro l hn a ha hc
    rcases f.fresh a ha with h1 | h1
    · have := B.lt a hc; omega
    · exact B.disj k l (Ne.symm hn) a h1 hc
  refine ⟨f.ok (fun a ha => B.lt a ha), fun l => ?_, fun l m hn a ha hc => ?_, fun a => ⟨fun ha => ?_, ?_⟩, ?_⟩
  · by_cases hl : l = k
    · subst hl; rw [hself]; exact f.nodup
    · rw [hother l hl]; exact B.nodup l
  · by_cases h1 : l = k
    · have h2 : m ≠ k := fun e => hn (h1.trans e.symm)
      rw [h1, hself] at ha
      rw [hother m h2] at hc
      exact hsep m h2 a ha hc
    · rw [hother l h1] at ha
      by_cases h2 : m = k
      · rw [h2, hself] at hc
        exact hsep l h1 a hc ha
      · rw [hother m h2] at hc
        exact B.disj l m hn a ha hc
  · rcases f.live a ha with h1 | ⟨h1, h2⟩
    · exact ⟨k, by rw [hself]; exact h1⟩
    · rw [f.keep a h1 h2] at ha
      obtain ⟨l, hl⟩ := (B.exact a).mp ha
      have hlk : l ≠ k := fun e => h2 (e ▸ hl)
      exact ⟨l, by rw [hother l hlk]; exact hl⟩
  · rintro ⟨l, ha⟩
    by_cases h1 : l = k
    · rw [h1, hself] at ha; exact hl a ha
    · rw [hother l h1] at ha
      rw [f.keep a (B.lt a ha) (fun hc => B.disj l k h1 a ha hc)]
      exact (B.exact a).mpr ⟨l, ha⟩
  · intro l d hd
    by_cases h1 : l = k
    · rw [h1, hself] at hd; exact hp d hd
    · rw [hother l h1] at hd; exact B.plain l d hd

theorem dshow_mono {h h' : BMem β} {d : DisjM π} {v : DisjV β π} (hs : DShow h d v)
    (hk : ∀ a ∈ addrs d.terms, h'.mem a = h.mem a) : DShow h' d v :=
  ⟨hs.head, hs.name, hs.params, hs.timer, hs.extra, tshows_mono hs.terms hk⟩

theorem dshow_live {h : BMem β} {d : DisjM π} {v : DisjV β π} (hs : DShow h d v) :
    ∀ a ∈ owns (some d), h.mem a ≠ none := tshows_live hs.terms

/-- The object in a slot is the same before and after, and shows the same. -/
def KeepsObj (w w' : OWorld β π) (k : ℕ ⊕ ℕ) : Prop :=
  w'.obj k = w.obj k ∧ ∀ d v, w.obj k = some d → DShow w.bases d v → DShow w'.bases d v

theorem KeepsObj.trans {w w1 w2 : OWorld β π} {k : ℕ ⊕ ℕ} (h1 : KeepsObj w w1 k) (h2 : KeepsObj w1 w2 k) :
    KeepsObj w w2 k :=
  ⟨h2.1.trans h1.1, fun d v hd hs => h2.2 d v (h1.1.trans hd) (h1.2 d v hd hs)⟩

theorem KeepsObj.refl (w : OWorld β π) (k : ℕ ⊕ ℕ) : KeepsObj w w k := ⟨rfl, fun _ _ _ h => h⟩

theorem BasisInv.keeps {w w' : OWorld β π} (B : BasisInv w.bases w.obj) {k : ℕ ⊕ ℕ} {o : Option (DisjM π)} {n : List ℕ}
    (f : Foot w.bases w'.bases (owns (w.obj k)) n) (he : w'.obj = Function.update w.obj k o)
    (l : ℕ ⊕ ℕ) (hn : l ≠ k) : KeepsObj w w' l := by
  refine ⟨by rw [he, Function.update_of_ne hn], fun d v hd hs => dshow_mono hs fun a ha => ?_⟩
  have hal : a ∈ owns (w.obj l) := by rw [hd]; exact ha
  exact f.keep a (B.lt a hal) (fun hc => B.disj l k hn a hal hc)

theorem SShow.keeps {w w' : OWorld β π} {s : SetM} {x : SetV β π} (hs : SShow w s x)
    (hk : ∀ p ∈ s.members, KeepsObj w w' (.inr p)) : SShow w' s x := by
  refine ⟨hs.sums, ?_⟩
  have := hs.members
  revert this hk
  generalize s.members = ps
  generalize x.members = vs
  intro hk hf
  induction hf with
  | nil => exact .nil
  | @cons p v ps vs hx _ ih =>
    obtain ⟨d, hd, hv⟩ := hx
    have h1 := hk p (by simp)
    exact .cons ⟨d, h1.1.trans hd, h1.2 d v hd hv⟩ (ih fun q hq => hk q (by simp [hq]))

theorem SShow.alive {w : OWorld β π} {s : SetM} {x : SetV β π} (hs : SShow w s x) :
    ∀ p ∈ s.members, ∃ d, w.obj (.inr p) = some d := by
  have := hs.members
  revert this
  generalize s.members = ps
  generalize x.members = vs
  intro hf
  induction hf with
  | nil => simp
  | cons hx _ ih =>
    obtain ⟨d, hd, _⟩ := hx
    intro q hq
    simp only [List.mem_cons] at hq
    rcases hq with rfl | hq
    · exact ⟨d, hd⟩
    · exact ih q hq

/-- The invariant: ownership of bases, fresh addresses, and no member shared by two sets. -/
structure OInv (w : OWorld β π) : Prop where
  base : BasisInv w.bases w.obj
  fresh : ∀ p, w.dnext ≤ p → w.obj (.inr p) = none
  members : ∀ k s, w.sets k = some s → s.members.Nodup ∧ s.sums.disjs = []
  apart : ∀ k l s t, k ≠ l → w.sets k = some s → w.sets l = some t → ∀ p ∈ s.members, p ∉ t.members

theorem shows_set {w : OWorld β π} {s : ValWorld β π} (S : Shows w s) {k : ℕ} {x : SetV β π}
    (h : s.sets k = some x) : ∃ m, w.sets k = some m ∧ SShow w m x := by
  have := S.sets k
  rw [h] at this
  cases hw : w.sets k with
  | none => rw [hw] at this; cases this
  | some m => rw [hw] at this; cases this with | some hr => exact ⟨m, rfl, hr⟩

theorem shows_disj {w : OWorld β π} {s : ValWorld β π} (S : Shows w s) {i : ℕ} {v : DisjV β π}
    (h : s.disj i = some v) : ∃ d, w.obj (.inl i) = some d ∧ DShow w.bases d v := by
  have := S.disj i
  rw [h] at this
  cases hw : w.obj (.inl i) with
  | none => rw [hw] at this; cases this
  | some m => rw [hw] at this; cases this with | some hr => exact ⟨m, rfl, hr⟩

theorem shows_free {w : OWorld β π} {s : ValWorld β π} (S : Shows w s) {i : ℕ}
    (h : ¬ (s.disj i).isSome = true) : w.obj (.inl i) = none := by
  have := S.disj i
  have hn : s.disj i = none := by simpa using h
  rw [hn] at this
  cases hw : w.obj (.inl i) with
  | none => rfl
  | some m => rw [hw] at this; cases this

theorem shows_freeSet {w : OWorld β π} {s : ValWorld β π} (S : Shows w s) {k : ℕ}
    (h : ¬ (s.sets k).isSome = true) : w.sets k = none := by
  have := S.sets k
  have hn : s.sets k = none := by simpa using h
  rw [hn] at this
  cases hw : w.sets k with
  | none => rfl
  | some m => rw [hw] at this; cases this

theorem rel_keeps {w w' : OWorld β π} {i : ℕ} {o : Option (DisjV β π)}
    (h : Option.Rel (DShow w.bases) (w.obj (.inl i)) o) (hk : KeepsObj w w' (.inl i)) :
    Option.Rel (DShow w'.bases) (w'.obj (.inl i)) o := by
  rw [hk.1]
  cases hw : w.obj (.inl i) with
  | none => rw [hw] at h; cases h; exact .none
  | some d => rw [hw] at h; cases h with | some hr => exact .some (hk.2 _ _ hw hr)

/-- A step that changes one disjunction of the user (`o`: what it is afterwards). -/
theorem slot_step {w : OWorld β π} {s : ValWorld β π} (I : OInv w) (S : Shows w s) (i : ℕ) {h' : BMem β}
    {o : Option (DisjM π)} {v : Option (DisjV β π)} (f : Foot w.bases h' (owns (w.obj (.inl i))) (owns o))
    (hv : Option.Rel (DShow h') o v) (hp : ∀ d, o = some d → d.head.terms = []) :
    OInv { w with bases := h', obj := Function.update w.obj (.inl i) o } ∧
      Shows { w with bases := h', obj := Function.update w.obj (.inl i) o }
        { s with disj := Function.update s.disj i v } := by
  have hl : ∀ a ∈ owns o, h'.mem a ≠ none := by
    cases hv with
    | none => simp [owns]
    | some hr => exact dshow_live hr
  have hk : ∀ l, l ≠ Sum.inl i →
      KeepsObj w { w with bases := h', obj := Function.update w.obj (.inl i) o } l :=
    fun l hn => I.base.keeps (w' := { w with bases := h', obj := Function.update w.obj (.inl i) o }) f rfl l hn
  refine ⟨⟨I.base.replace _ o f hl hp, fun p hp => ?_, I.members, I.apart⟩, ⟨fun j => ?_, fun k => ?_⟩⟩
  · exact (hk (.inr p) (by simp)).1.trans (I.fresh p hp)
  · by_cases hj : j = i
    · subst hj; simpa using hv
    · have := rel_keeps (S.disj j) (hk (.inl j) (by simpa using hj))
      show Option.Rel _ _ (Function.update s.disj i v j)
      rw [Function.update_of_ne hj]
      exact this
  · have := S.sets k
    dsimp only
    cases hw : w.sets k with
    | none => rw [hw] at this; cases hs : s.sets k with
      | none => exact .none
      | some x => rw [hs] at this; cases this
    | some m =>
      rw [hw] at this
      cases hs : s.sets k with
      | none => rw [hs] at this; cases this
      | some x =>
        rw [hs] at this
        cases this with
        | some hr => exact .some (hr.keeps fun p _ => hk (.inr p) (by simp))

/-- What cloning a member does. -/
structure Cloned (w w1 : OWorld β π) : Prop where
  base : BasisInv w1.bases w1.obj
  fresh : ∀ p, w1.dnext ≤ p → w1.obj (.inr p) = none
  sets : w1.sets = w.sets
  le : w.dnext ≤ w1.dnext
  keepL : ∀ i, KeepsObj w w1 (.inl i)
  keepR : ∀ p, p < w.dnext → KeepsObj w w1 (.inr p)

theorem cloneTo_spec {w : OWorld β π} (B : BasisInv w.bases w.obj) (F : ∀ p, w.dnext ≤ p → w.obj (.inr p) = none)
    {src : DisjM π} {v : DisjV β π} (hs : DShow w.bases src v) (hh : src.head.terms = []) :
    ∃ w1, w.cloneTo src = .ok w1 ∧ Cloned w w1 ∧ w1.dnext = w.dnext + 1 ∧
      ∃ d, w1.obj (.inr w.dnext) = some d ∧ DShow w1.bases d v := by
  obtain ⟨r, e, hv, f, hp⟩ := disjCopy_foot B.ok none hs hh
  have f' : Foot w.bases r.1 (owns (w.obj (.inr w.dnext))) (owns (some r.2)) := by
    rw [F w.dnext le_rfl]; exact f
  have hk : ∀ l, l ≠ Sum.inr w.dnext → KeepsObj w { w.put (.inr w.dnext) r with dnext := w.dnext + 1 } l :=
    fun l hn => B.keeps (w' := { w.put (.inr w.dnext) r with dnext := w.dnext + 1 }) f' rfl l hn
  refine ⟨{ w.put (.inr w.dnext) r with dnext := w.dnext + 1 },
    by simp only [OWorld.cloneTo, e, Res.bind], ⟨?_, ?_, rfl, by simp, ?_, ?_⟩, rfl, r.2, ?_, hv⟩
  · exact B.replace _ _ f' (dshow_live hv) (by rintro d ⟨⟩; exact hp)
  · intro p hp
    have hp' : w.dnext + 1 ≤ p := hp
    exact (hk (.inr p) (by simp; omega)).1.trans (F p (by omega))
  · exact fun i => hk (.inl i) (by simp)
  · intro p hp
    exact hk (.inr p) (by simp; omega)
  · simp [OWorld.put]

theorem cloneMembers_spec {w : OWorld β π} (B : BasisInv w.bases w.obj)
    (F : ∀ p, w.dnext ≤ p → w.obj (.inr p) = none) {ps : List ℕ} {vs : List (DisjV β π)}
    (hs : List.Forall₂ (fun p v => ∃ d, w.obj (.inr p) = some d ∧ DShow w.bases d v) ps vs) :
    ∃ q, w.cloneMembers ps = .ok q ∧ Cloned w q.1 ∧ q.2.Nodup ∧
      (∀ p ∈ q.2, w.dnext ≤ p ∧ p < q.1.dnext) ∧ (∀ p, w.dnext ≤ p → p < q.1.dnext → p ∈ q.2) ∧
      List.Forall₂ (fun p v => ∃ d, q.1.obj (.inr p) = some d ∧ DShow q.1.bases d v) q.2 vs := by
  induction ps generalizing w vs with
  | nil =>
    cases hs
    exact ⟨(w, []), rfl, ⟨B, F, rfl, le_rfl, fun i => KeepsObj.refl _ _, fun p _ => KeepsObj.refl _ _⟩, by simp,
      by simp, fun p h1 h2 => by simp only at h2; omega, .nil⟩
  | cons p ps ih =>
    cases hs with
    | @cons _ v _ vs hx hr =>
    obtain ⟨d, hd, hv⟩ := hx
    obtain ⟨w1, e1, C1, hn1, d1, hd1, hv1⟩ := cloneTo_spec B F hv (B.plain _ _ hd)
    have hr1 : List.Forall₂ (fun p v => ∃ d, w1.obj (.inr p) = some d ∧ DShow w1.bases d v) ps vs := by
      refine hr.imp fun q u hq => ?_
      obtain ⟨x, hx, hu⟩ := hq
      have hlt : q < w.dnext := by
        by_contra hc
        rw [F q (by omega)] at hx
        cases hx
      exact ⟨x, (C1.keepR q hlt).1.trans hx, (C1.keepR q hlt).2 x u hx hu⟩
    obtain ⟨q, e2, C2, hnd, hrg, hall, hf⟩ := ih C1.base C1.fresh hr1
    have hq := C2.le
    refine ⟨(q.1, w.dnext :: q.2), by simp only [OWorld.cloneMembers, hd, e1, e2, Res.bind], ?_, ?_, ?_, ?_, ?_⟩
    · exact ⟨C2.base, C2.fresh, C2.sets.trans C1.sets, by dsimp only; omega,
        fun i => (C1.keepL i).trans (C2.keepL i),
        fun p hp => (C1.keepR p hp).trans (C2.keepR p (by omega))⟩
    · rw [List.nodup_cons]
      exact ⟨fun hc => by have := hrg _ hc; omega, hnd⟩
    · intro p hp
      simp only [List.mem_cons] at hp
      rcases hp with rfl | hp
      · exact ⟨le_rfl, by dsimp only; omega⟩
      · have := hrg p hp
        exact ⟨by omega, this.2⟩
    · intro p h1 h2
      by_cases h3 : p = w.dnext
      · simp [h3]
      · exact List.mem_cons_of_mem _ (hall p (by omega) h2)
    · refine .cons ⟨d1, ?_, ?_⟩ hf
      · exact (C2.keepR w.dnext (by omega)).1.trans hd1
      · exact (C2.keepR w.dnext (by omega)).2 d1 v hd1 hv1

theorem deleteMembers_spec {w : OWorld β π} (B : BasisInv w.bases w.obj)
    (F : ∀ p, w.dnext ≤ p → w.obj (.inr p) = none) {ps : List ℕ} (hn : ps.Nodup)
    (ha : ∀ p ∈ ps, ∃ d, w.obj (.inr p) = some d) :
    ∃ w1, w.deleteMembers ps = .ok w1 ∧ BasisInv w1.bases w1.obj ∧ w1.dnext = w.dnext ∧ w1.sets = w.sets ∧
      (∀ i, KeepsObj w w1 (.inl i)) ∧ (∀ p, p ∉ ps → KeepsObj w w1 (.inr p)) ∧
      (∀ p ∈ ps, w1.obj (.inr p) = none) := by
  induction ps generalizing w with
  | nil =>
    exact ⟨w, rfl, B, rfl, rfl, fun i => KeepsObj.refl _ _, fun p _ => KeepsObj.refl _ _, by simp⟩
  | cons p ps ih =>
    obtain ⟨d, hd⟩ := ha p (by simp)
    rw [List.nodup_cons] at hn
    have hown : owns (w.obj (.inr p)) = addrs d.terms := by rw [hd]; rfl
    obtain ⟨r, q, e1, e2, f⟩ := twiceClear_foot B.ok (ts := d.terms)
      (fun a h => (B.exact a).mpr ⟨.inr p, by rw [hown]; exact h⟩) (by rw [← hown]; exact B.nodup _)
    have f' : Foot w.bases q.1 (owns (w.obj (.inr p))) (owns (none : Option (DisjM π))) := by
      rw [hown]; exact f
    have hk : ∀ l, l ≠ Sum.inr p →
        KeepsObj w { w with bases := q.1, obj := Function.update w.obj (.inr p) none } l :=
      fun l hn => B.keeps (w' := { w with bases := q.1, obj := Function.update w.obj (.inr p) none }) f' rfl l hn
    have B1 := B.replace (.inr p) none f' (by simp [owns]) (by simp)
    have F1 : ∀ x, w.dnext ≤ x → Function.update w.obj (.inr p) none (.inr x) = none := by
      intro x hx
      by_cases hxp : x = p
      · subst hxp; simp
      · rw [Function.update_of_ne (by simpa using hxp)]; exact F x hx
    obtain ⟨w1, e3, B2, hn2, hs2, hkl, hkr, hnone⟩ := ih
      (w := { w with bases := q.1, obj := Function.update w.obj (.inr p) none }) B1 F1 hn.2
      (fun x hx => by
        obtain ⟨y, hy⟩ := ha x (by simp [hx])
        exact ⟨y, (hk (.inr x) (by simp; rintro rfl; exact hn.1 hx)).1.trans hy⟩)
    refine ⟨w1, ?_, B2, hn2, hs2, fun i => (hk _ (by simp)).trans (hkl i), fun x hx => ?_, fun x hx => ?_⟩
    · simp only [OWorld.deleteMembers, hd, DisjM.destroy, e1, e2, Res.bind]
      exact e3
    · simp only [List.mem_cons, not_or] at hx
      exact (hk _ (by simpa using hx.1)).trans (hkr x hx.2)
    · simp only [List.mem_cons] at hx
      by_cases hxm : x ∈ ps
      · exact hnone x hxm
      · have hxp := hx.resolve_right hxm
        rw [(hkr x hxm).1, hxp]
        simp

/-- A step that changes one set (`o`: what it is afterwards). -/
theorem set_step {w w2 : OWorld β π} {s : ValWorld β π} (I : OInv w) (S : Shows w s) (k : ℕ)
    {o : Option SetM} {x : Option (SetV β π)} (hB : BasisInv w2.bases w2.obj)
    (hF : ∀ p, w2.dnext ≤ p → w2.obj (.inr p) = none) (hset : w2.sets = Function.update w.sets k o)
    (hkl : ∀ i, KeepsObj w w2 (.inl i))
    (hkr : ∀ l m, l ≠ k → w.sets l = some m → ∀ p ∈ m.members, KeepsObj w w2 (.inr p))
    (ho : ∀ m, o = some m → m.members.Nodup ∧ m.sums.disjs = [] ∧
      ∀ l t, l ≠ k → w.sets l = some t → ∀ p ∈ m.members, p ∉ t.members)
    (hx : Option.Rel (SShow w2) o x) :
    OInv w2 ∧ Shows w2 { s with sets := Function.update s.sets k x } := by
  have hself : w2.sets k = o := by rw [hset]; simp
  have hother : ∀ l, l ≠ k → w2.sets l = w.sets l := fun l hn => by rw [hset, Function.update_of_ne hn]
  refine ⟨⟨hB, hF, fun l m hm => ?_, fun l l' m t hn hm ht p hp hc => ?_⟩, ⟨fun i => ?_, fun l => ?_⟩⟩
  · by_cases hl : l = k
    · rw [hl, hself] at hm
      exact ⟨(ho m hm).1, (ho m hm).2.1⟩
    · rw [hother l hl] at hm; exact I.members l m hm
  · by_cases hl : l = k
    · have hl' : l' ≠ k := fun e => hn (hl.trans e.symm)
      rw [hl, hself] at hm
      rw [hother l' hl'] at ht
      exact (ho m hm).2.2 l' t hl' ht p hp hc
    · rw [hother l hl] at hm
      by_cases hl' : l' = k
      · rw [hl', hself] at ht
        exact (ho t ht).2.2 l m hl hm p hc hp
      · rw [hother l' hl'] at ht
        exact I.apart l l' m t hn hm ht p hp hc
  · exact rel_keeps (S.disj i) (hkl i)
  · show Option.Rel (SShow w2) (w2.sets l) (Function.update s.sets k x l)
    by_cases hl : l = k
    · rw [hl, hself]; simpa using hx
    · rw [hother l hl, Function.update_of_ne hl]
      have := S.sets l
      cases hw : w.sets l with
      | none => rw [hw] at this; cases hs : s.sets l with
        | none => exact .none
        | some x => rw [hs] at this; cases this
      | some m =>
        rw [hw] at this
        cases hs : s.sets l with
        | none => rw [hs] at this; cases this
        | some x =>
          rw [hs] at this
          cases this with
          | some hr => exact .some (hr.keeps fun p hp => hkr l m hl hw p hp)

theorem updateObj_disjs {s t : DSet} {d : Disj} {ind : ℤ} (h : s.updateObj d ind = .ok t) :
    t.disjs = s.disjs := by
  unfold DSet.updateObj at h
  split at h
  · dsimp only at h
    cases h
    simp only [apply_ite DSet.disjs, ite_self]
  · cases h

theorem copySums_eq {s : DSet} (h : s.disjs = []) : copySums s = s := by
  cases s
  simp only at h
  subst h
  rfl

/-- Making a set a copy of another one (into a free slot or over an existing set). -/
theorem clone_set_step {w : OWorld β π} {s : ValWorld β π} (I : OInv w) (S : Shows w s) (k l : ℕ)
    {m : SetM} {x : SetV β π} (hm : w.sets l = some m) (hx : SShow w m x) :
    ∃ q, w.cloneMembers m.members = .ok q ∧ OInv (q.1.putSet k ⟨q.2, copySums m.sums⟩) ∧
      Shows (q.1.putSet k ⟨q.2, copySums m.sums⟩) (s.putSet k x) := by
  obtain ⟨q, e, C, hnd, hrg, _, hf⟩ := cloneMembers_spec I.base I.fresh hx.members
  have halive : ∀ l' t, w.sets l' = some t → ∀ p ∈ t.members, p < w.dnext := by
    intro l' t ht p hp
    have h1 := S.sets l'
    rw [ht] at h1
    cases hs : s.sets l' with
    | none => rw [hs] at h1; cases h1
    | some y =>
      rw [hs] at h1
      cases h1 with
      | some hr =>
        obtain ⟨d, hd⟩ := hr.alive p hp
        by_contra hc
        rw [I.fresh p (by omega)] at hd
        cases hd
  have hsum := copySums_eq (I.members l m hm).2
  refine ⟨q, e, ?_⟩
  refine set_step I S k (w2 := q.1.putSet k ⟨q.2, copySums m.sums⟩) (o := some ⟨q.2, copySums m.sums⟩)
    (x := some x) C.base C.fresh ?_ C.keepL ?_ ?_ ?_
  · show Function.update q.1.sets k _ = _
    rw [C.sets]
  · intro l' t _ ht p hp
    exact C.keepR p (halive l' t ht p hp)
  · rintro _ ⟨⟩
    refine ⟨hnd, by rw [hsum]; exact (I.members l m hm).2, fun l' t _ ht p hp hc => ?_⟩
    have := halive l' t ht p hc
    have := hrg p hp
    omega
  · exact .some ⟨by rw [hsum]; exact hx.sums, hf⟩

/-- Every operation that is not an error of the program does in memory what it means for values. -/
theorem step_shows {w : OWorld β π} {s s' : ValWorld β π} (I : OInv w) (S : Shows w s) (op : OOp β π)
    (h : s.step op = some s') : ∃ w', w.step op = .ok w' ∧ OInv w' ∧ Shows w' s' := by
  have hlive : ∀ {i : ℕ} {d : DisjM π}, w.obj (.inl i) = some d →
      (∀ a ∈ addrs d.terms, w.bases.mem a ≠ none) ∧ (addrs d.terms).Nodup ∧ d.head.terms = [] := by
    intro i d hd
    have hown : owns (w.obj (.inl i)) = addrs d.terms := by rw [hd]; rfl
    exact ⟨fun a ha => (I.base.exact a).mpr ⟨.inl i, by rw [hown]; exact ha⟩,
      by rw [← hown]; exact I.base.nodup _, I.base.plain _ _ hd⟩
  have hfoot : ∀ {i : ℕ} {d : DisjM π} (n : List ℕ) (h' : BMem β), w.obj (.inl i) = some d →
      Foot w.bases h' (addrs d.terms) n → Foot w.bases h' (owns (w.obj (.inl i))) n := by
    intro i d n h' hd f
    rw [hd]; exact f
  cases op with
  | new i tree p =>
    simp only [ValWorld.step] at h
    split at h
    · cases h
    · rename_i hfree
      cases h
      have hw := shows_free S hfree
      have f : Foot w.bases w.bases (owns (w.obj (.inl i))) (owns (some (DisjM.fresh tree p))) := by
        rw [hw]; exact Foot.refl I.base.ok
      have := slot_step I S i f (v := some ⟨Disj.new, [], p, none, if tree then .tree {} {} else .split (-1), []⟩)
        (.some ⟨rfl, rfl, rfl, rfl, rfl, .nil⟩) (by rintro _ ⟨⟩; rfl)
      exact ⟨_, by simp only [OWorld.step, OWorld.create, hw, Res.bind, Option.isSome_none, Bool.false_eq_true, if_false]; rfl, this⟩
  | copy i j p =>
    simp only [ValWorld.step, Option.bind_eq_some_iff] at h
    obtain ⟨v, hv, h⟩ := h
    split at h
    · cases h
    · rename_i hfree
      cases h
      have hw := shows_free S hfree
      obtain ⟨src, hsrc, hs⟩ := shows_disj S hv
      obtain ⟨r, e, hr, f, hp⟩ := disjCopy_foot I.base.ok p hs (I.base.plain _ _ hsrc)
      have f' : Foot w.bases r.1 (owns (w.obj (.inl i))) (owns (some r.2)) := by rw [hw]; exact f
      have := slot_step I S i f' (.some hr) (by rintro _ ⟨⟩; exact hp)
      exact ⟨_, by simp only [OWorld.step, hsrc, OWorld.create, hw, Option.isSome_none, Bool.false_eq_true, if_false, e, Res.bind]; rfl, this⟩
  | assign i j =>
    simp only [ValWorld.step, Option.bind_eq_some_iff] at h
    obtain ⟨v, hv, o, ho, h⟩ := h
    obtain ⟨src, hsrc, hs⟩ := shows_disj S hv
    obtain ⟨d, hd, hdo⟩ := shows_disj S ho
    by_cases hij : i = j
    · rw [if_pos hij] at h
      cases h
      have f : Foot w.bases w.bases (owns (w.obj (.inl i))) (owns (some d)) :=
        hfoot _ _ hd (Foot.same I.base.ok (hlive hd).2.1)
      have := slot_step I S i f (.some hdo) (by rintro _ ⟨⟩; exact (hlive hd).2.2)
      rw [← ho, Function.update_eq_self] at this
      exact ⟨_, by simp only [OWorld.step, hsrc, OWorld.upd, hd, if_pos hij, Res.bind]; rfl, this⟩
    · rw [if_neg hij] at h
      split at h
      · rename_i ht
        cases h
        have hdis : ∀ a ∈ addrs d.terms, a ∉ addrs src.terms := by
          intro a ha hc
          exact I.base.disj (.inl i) (.inl j) (by simpa using hij) a (by rw [hd]; exact ha) (by rw [hsrc]; exact hc)
        obtain ⟨r, e, hr, f, hp⟩ := disjInit_foot I.base.ok none (hlive hd).1 (hlive hd).2.1 hs hdis
          (hlive hsrc).2.2
        have := slot_step I S i (o := some r.2) (hfoot _ _ hd f) (.some hr) (by rintro _ ⟨⟩; exact hp)
        rw [← hdo.extra, ← hs.extra] at ht
        exact ⟨_, by simp only [OWorld.step, hsrc, OWorld.upd, hd, if_neg hij, if_pos ht, e, Res.bind]; rfl, this⟩
      · cases h
  | addTerm i t b grow =>
    simp only [ValWorld.step, Option.bind_eq_some_iff] at h
    obtain ⟨v, hv, h⟩ := h
    cases h
    obtain ⟨d, hd, hs⟩ := shows_disj S hv
    obtain ⟨r, e, hr, f⟩ := pushTerm_foot I.base.ok grow t b (hlive hd).2.1 hs.terms
    have := slot_step I S i (h' := r.1)
      (o := some { d with terms := r.2, head := { d.head with numTerms := d.head.numTerms + 1 } })
      (v := some { v with terms := v.terms ++ [⟨t, b⟩]
                          head := { v.head with numTerms := v.head.numTerms + 1 } }) (hfoot _ _ hd f)
      (.some ⟨by simp [hs.head], hs.name, hs.params, hs.timer, hs.extra, hr⟩)
      (by rintro _ ⟨⟩; exact (hlive hd).2.2)
    exact ⟨_, by simp only [OWorld.step, OWorld.upd, hd, DisjM.addTerm, e, Res.bind]; rfl, this⟩
  | write i head name p timer =>
    simp only [ValWorld.step, Option.bind_eq_some_iff] at h
    obtain ⟨v, hv, h⟩ := h
    cases h
    obtain ⟨d, hd, hs⟩ := shows_disj S hv
    have := slot_step I S i (h' := w.bases)
      (o := some { d with head := { head with terms := [] }, name := name, params := p, timer := timer })
      (v := some { v with head := { head with terms := [] }, name := name, params := p, timer := timer })
      (hfoot _ _ hd (Foot.same I.base.ok (hlive hd).2.1)) (.some ⟨rfl, rfl, rfl, rfl, hs.extra, hs.terms⟩)
      (by rintro _ ⟨⟩; rfl)
    exact ⟨_, by simp only [OWorld.step, OWorld.upd, hd, Res.bind]; rfl, this⟩
  | writeExtra i e =>
    simp only [ValWorld.step, Option.bind_eq_some_iff] at h
    obtain ⟨v, hv, h⟩ := h
    obtain ⟨d, hd, hs⟩ := shows_disj S hv
    split at h
    · rename_i ht
      cases h
      have := slot_step I S i (h' := w.bases) (o := some { d with extra := e }) (v := some { v with extra := e })
        (hfoot _ _ hd (Foot.same I.base.ok (hlive hd).2.1))
        (.some ⟨hs.head, hs.name, hs.params, hs.timer, rfl, hs.terms⟩) (by rintro _ ⟨⟩; exact (hlive hd).2.2)
      rw [← hs.extra] at ht
      exact ⟨_, by simp only [OWorld.step, OWorld.upd, hd, if_pos ht, Res.bind]; rfl, this⟩
    · cases h
  | writeRounds i n =>
    simp only [ValWorld.step, Option.bind_eq_some_iff] at h
    obtain ⟨v, hv, h⟩ := h
    cases h
    obtain ⟨d, hd, hs⟩ := shows_disj S hv
    have := slot_step I S i (h' := w.bases) (o := some { d with rounds := some n })
      (hfoot _ _ hd (Foot.same I.base.ok (hlive hd).2.1))
      (.some ⟨hs.head, hs.name, hs.params, hs.timer, hs.extra, hs.terms⟩)
      (by rintro _ ⟨⟩; exact (hlive hd).2.2)
    rw [← hv, Function.update_eq_self] at this
    exact ⟨_, by simp only [OWorld.step, OWorld.upd, hd, Res.bind]; rfl, this⟩
  | reset i =>
    simp only [ValWorld.step, Option.bind_eq_some_iff] at h
    obtain ⟨v, hv, h⟩ := h
    cases h
    obtain ⟨d, hd, hs⟩ := shows_disj S hv
    obtain ⟨r, q, e1, e2, f⟩ := twiceClear_foot I.base.ok (hlive hd).1 (hlive hd).2.1
    have := slot_step I S i (h' := q.1)
      (o := some { d with head := Disj.new, name := [], extra := d.extra.reset, terms := [] })
      (hfoot _ _ hd f)
      (.some (b := { v with head := Disj.new, name := [], terms := [], extra := match v.extra with
          | .tree _ _ => .tree {} {} | .split x => .split x })
        ⟨rfl, rfl, hs.params, hs.timer, by rw [hs.extra]; rfl, .nil⟩)
      (by rintro _ ⟨⟩; rfl)
    exact ⟨_, by simp only [OWorld.step, OWorld.upd, hd, DisjM.reset, e1, e2, Res.bind]; rfl, this⟩
  | destroy i =>
    simp only [ValWorld.step, Option.bind_eq_some_iff] at h
    obtain ⟨v, hv, h⟩ := h
    cases h
    obtain ⟨d, hd, hs⟩ := shows_disj S hv
    obtain ⟨r, q, e1, e2, f⟩ := twiceClear_foot I.base.ok (hlive hd).1 (hlive hd).2.1
    have := slot_step I S i (h' := q.1) (o := none) (hfoot _ _ hd f) .none (by simp)
    exact ⟨_, by simp only [OWorld.step, hd, DisjM.destroy, e1, e2, Res.bind], this⟩
  | newSet k =>
    simp only [ValWorld.step] at h
    split at h
    · cases h
    · rename_i hfree
      cases h
      have hw := shows_freeSet S hfree
      refine ⟨w.putSet k ⟨[], DSet.new⟩, by simp [OWorld.step, hw], ?_⟩
      refine set_step I S k (w2 := w.putSet k ⟨[], DSet.new⟩) (o := some ⟨[], DSet.new⟩)
        (x := some ⟨[], DSet.new⟩) I.base I.fresh rfl (fun i => KeepsObj.refl _ _)
        (fun _ _ _ _ _ _ => KeepsObj.refl _ _) ?_ (.some ⟨rfl, .nil⟩)
      rintro _ ⟨⟩
      exact ⟨by simp, rfl, by simp⟩
  | copySet k l =>
    simp only [ValWorld.step, Option.bind_eq_some_iff] at h
    obtain ⟨x, hx, h⟩ := h
    split at h
    · cases h
    · rename_i hfree
      cases h
      obtain ⟨m, hm, hs⟩ := shows_set S hx
      have hw := shows_freeSet S hfree
      obtain ⟨q, e, hq⟩ := clone_set_step I S k l hm hs
      exact ⟨_, by simp only [OWorld.step, OWorld.onSet, hm, hw, Option.isSome_none, Bool.false_eq_true, if_false, e, Res.bind], hq⟩
  | assignSet k l =>
    simp only [ValWorld.step, Option.bind_eq_some_iff] at h
    obtain ⟨x, hx, y, hy, h⟩ := h
    cases h
    obtain ⟨m, hm, hs⟩ := shows_set S hx
    obtain ⟨t, ht, hst⟩ := shows_set S hy
    by_cases hkl : k = l
    · subst hkl
      refine ⟨w, by simp [OWorld.step, OWorld.onSet, hm], I, ?_⟩
      have : s.putSet k x = s := by
        unfold ValWorld.putSet
        rw [← hx, Function.update_eq_self]
      rw [this]
      exact S
    · obtain ⟨q, e, hq⟩ := clone_set_step I S k l hm hs
      exact ⟨_, by simp only [OWorld.step, OWorld.onSet, hm, ht, if_neg hkl, e, Res.bind], hq⟩
  | add k i =>
    simp only [ValWorld.step, Option.bind_eq_some_iff] at h
    obtain ⟨x, hx, v, hv, h⟩ := h
    obtain ⟨m, hm, hs⟩ := shows_set S hx
    obtain ⟨src, hsrc, hsv⟩ := shows_disj S hv
    obtain ⟨w1, e, C, hn1, d1, hd1, hv1⟩ := cloneTo_spec I.base I.fresh hsv (I.base.plain _ _ hsrc)
    have hlen : m.members.length = x.members.length := hs.members.length_eq
    split at h
    · rename_i sums hu
      cases h
      rw [← hs.sums, ← hv1.head, ← hlen] at hu
      have halive : ∀ l' t, w.sets l' = some t → ∀ p ∈ t.members, p < w.dnext := by
        intro l' t ht p hp
        have h1 := S.sets l'
        rw [ht] at h1
        cases hs : s.sets l' with
        | none => rw [hs] at h1; cases h1
        | some y =>
          rw [hs] at h1
          cases h1 with
          | some hr =>
            obtain ⟨d, hd⟩ := hr.alive p hp
            by_contra hc
            rw [I.fresh p (by omega)] at hd
            cases hd
      have hown : owns (w1.obj (.inr w.dnext)) = addrs d1.terms := by rw [hd1]; rfl
      have f : Foot w1.bases w1.bases (owns (w1.obj (.inr w.dnext)))
          (owns (some { d1 with head := { d1.head with id := (m.members.length : ℤ) } })) := by
        rw [hown]
        exact Foot.same C.base.ok (by rw [← hown]; exact C.base.nodup _)
      have hk2 : ∀ key, key ≠ Sum.inr w.dnext → KeepsObj w1 { w1 with
          obj := Function.update w1.obj (.inr w.dnext)
            (some { d1 with head := { d1.head with id := (m.members.length : ℤ) } })
          sets := Function.update w1.sets k (some ⟨m.members ++ [w.dnext], sums⟩) } key := by
        intro key hn
        exact C.base.keeps (w' := { w1 with
          obj := Function.update w1.obj (.inr w.dnext)
            (some { d1 with head := { d1.head with id := (m.members.length : ℤ) } })
          sets := Function.update w1.sets k (some ⟨m.members ++ [w.dnext], sums⟩) }) f rfl key hn
      refine ⟨{ w1 with
          obj := Function.update w1.obj (.inr w.dnext)
            (some { d1 with head := { d1.head with id := (m.members.length : ℤ) } })
          sets := Function.update w1.sets k (some ⟨m.members ++ [w.dnext], sums⟩) },
        by simp only [OWorld.step, OWorld.onSet, hm, hsrc, e, Res.bind, OWorld.addMember, hd1, hu], ?_⟩
      refine set_step I S k (w2 := { w1 with
          obj := Function.update w1.obj (.inr w.dnext)
            (some { d1 with head := { d1.head with id := (m.members.length : ℤ) } })
          sets := Function.update w1.sets k (some ⟨m.members ++ [w.dnext], sums⟩) })
        (o := some ⟨m.members ++ [w.dnext], sums⟩)
        (x := some ⟨x.members ++ [{ v with head := { v.head with id := (x.members.length : ℤ) } }], sums⟩)
        ?_ ?_ (by show Function.update w1.sets k _ = _; rw [C.sets]) ?_ ?_ ?_ ?_
      · exact C.base.replace _ _ f (dshow_live (v := { v with head := { v.head with id := m.members.length } })
          ⟨by simp [hv1.head], hv1.name, hv1.params, hv1.timer, hv1.extra, hv1.terms⟩)
          (by rintro _ ⟨⟩; have := C.base.plain _ _ hd1; exact this)
      · intro p hp
        have hp' : w1.dnext ≤ p := hp
        exact (hk2 (.inr p) (by simp; omega)).1.trans (C.fresh p hp')
      · exact fun j => (C.keepL j).trans (hk2 _ (by simp))
      · intro l t _ ht p hp
        have := halive l t ht p hp
        exact (C.keepR p this).trans (hk2 _ (by simp; omega))
      · rintro _ ⟨⟩
        refine ⟨?_, ?_, fun l t hl ht p hp hc => ?_⟩
        · rw [List.nodup_append]
          refine ⟨(I.members k m hm).1, by simp, fun a ha b hb hab => ?_⟩
          simp only [List.mem_singleton] at hb
          have := halive k m hm a ha
          omega
        · rw [updateObj_disjs hu]; exact (I.members k m hm).2
        · simp only [List.mem_append, List.mem_singleton] at hp
          rcases hp with hp | hp
          · exact I.apart l k t m hl ht hm p hc hp
          · have := halive l t ht p hc
            omega
      · refine .some ⟨rfl, ?_⟩
        refine List.rel_append (?_ : List.Forall₂ _ m.members x.members) (.cons ⟨{ d1 with head := { d1.head with id := (m.members.length : ℤ) } }, by simp, ?_⟩ .nil)
        · refine (hs.keeps fun p hp => ?_).members
          have := halive k m hm p hp
          exact (C.keepR p this).trans (hk2 _ (by simp; omega))
        · exact ⟨by simp [hv1.head, hlen], hv1.name, hv1.params, hv1.timer, hv1.extra, hv1.terms⟩
    · cases h
  | resetSet k =>
    simp only [ValWorld.step, Option.bind_eq_some_iff] at h
    obtain ⟨x, hx, h⟩ := h
    cases h
    obtain ⟨m, hm, hs⟩ := shows_set S hx
    refine ⟨w.putSet k ⟨[], DSet.new⟩, by simp [OWorld.step, OWorld.onSet, hm], ?_⟩
    refine set_step I S k (w2 := w.putSet k ⟨[], DSet.new⟩) (o := some ⟨[], DSet.new⟩)
      (x := some ⟨[], DSet.new⟩) I.base I.fresh rfl (fun i => KeepsObj.refl _ _)
      (fun _ _ _ _ _ _ => KeepsObj.refl _ _) ?_ (.some ⟨rfl, .nil⟩)
    rintro _ ⟨⟩
    exact ⟨by simp, rfl, by simp⟩
  | destroySet k =>
    simp only [ValWorld.step, Option.bind_eq_some_iff] at h
    obtain ⟨x, hx, h⟩ := h
    cases h
    obtain ⟨m, hm, hs⟩ := shows_set S hx
    obtain ⟨w1, e, B1, hn1, hs1, hkl, hkr, _⟩ := deleteMembers_spec I.base I.fresh (I.members k m hm).1 hs.alive
    refine ⟨{ w1 with sets := Function.update w1.sets k none },
      by simp only [OWorld.step, OWorld.onSet, hm, e, Res.bind], ?_⟩
    refine set_step I S k (w2 := { w1 with sets := Function.update w1.sets k none }) (o := none) (x := none)
      B1 ?_ (by rw [hs1]) hkl ?_ (by simp) .none
    · intro p hp
      have hp' : w1.dnext ≤ p := hp
      by_cases hpm : p ∈ m.members
      · obtain ⟨d, hd⟩ := hs.alive p hpm
        rw [I.fresh p (by omega)] at hd
        cases hd
      · exact (hkr p hpm).1.trans (I.fresh p (by omega))
    · intro l t hl ht p hp
      exact hkr p (I.apart l k t m hl ht hm p hp)

theorem oinit_inv : OInv (OWorld.init : OWorld β π) :=
  ⟨⟨fun _ _ => rfl, fun _ => by simp [OWorld.init, owns], fun _ _ _ a ha => by simp [OWorld.init, owns] at ha,
    fun a => by simp [OWorld.init, owns], fun _ _ h => by cases h⟩, fun _ _ => rfl, fun _ _ h => (by cases h),
    fun _ _ _ _ _ h => (by cases h)⟩

theorem oinit_shows : Shows (OWorld.init : OWorld β π) ValWorld.init :=
  ⟨fun _ => .none, fun _ => .none⟩

theorem orun_inv {ops : List (OOp β π)} : ∀ {w : OWorld β π} {s s' : ValWorld β π}, OInv w → Shows w s →
    s.run ops = some s' → ∃ w', w.run ops = .ok w' ∧ OInv w' ∧ Shows w' s' := by
  induction ops with
  | nil => intro w s s' I S h; cases h; exact ⟨w, rfl, I, S⟩
  | cons op ops ih =>
    intro w s s' I S h
    simp only [ValWorld.run, Option.bind_eq_some_iff] at h
    obtain ⟨s1, h1, h2⟩ := h
    obtain ⟨w1, e1, I1, S1⟩ := step_shows I S op h1
    obtain ⟨w2, e2, I2, S2⟩ := ih I1 S1 h2
    exact ⟨w2, by simp only [OWorld.run, e1, Res.bind, e2], I2, S2⟩

theorem addrs_inj {ts : List TermM} (hn : (addrs ts).Nodup) {i j : ℕ} {t u : TermM} {a : ℕ}
    (hi : ts[i]? = some t) (hj : ts[j]? = some u) (ht : t.basis = some a) (hu : u.basis = some a) : i = j := by
  induction ts generalizing i j with
  | nil => simp at hi
  | cons x xs ih =>
    rw [addrs_cons] at hn
    have hd := List.nodup_append.mp hn
    have hm : ∀ {k : ℕ} {y : TermM}, xs[k]? = some y → y.basis = some a → a ∈ addrs xs :=
      fun hk hy => mem_addrs.mpr ⟨_, List.mem_of_getElem? hk, hy⟩
    cases i with
    | zero =>
      cases j with
      | zero => rfl
      | succ j =>
        simp at hi hj
        subst hi
        exact absurd rfl (hd.2.2 a (by simp [ht]) a (hm hj hu))
    | succ i =>
      cases j with
      | zero =>
        simp at hi hj
        subst hj
        exact absurd rfl (hd.2.2 a (by simp [hu]) a (hm hi ht))
      | succ j =>
        simp at hi hj
        rw [ih hd.2.1 hi hj]

/-! ## Theorems -/

/-- **C126 (values).** Any program over disjunctions and sets that is meaningful for values runs without
undefined behaviour (no basis or member is used after it was deleted, none is deleted twice), and afterwards
every disjunction and every set shows exactly the value: copies and assignments are full and independent, up to the
number of rounds, which is not part of the value. -/
theorem objects_are_values {ops : List (OOp β π)} {s' : ValWorld β π} (h : ValWorld.init.run ops = some s') :
    ∃ w', OWorld.init.run ops = .ok w' ∧ Shows w' s' := by
  obtain ⟨w', e, _, S⟩ := orun_inv oinit_inv oinit_shows h
  exact ⟨w', e, S⟩

/-- **C126 (bases).** After any such program every allocated basis belongs to a term of an existing
disjunction, and to one term only. -/
theorem no_basis_leak {ops : List (OOp β π)} {s' : ValWorld β π} {w' : OWorld β π}
    (h : ValWorld.init.run ops = some s') (hw : OWorld.init.run ops = .ok w') (a : ℕ)
    (ha : w'.bases.mem a ≠ none) :
    ∃ k d, ∃ i : ℕ, ∃ t : TermM, w'.obj k = some d ∧ d.terms[i]? = some t ∧ t.basis = some a ∧
      ∀ k' d', ∀ i' : ℕ, ∀ t' : TermM, w'.obj k' = some d' → d'.terms[i']? = some t' → t'.basis = some a → k' = k ∧ i' = i := by
  obtain ⟨w1, e, I, _⟩ := orun_inv oinit_inv oinit_shows h
  rw [hw] at e
  cases e
  obtain ⟨k, hk⟩ := (I.base.exact a).mp ha
  cases hd : w'.obj k with
  | none => rw [hd] at hk; simp [owns] at hk
  | some d =>
    have hk0 := hk
    rw [hd] at hk
    obtain ⟨t, ht, hb⟩ := mem_addrs.mp hk
    obtain ⟨i, hi, hti⟩ := List.mem_iff_getElem.mp ht
    refine ⟨k, d, i, t, hd, by rw [List.getElem?_eq_getElem hi, hti], hb, fun k' d' i' t' hd' hi' hb' => ?_⟩
    have ha' : a ∈ owns (w'.obj k') := by
      rw [hd']; exact mem_addrs.mpr ⟨t', List.mem_of_getElem? hi', hb'⟩
    have hkk : k' = k := by
      by_contra hne
      exact I.base.disj k' k hne a ha' hk0
    refine ⟨hkk, ?_⟩
    subst hkk
    rw [hd] at hd'
    cases hd'
    have hnd : (addrs d.terms).Nodup := by
      have := I.base.nodup k'
      rw [hd] at this
      exact this
    have hi2 : d.terms[i]? = some t := by rw [List.getElem?_eq_getElem hi, hti]
    exact addrs_inj hnd hi' hi2 hb' hb

/-- No member of a set is left without the set. -/
def NoLeak (w : OWorld β π) : Prop :=
  ∀ p, (w.obj (.inr p)).isSome = true → ∃ k m, w.sets k = some m ∧ p ∈ m.members

/-- The operations that do not overwrite a set. -/
def SafeOp : OOp β π → Prop
  | .assignSet k l => k = l
  | .resetSet _ => False
  | _ => True

theorem create_plain {w w' : OWorld β π} {i : ℕ} {r : Res (BMem β × DisjM π)} (h : w.create i r = .ok w') :
    w'.sets = w.sets ∧ ∀ p, w'.obj (.inr p) = w.obj (.inr p) := by
  unfold OWorld.create at h
  split at h
  · cases h
  · obtain ⟨x, _, h⟩ := Res.bind_ok h
    cases h
    exact ⟨rfl, fun p => by simp [OWorld.put]⟩

theorem upd_plain {w w' : OWorld β π} {i : ℕ} {f : DisjM π → Res (BMem β × DisjM π)} (h : w.upd i f = .ok w') :
    w'.sets = w.sets ∧ ∀ p, w'.obj (.inr p) = w.obj (.inr p) := by
  unfold OWorld.upd at h
  split at h
  · cases h
  · obtain ⟨x, _, h⟩ := Res.bind_ok h
    cases h
    exact ⟨rfl, fun p => by simp [OWorld.put]⟩

theorem cloneTo_plain {w w' : OWorld β π} {d : DisjM π} (h : w.cloneTo d = .ok w') :
    w'.sets = w.sets ∧ ∀ p, (w'.obj (.inr p)).isSome = true → (w.obj (.inr p)).isSome = true ∨ p = w.dnext := by
  unfold OWorld.cloneTo at h
  obtain ⟨x, _, h⟩ := Res.bind_ok h
  cases h
  refine ⟨rfl, fun p hp => ?_⟩
  by_cases he : p = w.dnext
  · exact Or.inr he
  · left
    simpa [OWorld.put, Function.update_of_ne (show Sum.inr p ≠ (Sum.inr w.dnext : ℕ ⊕ ℕ) by simpa using he)] using hp

theorem cloneMembers_plain {ps : List ℕ} : ∀ {w : OWorld β π} {q : OWorld β π × List ℕ},
    w.cloneMembers ps = .ok q → q.1.sets = w.sets ∧
      ∀ p, (q.1.obj (.inr p)).isSome = true → (w.obj (.inr p)).isSome = true ∨ p ∈ q.2 := by
  induction ps with
  | nil => intro w q h; cases h; exact ⟨rfl, fun p hp => Or.inl hp⟩
  | cons x ps ih =>
    intro w q h
    unfold OWorld.cloneMembers at h
    split at h
    · cases h
    · obtain ⟨w1, h1, h⟩ := Res.bind_ok h
      obtain ⟨q1, h2, h⟩ := Res.bind_ok h
      cases h
      obtain ⟨a1, b1⟩ := cloneTo_plain h1
      obtain ⟨a2, b2⟩ := ih h2
      refine ⟨a2.trans a1, fun p hp => ?_⟩
      rcases b2 p hp with h' | h'
      · rcases b1 p h' with h'' | h''
        · exact Or.inl h''
        · exact Or.inr (by simp [h''])
      · exact Or.inr (by simp [h'])

theorem deleteMembers_plain {ps : List ℕ} : ∀ {w w1 : OWorld β π}, w.deleteMembers ps = .ok w1 →
    w1.sets = w.sets ∧ ∀ p, (w1.obj (.inr p)).isSome = true → (w.obj (.inr p)).isSome = true ∧ p ∉ ps := by
  induction ps with
  | nil => intro w w1 h; cases h; exact ⟨rfl, fun p hp => ⟨hp, by simp⟩⟩
  | cons x ps ih =>
    intro w w1 h
    unfold OWorld.deleteMembers at h
    split at h
    · cases h
    · obtain ⟨h0, _, h⟩ := Res.bind_ok h
      obtain ⟨a2, b2⟩ := ih h
      refine ⟨a2, fun p hp => ?_⟩
      obtain ⟨h1, h2⟩ := b2 p hp
      dsimp only at h1
      by_cases he : p = x
      · subst he; simp at h1
      · rw [Function.update_of_ne (show Sum.inr p ≠ (Sum.inr x : ℕ ⊕ ℕ) by simpa using he)] at h1
        exact ⟨h1, by simp [he, h2]⟩

theorem onSet_ok {w w' : OWorld β π} {k : ℕ} {f : SetM → Res (OWorld β π)} (h : w.onSet k f = .ok w') :
    ∃ m, w.sets k = some m ∧ f m = .ok w' := by
  unfold OWorld.onSet at h
  split at h
  · cases h
  · rename_i m hm; exact ⟨m, hm, h⟩

theorem step_noleak {w w' : OWorld β π} {op : OOp β π} (h : w.step op = .ok w') (hop : SafeOp op)
    (N : NoLeak w) : NoLeak w' := by
  have plain : (w'.sets = w.sets ∧ ∀ p, w'.obj (.inr p) = w.obj (.inr p)) → NoLeak w' := by
    rintro ⟨h1, h2⟩ p hp
    rw [h2] at hp
    rw [h1]
    exact N p hp
  have newset : ∀ (w1 : OWorld β π) (k : ℕ) (m : SetM), w.sets k = none → w1.sets = w.sets →
      (∀ p, (w1.obj (.inr p)).isSome = true → (w.obj (.inr p)).isSome = true ∨ p ∈ m.members) →
      NoLeak (w1.putSet k m) := by
    intro w1 k m hk hs hm p hp
    rcases hm p hp with h' | h'
    · obtain ⟨l, t, ht, hpt⟩ := N p h'
      have hlk : l ≠ k := by rintro rfl; rw [hk] at ht; cases ht
      exact ⟨l, t, by simp only [OWorld.putSet]; rw [Function.update_of_ne hlk, hs]; exact ht, hpt⟩
    · exact ⟨k, m, by simp [OWorld.putSet], h'⟩
  cases op with
  | new i tree p => exact plain (create_plain h)
  | copy i j p =>
    simp only [OWorld.step] at h
    split at h
    · cases h
    · exact plain (create_plain h)
  | assign i j =>
    simp only [OWorld.step] at h
    split at h
    · cases h
    · exact plain (upd_plain h)
  | addTerm i t b grow => exact plain (upd_plain h)
  | write i head name p timer => exact plain (upd_plain h)
  | writeExtra i e => exact plain (upd_plain h)
  | writeRounds i n => exact plain (upd_plain h)
  | reset i => exact plain (upd_plain h)
  | destroy i =>
    simp only [OWorld.step] at h
    split at h
    · cases h
    · obtain ⟨x, _, h⟩ := Res.bind_ok h
      cases h
      exact plain ⟨rfl, fun p => by simp⟩
  | newSet k =>
    simp only [OWorld.step] at h
    split at h
    · cases h
    · rename_i hk
      cases h
      exact newset w k _ (by simpa using hk) rfl fun p hp => Or.inl hp
  | copySet k l =>
    obtain ⟨m, hm, h⟩ := onSet_ok h
    split at h
    · cases h
    · rename_i hk
      obtain ⟨q, hq, h⟩ := Res.bind_ok h
      cases h
      obtain ⟨a, b⟩ := cloneMembers_plain hq
      exact newset q.1 k _ (by simpa using hk) a b
  | assignSet k l =>
    have hkl : k = l := hop
    obtain ⟨m, hm, h⟩ := onSet_ok h
    obtain ⟨t, ht, h⟩ := onSet_ok h
    rw [if_pos hkl] at h
    cases h
    exact N
  | add k i =>
    obtain ⟨m, hm, h⟩ := onSet_ok h
    split at h
    · cases h
    · obtain ⟨w1, h1, h⟩ := Res.bind_ok h
      obtain ⟨a, b⟩ := cloneTo_plain h1
      unfold OWorld.addMember at h
      split at h
      · cases h
      · obtain ⟨sums, _, h⟩ := Res.bind_ok h
        cases h
        intro p hp
        dsimp only at hp ⊢
        have hk : ∃ m', Function.update w1.sets k (some ⟨m.members ++ [w.dnext], sums⟩) k = some m' ∧
            ∀ p, p ∈ m'.members ↔ p ∈ m.members ∨ p = w.dnext :=
          ⟨⟨m.members ++ [w.dnext], sums⟩, by simp, by simp⟩
        obtain ⟨m', hm', hmem⟩ := hk
        by_cases he : p = w.dnext
        · exact ⟨k, m', hm', (hmem p).mpr (Or.inr he)⟩
        · rw [Function.update_of_ne (show Sum.inr p ≠ (Sum.inr w.dnext : ℕ ⊕ ℕ) by simpa using he)] at hp
          rcases b p hp with h' | h'
          · obtain ⟨l, t, ht, hpt⟩ := N p h'
            by_cases hlk : l = k
            · subst hlk
              rw [hm] at ht
              cases ht
              exact ⟨l, m', hm', (hmem p).mpr (Or.inl hpt)⟩
            · exact ⟨l, t, by rw [Function.update_of_ne hlk, a]; exact ht, hpt⟩
          · exact absurd h' he
  | resetSet k => exact absurd hop id
  | destroySet k =>
    obtain ⟨m, hm, h⟩ := onSet_ok h
    obtain ⟨w1, h1, h⟩ := Res.bind_ok h
    cases h
    obtain ⟨a, b⟩ := deleteMembers_plain h1
    intro p hp
    obtain ⟨h2, h3⟩ := b p hp
    obtain ⟨l, t, ht, hpt⟩ := N p h2
    have hlk : l ≠ k := by rintro rfl; rw [hm] at ht; cases ht; exact h3 hpt
    exact ⟨l, t, by dsimp only; rw [Function.update_of_ne hlk, a]; exact ht, hpt⟩

theorem run_noleak {ops : List (OOp β π)} : ∀ {w w' : OWorld β π}, w.run ops = .ok w' →
    (∀ op ∈ ops, SafeOp op) → NoLeak w → NoLeak w' := by
  induction ops with
  | nil => intro w w' h _ N; cases h; exact N
  | cons op ops ih =>
    intro w w' h hs N
    obtain ⟨w1, h1, h2⟩ := Res.bind_ok h
    exact ih h2 (fun o ho => hs o (by simp [ho])) (step_noleak h1 (hs op (by simp)) N)

/-- **C126 (members), for programs that do not overwrite a set** (the full statement, for all programs, is
false: `assigned_set_leaks`, `reset_set_leaks`). When all objects of the program are destroyed, no
disjunction and no basis is left. -/
theorem all_freed_partial {ops : List (OOp β π)} {s' : ValWorld β π} {w' : OWorld β π}
    (h : ValWorld.init.run ops = some s') (hw : OWorld.init.run ops = .ok w') (hs : ∀ op ∈ ops, SafeOp op)
    (hd : ∀ i, s'.disj i = none) (hk : ∀ k, s'.sets k = none) :
    (∀ k, w'.obj k = none) ∧ ∀ a, w'.bases.mem a = none := by
  obtain ⟨w1, e, I, S⟩ := orun_inv oinit_inv oinit_shows h
  rw [hw] at e
  cases e
  have N := run_noleak hw hs (fun p hp => by simp [OWorld.init] at hp)
  have hobj : ∀ k, w'.obj k = none := by
    intro k
    cases k with
    | inl i => exact shows_free S (by simp [hd i])
    | inr p =>
      by_contra hc
      obtain ⟨k, m, hm, _⟩ := N p (by cases hx : w'.obj (.inr p) with
        | none => exact absurd hx hc
        | some d => rfl)
      rw [shows_freeSet S (by simp [hk k])] at hm
      cases hm
  refine ⟨hobj, fun a => ?_⟩
  by_contra hc
  obtain ⟨k, hk⟩ := (I.base.exact a).mp hc
  rw [hobj k] at hk
  simp [owns] at hk

/-! ## Witnesses -/

/-- A term with one changed bound. -/
def ocTerm : Term := { obj := 3, changes := [⟨0, 1, 2⟩], feasible := true, ineqs := [] }

/-- A tree with two terms (one has a basis), copied into a set twice; the set is copied, the original
changed and destroyed. -/
def ocProg : List (OOp ℕ Unit) :=
  [.new 0 true (), .addTerm 0 ocTerm (some 7) false, .addTerm 0 ocTerm none true, .writeRounds 0 3,
   .newSet 0, .add 0 0, .add 0 0, .copySet 1 0, .copy 1 0 none, .reset 0, .assign 0 1, .destroy 0]

/-- Everything is destroyed. -/
def ocEnd : List (OOp ℕ Unit) := [.destroySet 0, .destroySet 1, .destroy 1]

/-- The value of the disjunction in `ocProg`. -/
def ocVal : DisjV ℕ Unit :=
  { head := { numTerms := 2 }, name := [], params := (), timer := none, extra := .tree {} {}
    terms := [⟨ocTerm, some 7⟩, ⟨ocTerm, none⟩] }

example : ((ValWorld.init : ValWorld ℕ Unit).run ocProg).isSome = true ∧
    (((ValWorld.init : ValWorld ℕ Unit).run ocProg).bind (·.disj 1)) = some ocVal ∧
    ((((ValWorld.init : ValWorld ℕ Unit).run ocProg).bind (·.sets 1)).map (·.members)) =
      some [{ ocVal with head := { ocVal.head with id := 0 } }, { ocVal with head := { ocVal.head with id := 1 } }] := by
  decide +kernel

example : (∀ op ∈ ocProg ++ ocEnd, SafeOp op) ∧
    ((ValWorld.init : ValWorld ℕ Unit).run (ocProg ++ ocEnd)).isSome = true := by
  refine ⟨?_, by decide +kernel⟩
  intro op hop
  fin_cases hop <;> exact trivial

/-- What remains of the members at the end. -/
def Res.left (r : Res (OWorld ℕ Unit)) (p a : ℕ) : Option (Bool × Option ℕ) :=
  match r with
  | .ok w => some ((w.obj (.inr p)).isSome, w.bases.mem a)
  | _ => none

/-- **C126 is violated (assignment of sets).** The members of the target are neither deleted nor reachable any
more: one member with its basis is left when everything has been destroyed. -/
theorem assigned_set_leaks :
    ((ValWorld.init : ValWorld ℕ Unit).run
      [.new 0 true (), .addTerm 0 ocTerm (some 7) false, .newSet 0, .add 0 0, .newSet 1, .assignSet 0 1,
       .destroySet 0, .destroySet 1, .destroy 0]).isSome = true ∧
    ((OWorld.init : OWorld ℕ Unit).run
      [.new 0 true (), .addTerm 0 ocTerm (some 7) false, .newSet 0, .add 0 0, .newSet 1, .assignSet 0 1,
       .destroySet 0, .destroySet 1, .destroy 0]).left 0 2 = some (true, some 7) := by
  decide +kernel

/-- **C126 is violated (`setupAsNew` of a set).** The members are left when everything has been destroyed. -/
theorem reset_set_leaks :
    ((ValWorld.init : ValWorld ℕ Unit).run
      [.new 0 true (), .addTerm 0 ocTerm (some 7) false, .newSet 0, .add 0 0, .resetSet 0, .destroySet 0,
       .destroy 0]).isSome = true ∧
    ((OWorld.init : OWorld ℕ Unit).run
      [.new 0 true (), .addTerm 0 ocTerm (some 7) false, .newSet 0, .add 0 0, .resetSet 0, .destroySet 0,
       .destroy 0]).left 0 2 = some (true, some 7) := by
  decide +kernel

/-- **C126 is violated (number of rounds).** A copy of a tree-based disjunction does not get the round of the
source: whatever the source, its number is indeterminate and naming the file for the tree is undefined. -/
theorem copied_round_undefined {h : BMem β} {src : DisjM π} {p : Option π} {r : BMem β × DisjM π}
    (hc : src.copy h p = .ok r) : r.2.rounds = none ∧ treeFileRound r.2 = .undef := by
  unfold DisjM.copy DisjM.init at hc
  obtain ⟨x, _, hc⟩ := Res.bind_ok hc
  obtain ⟨y, _, hc⟩ := Res.bind_ok hc
  cases hc
  exact ⟨rfl, rfl⟩

/-- **C126 is violated (number of rounds).** Assignment leaves the number of the target. -/
theorem assigned_round_kept {h : BMem β} {d src : DisjM π} {p : Option π} {r : BMem β × DisjM π}
    (hc : d.init h src p = .ok r) : r.2.rounds = d.rounds := by
  unfold DisjM.init at hc
  obtain ⟨x, _, hc⟩ := Res.bind_ok hc
  obtain ⟨y, _, hc⟩ := Res.bind_ok hc
  cases hc
  rfl

/-- An object of the user has a number of rounds exactly when the program wrote one since it was made. -/
example : ∃ r : BMem ℕ × DisjM Unit,
    ({ (DisjM.fresh true ()) with rounds := some 3 } : DisjM Unit).copy ⟨fun _ => none, 0⟩ none = .ok r ∧
      treeFileRound ({ (DisjM.fresh true ()) with rounds := some 3 } : DisjM Unit) = .ok 3 ∧
      treeFileRound r.2 = .undef :=
  ⟨_, rfl, rfl, rfl⟩

end VPC
