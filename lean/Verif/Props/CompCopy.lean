import Verif.Model.CompCopy

/-!
# C137, C138: copies of choosers are independent values; copies of point-ray LPs are not
-/
namespace VPC

variable {σ π ρ : Type}

/-! ## Specification: choosers as values -/

/-- A chooser as a value: its settings, the results, their number. -/
structure CVal (σ π ρ : Type) where
  own : ChooserOwn σ π
  results : Option (List ρ)
  numResults : ℕ

/-- The specification of the operations: values, without a heap. -/
def cvalStep (d : ρ) (w : ℕ → Option (CVal σ π ρ)) : COp σ π ρ → Option (ℕ → Option (CVal σ π ρ))
  | .make i b p => if (w i).isSome then none else some (Function.update w i (some ⟨⟨b, 0, -1, 0, 0, p⟩, none, 0⟩))
  | .copy i j => if (w i).isSome then none else
      (w j).bind fun s => some (Function.update w i (some ⟨s.own, none, 0⟩))
  | .assign i j => (w j).bind fun s => (w i).bind fun c =>
      some (if i = j then w else Function.update w i (some { c with own := s.own, results := none, numResults := 0 }))
  | .learn i s => (w i).bind fun c => some (Function.update w i (some { c with own := s }))
  | .reset i n => (w i).bind fun c =>
      some (Function.update w i (some { c with results := some (List.replicate n d), numResults := 0 }))
  | .store i k r b => (w i).bind fun c => c.results.bind fun arr =>
      if k < arr.length then
        some (Function.update w i (some { c with results := some (arr.set k r), numResults := if b then c.numResults + 1 else c.numResults }))
      else none
  | .read i k => (w i).bind fun c => c.results.bind fun arr => if k < arr.length then some w else none
  | .destroy i => (w i).bind fun _ => some (Function.update w i none)

/-- Programs of the specification. -/
def cvalRun (d : ρ) : (ℕ → Option (CVal σ π ρ)) → List (COp σ π ρ) → Option (ℕ → Option (CVal σ π ρ))
  | w, [] => some w
  | w, o :: os => (cvalStep d w o).bind fun w => cvalRun d w os

/-- What a chooser in memory shows. -/
def Chooser.view (h : BMem (List ρ)) (c : Chooser σ π) : CVal σ π ρ := ⟨c.own, c.results.bind h.mem, c.numResults⟩

/-- Memory: every array is owned by exactly one chooser alive. -/
structure CInv (w : CWorld σ π ρ) : Prop where
  alive : ∀ i c a, w.objs i = some c → c.results = some a → (w.heap.mem a).isSome
  excl : ∀ i j c c' a, w.objs i = some c → w.objs j = some c' → c.results = some a → c'.results = some a → i = j
  owned : ∀ a, (w.heap.mem a).isSome → ∃ i c, w.objs i = some c ∧ c.results = some a
  fresh : ∀ a, (w.heap.mem a).isSome → a < w.heap.next

/-- All choosers as values. -/
def CWorld.view (w : CWorld σ π ρ) : ℕ → Option (CVal σ π ρ) := fun i => (w.objs i).map (Chooser.view w.heap)

theorem CInv.init : CInv (CWorld.init : CWorld σ π ρ) := by
  constructor <;> intros <;> simp_all [CWorld.init]

theorem cview_init : (CWorld.init : CWorld σ π ρ).view = fun _ => none := by
  funext i; simp [CWorld.view, CWorld.init]

/-- Changing one object and blocks no other object owns. -/
theorem cview_update (w : CWorld σ π ρ) (h : BMem (List ρ)) (i : ℕ) (c : Option (Chooser σ π))
    (keep : ∀ j cj a, j ≠ i → w.objs j = some cj → cj.results = some a → h.mem a = w.heap.mem a) :
    (⟨h, Function.update w.objs i c⟩ : CWorld σ π ρ).view = Function.update w.view i (c.map (Chooser.view h)) := by
  funext j
  unfold CWorld.view
  dsimp only
  by_cases hj : j = i
  · subst hj; simp
  · rw [Function.update_of_ne hj, Function.update_of_ne hj]
    cases hc : w.objs j with
    | none => rfl
    | some cj =>
      simp only [Option.map_some, Chooser.view]
      congr 2
      cases hr : cj.results with
      | none => rfl
      | some a => exact keep j cj a hj hc hr

/-- Deleting the array of an object. -/
theorem delete_own (w : CWorld σ π ρ) (hw : CInv w) (i : ℕ) (c : Chooser σ π) (hc : w.objs i = some c) :
    ∃ h, w.heap.delete c.results = .ok h ∧ h.next = w.heap.next ∧
      (∀ a, h.mem a = if c.results = some a then none else w.heap.mem a) := by
  cases hr : c.results with
  | none => exact ⟨w.heap, rfl, rfl, fun a => by simp⟩
  | some a =>
    have ha := hw.alive i c a hc hr
    cases hm : w.heap.mem a with
    | none => rw [hm] at ha; cases ha
    | some arr =>
      refine ⟨{ w.heap with mem := Function.update w.heap.mem a none }, by simp [BMem.delete, hm], rfl, fun b => ?_⟩
      dsimp only
      by_cases hb : b = a
      · subst hb; simp
      · rw [Function.update_of_ne hb, if_neg (by simpa using Ne.symm hb)]

/-- One operation: memory stays in order, and the values change as specified; it is undefined exactly if the
specification says so. -/
theorem cstep_refines (d : ρ) (w : CWorld σ π ρ) (hw : CInv w) (o : COp σ π ρ) :
    match cvalStep d w.view o with
    | none => w.step d o = .undef
    | some v => ∃ w', w.step d o = .ok w' ∧ CInv w' ∧ w'.view = v := by
  have vi : ∀ i, w.view i = (w.objs i).map (Chooser.view w.heap) := fun i => rfl
  have nores : ∀ (i : ℕ) (c : Chooser σ π), w.objs i = none → c.results = none →
      CInv (⟨w.heap, Function.update w.objs i (some c)⟩ : CWorld σ π ρ) := by
    intro i c hi hr
    constructor
    · intro j cj a hj ha
      dsimp only at hj
      by_cases hji : j = i
      · subst hji; rw [Function.update_self] at hj; cases hj; rw [hr] at ha; cases ha
      · rw [Function.update_of_ne hji] at hj; exact hw.alive j cj a hj ha
    · intro j k cj ck a hj hk ha hb
      dsimp only at hj hk
      by_cases hji : j = i
      · subst hji; rw [Function.update_self] at hj; cases hj; rw [hr] at ha; cases ha
      · by_cases hki : k = i
        · subst hki; rw [Function.update_self] at hk; cases hk; rw [hr] at hb; cases hb
        · rw [Function.update_of_ne hji] at hj; rw [Function.update_of_ne hki] at hk
          exact hw.excl j k cj ck a hj hk ha hb
    · intro a ha
      obtain ⟨j, cj, hj, hr'⟩ := hw.owned a ha
      have : j ≠ i := by rintro rfl; rw [hi] at hj; cases hj
      exact ⟨j, cj, by dsimp only; rw [Function.update_of_ne this, hj], hr'⟩
    · exact hw.fresh
  have mk : ∀ (i : ℕ) (c : Chooser σ π), w.objs i = none → c.results = none →
      ∃ w', w.create i c = .ok w' ∧ CInv w' ∧ w'.view = Function.update w.view i (some ⟨c.own, none, c.numResults⟩) := by
    intro i c hi hr
    unfold CWorld.create; rw [hi]
    refine ⟨_, rfl, nores i c hi hr, ?_⟩
    rw [cview_update w w.heap i (some c) (fun _ _ _ _ _ _ => rfl)]
    simp [Chooser.view, hr]
  -- after deleting the own array, the object without it is fine
  have drop : ∀ (i : ℕ) (c c' : Chooser σ π) (h : BMem (List ρ)), w.objs i = some c → c'.results = none →
      h.next = w.heap.next → (∀ a, h.mem a = if c.results = some a then none else w.heap.mem a) →
      CInv (⟨h, Function.update w.objs i (some c')⟩ : CWorld σ π ρ) ∧
      CInv (⟨h, Function.update w.objs i none⟩ : CWorld σ π ρ) ∧
      ∀ j cj a, j ≠ i → w.objs j = some cj → cj.results = some a → h.mem a = w.heap.mem a := by
    intro i c c' h hi hr hn hm
    have keep : ∀ j cj a, j ≠ i → w.objs j = some cj → cj.results = some a → h.mem a = w.heap.mem a := by
      intro j cj a hj hcj ha
      rw [hm, if_neg]
      intro hca
      exact hj (hw.excl j i cj c a hcj hi ha hca)
    have gen : ∀ x : Option (Chooser σ π), (∀ y, x = some y → y.results = none) →
        CInv (⟨h, Function.update w.objs i x⟩ : CWorld σ π ρ) := by
      intro x hx
      constructor
      · intro j cj a hj ha
        dsimp only at hj ⊢
        by_cases hji : j = i
        · subst hji; rw [Function.update_self] at hj; rw [hx cj hj] at ha; cases ha
        · rw [Function.update_of_ne hji] at hj; rw [keep j cj a hji hj ha]; exact hw.alive j cj a hj ha
      · intro j k cj ck a hj hk ha hb
        dsimp only at hj hk
        by_cases hji : j = i
        · subst hji; rw [Function.update_self] at hj; rw [hx cj hj] at ha; cases ha
        · by_cases hki : k = i
          · subst hki; rw [Function.update_self] at hk; rw [hx ck hk] at hb; cases hb
          · rw [Function.update_of_ne hji] at hj; rw [Function.update_of_ne hki] at hk
            exact hw.excl j k cj ck a hj hk ha hb
      · intro a ha
        dsimp only at ha
        rw [hm] at ha
        split at ha
        · cases ha
        · rename_i hne
          obtain ⟨j, cj, hj, hr'⟩ := hw.owned a ha
          have : j ≠ i := by
            rintro rfl
            rw [hi] at hj; cases hj
            exact hne hr'
          exact ⟨j, cj, by dsimp only; rw [Function.update_of_ne this, hj], hr'⟩
      · intro a ha
        dsimp only at ha ⊢
        rw [hm] at ha
        split at ha
        · cases ha
        · rw [hn]; exact hw.fresh a ha
    exact ⟨gen _ (fun y hy => by cases hy; exact hr), gen _ (fun y hy => by cases hy), keep⟩
  cases o with
  | make i b p =>
    simp only [cvalStep, CWorld.step, vi]
    cases hi : w.objs i with
    | some c => simp [CWorld.create, hi]
    | none => simp only [Option.map_none, Option.isSome_none, Bool.false_eq_true, if_false]; exact mk i _ hi rfl
  | copy i j =>
    simp only [cvalStep, CWorld.step, vi]
    cases hj : w.objs j with
    | none => cases hi : w.objs i <;> simp
    | some s =>
      cases hi : w.objs i with
      | some c => simp [CWorld.create, hi]
      | none =>
        simp only [Option.map_none, Option.isSome_none, Bool.false_eq_true, if_false, Option.map_some, Option.bind_some]
        exact mk i _ hi rfl
  | assign i j =>
    simp only [cvalStep, CWorld.step, vi]
    cases hj : w.objs j with
    | none => simp
    | some s =>
      cases hi : w.objs i with
      | none => simp [CWorld.upd, hi]
      | some c =>
        simp only [Option.map_some, Option.bind_some, CWorld.upd, hi, Chooser.assign]
        by_cases hij : i = j
        · subst hij
          simp only [decide_true, if_true, Res.bind]
          refine ⟨_, rfl, ?_, ?_⟩
          · have : Function.update w.objs i (some c) = w.objs := by rw [← hi]; exact Function.update_eq_self i _
            rw [this]; exact hw
          · have : Function.update w.objs i (some c) = w.objs := by rw [← hi]; exact Function.update_eq_self i _
            rw [this]
        · simp only [hij, decide_false, Bool.false_eq_true, if_false]
          obtain ⟨h, hd, hn, hm⟩ := delete_own w hw i c hi
          rw [hd]; simp only [Res.bind]
          obtain ⟨d1, _, d3⟩ := drop i c ⟨s.own, none, 0⟩ h hi rfl hn hm
          refine ⟨_, rfl, d1, ?_⟩
          rw [cview_update w h i _ d3]
          simp [Chooser.view]
  | learn i s =>
    simp only [cvalStep, CWorld.step, vi]
    cases hi : w.objs i with
    | none => simp [CWorld.upd, hi]
    | some c =>
      simp only [Option.map_some, Option.bind_some, CWorld.upd, hi, Res.bind]
      refine ⟨_, rfl, ?_, ?_⟩
      · have sub : ∀ j cj, Function.update w.objs i (some { c with own := s }) j = some cj →
            ∃ cj', w.objs j = some cj' ∧ cj'.results = cj.results := by
          intro j cj hj
          by_cases hji : j = i
          · subst hji; rw [Function.update_self] at hj; cases hj; exact ⟨c, hi, rfl⟩
          · rw [Function.update_of_ne hji] at hj; exact ⟨cj, hj, rfl⟩
        constructor
        · intro j cj a hj ha
          obtain ⟨cj', h1, h2⟩ := sub j cj hj
          exact hw.alive j cj' a h1 (h2.trans ha)
        · intro j k cj ck a hj hk ha hb
          obtain ⟨cj', h1, h2⟩ := sub j cj hj
          obtain ⟨ck', h3, h4⟩ := sub k ck hk
          exact hw.excl j k cj' ck' a h1 h3 (h2.trans ha) (h4.trans hb)
        · intro a ha
          obtain ⟨j, cj, hj, hr⟩ := hw.owned a ha
          by_cases hji : j = i
          · subst hji; rw [hi] at hj; cases hj
            exact ⟨j, { c with own := s }, by simp, hr⟩
          · exact ⟨j, cj, by dsimp only; rw [Function.update_of_ne hji, hj], hr⟩
        · exact hw.fresh
      · rw [cview_update w w.heap i _ (fun _ _ _ _ _ _ => rfl)]
        simp [Chooser.view]
  | reset i n =>
    simp only [cvalStep, CWorld.step, vi]
    cases hi : w.objs i with
    | none => simp [CWorld.upd, hi]
    | some c =>
      simp only [Option.map_some, Option.bind_some, CWorld.upd, hi, Chooser.reset]
      obtain ⟨h, hd, hn, hm⟩ := delete_own w hw i c hi
      rw [hd]; simp only [Res.bind]
      obtain ⟨d1, _, d3⟩ := drop i c ⟨c.own, none, 0⟩ h hi rfl hn hm
      have lt : ∀ j cj a, j ≠ i → w.objs j = some cj → cj.results = some a → a ≠ h.next := by
        intro j cj a hj hcj ha
        have h1 := hw.fresh a (hw.alive j cj a hcj ha)
        omega
      have keep2 : ∀ j cj a, j ≠ i → w.objs j = some cj → cj.results = some a →
          (h.new (List.replicate n d)).mem a = w.heap.mem a := by
        intro j cj a hj hcj ha
        unfold BMem.new
        dsimp only
        rw [Function.update_of_ne (lt j cj a hj hcj ha)]
        exact d3 j cj a hj hcj ha
      refine ⟨_, rfl, ?_, ?_⟩
      · constructor
        · intro j cj a hj ha
          dsimp only at hj ⊢
          by_cases hji : j = i
          · subst hji; rw [Function.update_self] at hj; cases hj; cases ha; simp [BMem.new]
          · rw [Function.update_of_ne hji] at hj; rw [keep2 j cj a hji hj ha]; exact hw.alive j cj a hj ha
        · intro j k cj ck a hj hk ha hb
          dsimp only at hj hk
          by_cases hji : j = i
          · subst hji; rw [Function.update_self] at hj; cases hj; cases ha
            by_cases hki : k = j
            · exact hki.symm
            · rw [Function.update_of_ne hki] at hk
              exact absurd rfl (lt k ck _ hki hk hb)
          · rw [Function.update_of_ne hji] at hj
            by_cases hki : k = i
            · subst hki; rw [Function.update_self] at hk; cases hk; cases hb
              exact absurd rfl (lt j cj _ hji hj ha)
            · rw [Function.update_of_ne hki] at hk
              exact hw.excl j k cj ck a hj hk ha hb
        · intro a ha
          dsimp only at ha
          by_cases han : a = h.next
          · subst han; exact ⟨i, _, by dsimp only; rw [Function.update_self], rfl⟩
          · unfold BMem.new at ha
            dsimp only at ha
            rw [Function.update_of_ne han] at ha
            obtain ⟨j, cj, hj, hr⟩ := d1.owned a ha
            dsimp only at hj
            by_cases hji : j = i
            · subst hji; rw [Function.update_self] at hj; cases hj; cases hr
            · exact ⟨j, cj, by dsimp only; rw [Function.update_of_ne hji]; rwa [Function.update_of_ne hji] at hj, hr⟩
        · intro a ha
          unfold BMem.new at ha ⊢
          dsimp only at ha ⊢
          by_cases han : a = h.next
          · omega
          · rw [Function.update_of_ne han] at ha
            have := d1.fresh a ha
            dsimp only at this
            omega
      · rw [cview_update w _ i _ keep2]
        simp [Chooser.view, BMem.new]
  | store i k r b =>
    simp only [cvalStep, CWorld.step, vi]
    cases hi : w.objs i with
    | none => simp [CWorld.upd, hi]
    | some c =>
      simp only [Option.map_some, Option.bind_some, CWorld.upd, hi, Chooser.store, Chooser.array, Chooser.view]
      cases hr : c.results with
      | none => simp [Res.bind]
      | some a =>
        simp only [Option.bind_some]
        cases hm : w.heap.mem a with
        | none => simp [Res.bind]
        | some arr =>
          simp only [Option.bind_some, Res.bind]
          by_cases hk : k < arr.length
          · simp only [hk, if_true]
            have iso : ∀ x, ((Function.update w.heap.mem a (some (arr.set k r))) x).isSome = (w.heap.mem x).isSome := by
              intro x
              by_cases hx : x = a
              · subst hx; simp [hm]
              · rw [Function.update_of_ne hx]
            set c' : Chooser σ π := ⟨c.own, some a, if b = true then c.numResults + 1 else c.numResults⟩ with hc'
            have sub : ∀ j cj, Function.update w.objs i (some c') j = some cj →
                ∃ cj', w.objs j = some cj' ∧ cj'.results = cj.results := by
              intro j cj hj
              by_cases hji : j = i
              · subst hji; rw [Function.update_self] at hj; cases hj; exact ⟨c, hi, hr⟩
              · rw [Function.update_of_ne hji] at hj; exact ⟨cj, hj, rfl⟩
            refine ⟨_, rfl, ?_, ?_⟩
            · constructor
              · intro j cj x hj hx
                obtain ⟨cj', h1, h2⟩ := sub j cj hj
                dsimp only
                rw [iso]
                exact hw.alive j cj' x h1 (h2.trans hx)
              · intro j l cj cl x hj hl hx hy
                obtain ⟨cj', h1, h2⟩ := sub j cj hj
                obtain ⟨cl', h3, h4⟩ := sub l cl hl
                exact hw.excl j l cj' cl' x h1 h3 (h2.trans hx) (h4.trans hy)
              · intro x hx
                dsimp only at hx
                rw [iso] at hx
                obtain ⟨j, cj, hj, hr2⟩ := hw.owned x hx
                by_cases hji : j = i
                · subst hji; rw [hi] at hj; cases hj
                  exact ⟨j, c', by dsimp only; rw [Function.update_self], hr.symm.trans hr2⟩
                · exact ⟨j, cj, by dsimp only; rw [Function.update_of_ne hji, hj], hr2⟩
              · intro x hx
                dsimp only at hx ⊢
                rw [iso] at hx
                exact hw.fresh x hx
            · rw [cview_update w _ i _ (by
                intro j cj x hj hcj hx
                dsimp only
                rw [Function.update_of_ne]
                rintro rfl
                exact hj (hw.excl j i cj c x hcj hi hx hr))]
              simp [Chooser.view, hc']
          · simp [hk]
  | read i k =>
    simp only [cvalStep, CWorld.step, vi]
    cases hi : w.objs i with
    | none => simp [CWorld.upd, hi]
    | some c =>
      simp only [Option.map_some, Option.bind_some, CWorld.upd, hi, Chooser.read, Chooser.array, Chooser.view]
      cases hr : c.results with
      | none => simp [Res.bind]
      | some a =>
        simp only [Option.bind_some]
        cases hm : w.heap.mem a with
        | none => simp [Res.bind]
        | some arr =>
          simp only [Option.bind_some, Res.bind]
          by_cases hk : k < arr.length
          · simp only [hk, if_true, List.getElem?_eq_getElem]
            have : Function.update w.objs i (some c) = w.objs := by rw [← hi]; exact Function.update_eq_self i _
            refine ⟨_, rfl, ?_, ?_⟩
            · rw [this]; exact hw
            · rw [this]
          · simp [hk]
  | destroy i =>
    simp only [cvalStep, CWorld.step, vi]
    cases hi : w.objs i with
    | none => simp
    | some c =>
      simp only [Option.map_some, Option.bind_some]
      obtain ⟨h, hd, hn, hm⟩ := delete_own w hw i c hi
      rw [hd]; simp only [Res.bind]
      obtain ⟨_, d2, d3⟩ := drop i c ⟨c.own, none, 0⟩ h hi rfl hn hm
      refine ⟨_, rfl, d2, ?_⟩
      rw [cview_update w h i _ d3]
      rfl

/-- **C137.** Choosers are values: for every program that makes, copies (or clones), assigns, changes, uses and destroys
choosers in any order, the outcome is that of a program on values: a copy has the settings of its source and no results, changing
one never changes another; and it is undefined exactly if the program uses a chooser that does not exist or a result that was not
made room for. In particular no array is freed twice or used after it is freed. -/
theorem chooser_values (d : ρ) (os : List (COp σ π ρ)) :
    match cvalRun d (fun _ => none) os with
    | none => (CWorld.init : CWorld σ π ρ).run d os = .undef
    | some v => ∃ w, (CWorld.init : CWorld σ π ρ).run d os = .ok w ∧ CInv w ∧ w.view = v := by
  have gen : ∀ (os : List (COp σ π ρ)) (w : CWorld σ π ρ), CInv w →
      match cvalRun d w.view os with
      | none => w.run d os = .undef
      | some v => ∃ w', w.run d os = .ok w' ∧ CInv w' ∧ w'.view = v := by
    intro os
    induction os with
    | nil => intro w hw; exact ⟨w, rfl, hw, rfl⟩
    | cons o os ih =>
      intro w hw
      have h := cstep_refines d w hw o
      simp only [cvalRun, CWorld.run]
      cases hc : cvalStep d w.view o with
      | none => rw [hc] at h; simp only [Option.bind_none]; rw [h]; rfl
      | some v =>
        rw [hc] at h
        obtain ⟨w', h1, h2, h3⟩ := h
        rw [h1]
        simp only [Option.bind_some, Res.bind]
        rw [← h3]
        exact ih w' h2
  have h := gen os CWorld.init CInv.init
  rw [cview_init] at h
  exact h

/-- **C137.** No array is leaked: when every chooser is destroyed, nothing is allocated. -/
theorem chooser_no_leak (d : ρ) (os : List (COp σ π ρ)) (w : CWorld σ π ρ)
    (h : (CWorld.init : CWorld σ π ρ).run d os = .ok w) (hd : ∀ i, w.objs i = none) : ∀ a, w.heap.mem a = none := by
  have hv := chooser_values d os
  cases hc : cvalRun d (fun _ => none) os with
  | none => rw [hc] at hv; rw [h] at hv; cases hv
  | some v =>
    rw [hc] at hv
    obtain ⟨w', h1, h2, _⟩ := hv
    rw [h] at h1; cases h1
    intro a
    by_contra hne
    obtain ⟨i, c, hi, _⟩ := h2.owned a (Option.isSome_iff_ne_none.2 hne)
    rw [hd i] at hi; cases hi

/-- A program: a chooser with results is cloned, both are used, the first is destroyed. -/
example : ∃ w, (CWorld.init : CWorld ℕ ℕ ℕ).run 0
    [.make 0 7 1, .learn 0 ⟨7, 3, -1, 0, 0, 2⟩, .reset 0 2, .store 0 1 5 true, .copy 1 0, .reset 1 1, .store 1 0 6 true,
      .read 0 1, .destroy 0, .read 1 0, .destroy 1] = .ok w ∧ w.objs 0 = none ∧ w.objs 1 = none :=
  ⟨_, rfl, rfl, rfl⟩

/-- A clone has no results: using them is undefined. -/
example : (CWorld.init : CWorld ℕ ℕ ℕ).run 0 [.make 0 7 1, .reset 0 2, .copy 1 0, .read 1 0] = .undef := rfl

/-! ## Point-ray LPs -/

variable {L : Type}

/-- **C138 (point-ray LP).** Part: a copy or an assigned object has the counters, indices and pointers of its source. -/
theorem prlp_copy_partial (empty : L) (src dst : PrlpObj L) :
    { PrlpObj.copy empty src with lp := src.lp } = src ∧ { PrlpObj.assign false dst src with lp := src.lp } = src ∧
      PrlpObj.assign true dst dst = dst := ⟨rfl, rfl, rfl⟩

/-- **C138 (point-ray LP), negation.** The LP itself is not copied: a copy or clone equals its source only if the LP of the
source is empty, and an assigned object only if the LPs were equal before. -/
theorem prlp_copy_loses (empty : L) (src dst : PrlpObj L) :
    (PrlpObj.copy empty src = src ↔ src.lp = empty) ∧ (PrlpObj.assign false dst src = src ↔ dst.lp = src.lp) := by
  constructor
  · constructor
    · intro h; rw [← h]; rfl
    · intro h; cases src; cases h; rfl
  · constructor
    · intro h; rw [← h]; rfl
    · intro h; cases src; cases dst; cases h; rfl

/-- A point-ray LP as set up: one row per point and ray. -/
def PrlpObj.Consistent (nrows : L → ℕ) (p : PrlpObj L) : Prop := nrows p.lp = p.numPoints + p.numRays

/-- **C138 (point-ray LP), negation.** A clone of a point-ray LP with at least one row has numbers of points and rays that do
not fit its rows. -/
theorem prlp_copy_inconsistent (nrows : L → ℕ) (empty : L) (he : nrows empty = 0) (src : PrlpObj L)
    (hs : src.Consistent nrows) (hr : 0 < nrows src.lp) : ¬ (PrlpObj.copy empty src).Consistent nrows := by
  unfold PrlpObj.Consistent at hs ⊢
  show ¬ nrows empty = src.numPoints + src.numRays
  omega

example : (⟨3, none, none, -1, none, [], [], 2, 1, 0, 0, 0, 0⟩ : PrlpObj ℕ).Consistent id ∧ 0 < id 3 := ⟨rfl, by decide⟩

end VPC
