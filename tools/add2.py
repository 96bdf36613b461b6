p='Verif/Props/SolverMem.lean'
s=open(p).read()
s=s.rstrip()[:-len('end VPC')]
s+='''/-! ## The property -/

/-- Nothing left and nothing changed: every object is as before. -/
theorem Bal.eq {h h' : BMem σ} (hf : h.Fresh) (b : Bal ∅ h h' 0) : ∀ a, h'.mem a = h.mem a := by
  intro a
  by_cases ha : a < h.next
  · exact b.same a ha (by simp)
  · rw [hf a (not_lt.1 ha)]
    by_cases hb : a < h'.next
    · have := b.left
      unfold liveFrom at this
      rw [Finset.card_eq_zero, Finset.filter_eq_empty_iff] at this
      have := this (Finset.mem_Ico.2 ⟨not_lt.1 ha, hb⟩)
      simpa using this
    · exact b.top a (not_lt.1 hb)

/-- No partial tree of the call keeps pruned nodes. -/
def GenMem.noKeep (g : GenMem σ) : Prop := ∀ t, PrepMem.tree t ∈ g.preps → t.keep = false

theorem genLeaks_noKeep {g : GenMem σ} (hk : g.noKeep) : genLeaks g = 0 := by
  unfold genLeaks
  apply List.sum_eq_zero
  intro x hx
  obtain ⟨p, hp, rfl⟩ := List.mem_map.1 hx
  cases p with
  | tree t =>
    have := hk t hp
    simp only [prepLeaks, treeLeaks]
    split
    · rfl
    · rw [this, noSaveLeaks]
  | split s => rfl
  | splits a b c => rfl

/-- **C139**, generator: whatever the solvers compute and on whatever path the call ends, no solver is used
after its deletion or deleted twice; if the call returns, and pruned nodes are not kept and the problem is a
minimization, then the objects that exist are exactly those that existed before, all unchanged (the solver of
the caller among them). Missing: the two excluded cases, in which the claim is false
(`gen_leaves_solvers`, `gen_changes_solver`). -/
theorem gen_copies_freed_partial (g : GenMem σ) (h : BMem σ) (hf : h.Fresh) (si : ℕ) (hs : h.Live si)
    (hk : g.noKeep) (hm : g.flip = none) :
    genMem g h si ≠ .undef ∧ ∀ h', genMem g h si = .ok h' → ∀ a, h'.mem a = h.mem a := by
  have r := gen_runs g hf hs
  refine ⟨r.1, fun h' he => ?_⟩
  have b := r.2 h' he
  have : flipped g si = ∅ := by
    ext a; simp [flipped, hm]
  rw [this, genLeaks_noKeep hk] at b
  exact b.eq hf

/-- **C139**, generator, all cases: no undefined behaviour; every object that existed before still exists,
every one but the solver of the caller is unchanged, and the number of new objects left behind is the number of
open nodes of the partial trees that keep pruned nodes. -/
theorem gen_copies_count (g : GenMem σ) (h : BMem σ) (hf : h.Fresh) (si : ℕ) (hs : h.Live si) :
    genMem g h si ≠ .undef ∧ ∀ h', genMem g h si = .ok h' →
      (∀ a, h.Live a → h'.Live a ∧ (a ≠ si → h'.mem a = h.mem a)) ∧ liveFrom h' h.next = genLeaks g := by
  have r := gen_runs g hf hs
  refine ⟨r.1, fun h' he => ?_⟩
  have b := r.2 h' he
  exact ⟨fun a ha => ⟨b.live hf ha, fun hn => b.same a (live_lt hf ha) (fun hm => hn hm.1)⟩, b.left⟩

/-- A heap with one solver; solvers hold a list of numbers here. -/
def oneSolver : BMem (List ℕ) := BMem.new ⟨fun _ => none, 0⟩ [7]

theorem oneSolver_fresh : oneSolver.Fresh := by
  intro a ha
  simp only [oneSolver, BMem.new] at ha ⊢
  rw [Function.update_of_ne (by omega)]

theorem oneSolver_live : oneSolver.Live 0 := by simp [oneSolver, BMem.new, BMem.Live]

/-- A call with a partial tree (two open nodes with two children each), then the point-ray LP for it. -/
def demoTree (keep : Bool) : TreeMem (List ℕ) where
  terms := 4
  keep := keep
  setup := fun s => 1 :: s
  steps := [.work (2 :: ·), .probe (3 :: ·) false, .replace (4 :: ·),
    .save [⟨false, (5 :: ·), false, [((6 :: ·), false), ((8 :: ·), false)]⟩,
      ⟨false, (9 :: ·), false, [((6 :: ·), false)]⟩]]

/-- The call of the generator with it. -/
def demoGenMem (keep : Bool) (flip : Option (List ℕ → List ℕ)) : GenMem (List ℕ) where
  flip := flip
  preps := [.tree (demoTree keep)]
  root := fun s => 10 :: s
  disjs := [⟨false, (11 :: ·), [⟨true, (12 :: ·), false⟩, ⟨false, (13 :: ·), false⟩], true, (14 :: ·),
    .on (15 :: ·) false, false⟩]

/-- What the call leaves: does it return, the caller's solver, and how many new objects exist. -/
def leftBy (r : Res (BMem (List ℕ))) : Option (Option (List ℕ) × ℕ) :=
  match r with
  | .ok h => some (h.mem 0, liveFrom h 1)
  | _ => none

/-- The hypotheses of `gen_copies_freed_partial` are met by a call that makes and frees seven copies. -/
example : oneSolver.Fresh ∧ oneSolver.Live 0 ∧ (demoGenMem false none).noKeep ∧
    (demoGenMem false none).flip = none ∧
    leftBy (genMem (demoGenMem false none) oneSolver 0) = some (some [7], 0) := by
  refine ⟨oneSolver_fresh, oneSolver_live, ?_, rfl, by decide +kernel⟩
  intro t ht
  simp [demoGenMem] at ht
  subst ht
  rfl

/-- **C139** is false when pruned nodes are kept: the two solvers of the open nodes are still there after the
call. -/
theorem gen_leaves_solvers : leftBy (genMem (demoGenMem true none) oneSolver 0) = some (some [7], 2) := by
  decide +kernel

/-- **C139** is false for maximization problems: the solver given as `const` is changed. -/
theorem gen_changes_solver : leftBy (genMem (demoGenMem false (some (0 :: ·))) oneSolver 0) =
    some (some [0, 7], 0) := by
  decide +kernel

/-- No call of the generator in the program keeps pruned nodes. -/
def MainMem.noKeep : MainMem σ → Prop
  | .cuts rs _ => ∀ r ∈ rs, ∀ g ∈ r.gen, g.noKeep
  | _ => True

/-- **C139**, main program: on every path to `return`, whatever the solvers compute, no solver is used after its
deletion or deleted twice, and if pruned nodes are not kept no solver is left. (Ends by `exit(1)` and signals are
not returns.) Missing: with pruned nodes kept, see `main_leaves_solvers`. -/
theorem main_copies_freed_partial (started : Bool) (gomory : ℤ) (read : Option σ) (solve : σ → σ) (bad : Bool)
    (m : MainMem σ) (hm : m.Uniform) (hk : m.noKeep) :
    mainMem started gomory read solve bad m ⟨fun _ => none, 0⟩ ≠ .undef ∧
    ∀ h', mainMem started gomory read solve bad m ⟨fun _ => none, 0⟩ = .ok h' → ∀ a, h'.mem a = none := by
  have hf : BMem.Fresh (⟨fun _ => none, 0⟩ : BMem σ) := fun _ _ => rfl
  have r := main_runs started gomory read solve bad hm hf
  refine ⟨r.1, fun h' he => ?_⟩
  have b := r.2 h' he
  have : (if started then workLeaks m else 0) = 0 := by
    split
    · cases m with
      | stop => rfl
      | clean => rfl
      | cuts rs ts =>
        apply List.sum_eq_zero
        intro x hx
        obtain ⟨r, hr, rfl⟩ := List.mem_map.1 hx
        unfold roundLeaks
        cases hg : r.gen with
        | none => rfl
        | some g => exact genLeaks_noKeep (hk r hr g (by simp [hg]))
    · rfl
  rw [this] at b
  exact b.eq hf

/-- A run of the program: two rounds with Gomory cuts, then two permuted runs of branch and bound, with and
without cuts. -/
def demoMain (keep : Bool) : MainMem (List ℕ) :=
  .cuts [⟨(20 :: ·), some (demoGenMem keep none), (21 :: ·)⟩, ⟨(20 :: ·), none, (21 :: ·)⟩]
    [⟨some [30], [⟨(31 :: ·), none, [.work (32 :: ·)], false⟩,
      ⟨(31 :: ·), some (33 :: ·), [.replace (32 :: ·)], false⟩]⟩,
     ⟨some [34], [⟨(31 :: ·), none, [], false⟩]⟩]

/-- The solvers left after a run of the program. -/
def leftByMain (r : Res (BMem (List ℕ))) : Option ℕ :=
  match r with
  | .ok h => some (liveFrom h 0)
  | _ => none

/-- The hypotheses of `main_copies_freed_partial` are met by a run that returns. -/
example : (demoMain false).Uniform ∧ (demoMain false).noKeep ∧
    leftByMain (mainMem true (-1) (some [7]) (8 :: ·) false (demoMain false) ⟨fun _ => none, 0⟩) = some 0 := by
  refine ⟨⟨true, by simp⟩, ?_, by decide +kernel⟩
  intro r hr g hg t ht
  simp [demoMain] at hr
  rcases hr with rfl | rfl
  · simp at hg
    subst hg
    simp [demoGenMem] at ht
    subst ht
    rfl
  · simp at hg

/-- With pruned nodes kept, solvers are left when the program returns. -/
theorem main_leaves_solvers :
    leftByMain (mainMem true (-1) (some [7]) (8 :: ·) false (demoMain true) ⟨fun _ => none, 0⟩) = some 2 := by
  decide +kernel

/-- The number left in general: for every open node saved with pruned nodes kept, one solver. -/
theorem main_leaves_count (gomory : ℤ) (read : Option σ) (solve : σ → σ) (bad : Bool)
    (m : MainMem σ) (hm : m.Uniform) (h' : BMem σ)
    (he : mainMem true gomory read solve bad m ⟨fun _ => none, 0⟩ = .ok h') :
    liveFrom h' 0 = workLeaks m := by
  have hf : BMem.Fresh (⟨fun _ => none, 0⟩ : BMem σ) := fun _ _ => rfl
  exact ((main_runs true gomory read solve bad hm hf).2 h' he).left

/-- Branch-and-bound tests on a solver (C139): the solver of the caller and all other objects are unchanged
and no copy is left. -/
theorem bb_copies_freed (solver : ℕ) (ps : List (BBPass σ)) (hu : Uniform ps) (h : BMem σ) (hf : h.Fresh)
    (hs : h.Live solver) :
    bbPassesMem solver ps h none ≠ .undef ∧
    ∀ h', bbPassesMem solver ps h none = .ok h' → ∀ a, h'.mem a = h.mem a := by
  have r := bbTests_runs hu hf hs
  exact ⟨r.1, fun h' he => (r.2 h' he).eq hf⟩

/-- Passes of both kinds would use a deleted solver: that all runs of a call are of one kind matters. -/
theorem bb_mixed_undef :
    bbPassesMem 0 [⟨some [1], []⟩, ⟨none, [⟨id, none, [], false⟩]⟩] oneSolver none = .undef := by
  rfl

example : Uniform [(⟨some [1], [⟨id, none, [], false⟩]⟩ : BBPass (List ℕ)), ⟨some [2], []⟩] ∧
    leftBy (bbPassesMem 0 [⟨some [1], [⟨id, none, [], false⟩]⟩, ⟨some [2], []⟩] oneSolver none)
      = some (some [7], 0) :=
  ⟨⟨true, by simp⟩, by decide +kernel⟩

/-- Cbc on the file: nothing is left. -/
theorem cbcFile_copies_freed (file : Option σ) (cuts : Option (σ → σ)) (steps : List (SearchStep σ)) (bad : Bool)
    (h : BMem σ) (hf : h.Fresh) :
    cbcFileMem file cuts steps bad h ≠ .undef ∧
    ∀ h', cbcFileMem file cuts steps bad h = .ok h' → ∀ a, h'.mem a = h.mem a := by
  have r := cbcFile_runs file cuts steps bad hf
  exact ⟨r.1, fun h' he => (r.2 h' he).eq hf⟩

example : leftBy (cbcFileMem (some [1]) none [.replace (2 :: ·)] false oneSolver) = some (some [7], 0) := by
  decide +kernel

/-- Cleaning: as before the call. -/
theorem cleaning_copies_freed (before after : List (BBPass σ)) (hb : Uniform before) (ha : Uniform after)
    (empty : σ) (read : σ → σ) (cleans : List ((σ → σ) × (σ → σ) × Bool)) (bad : Bool) (h : BMem σ)
    (hf : h.Fresh) (solver : ℕ) (hs : h.Live solver) :
    cleaningMem before empty read cleans bad after h solver ≠ .undef ∧
    ∀ h', cleaningMem before empty read cleans bad after h solver = .ok h' → ∀ a, h'.mem a = h.mem a := by
  have r := cleaning_runs hb ha empty read cleans bad hf hs
  exact ⟨r.1, fun h' he => (r.2 h' he).eq hf⟩

example : leftBy (cleaningMem [⟨none, [⟨id, none, [], false⟩]⟩] [] (1 :: ·)
    [((2 :: ·), (3 :: ·), false), ((2 :: ·), (3 :: ·), false)] false [⟨none, [⟨id, none, [], false⟩]⟩]
    oneSolver 0) = some (some [7], 0) := by
  decide +kernel

end VPC
'''
open(p,'w').write(s)
