p='Verif/Props/SolverMem.lean'
s=open(p).read()
assert s.rstrip().endswith('end VPC')
s=s.rstrip()[:-len('end VPC')]
s+='''/-! ## Branch-and-bound tests, cleaning, main program -/

theorem noSaveLeaks (ss : List (SearchStep σ)) : searchLeaks false ss = 0 := by
  unfold searchLeaks
  apply List.sum_eq_zero
  intro x hx
  obtain ⟨s, -, rfl⟩ := List.mem_map.1 hx
  cases s <;> rfl

/-- A search of Cbc without the event handler of the partial tree, then the model freed. -/
theorem plainSearch_runs {h h1 : BMem σ} {cur bb : ℕ} (b : Bal ∅ h h1 1) (hc : h.next ≤ cur)
    (lc : h1.Live cur) (ss : List (SearchStep σ)) (bad : Bool) :
    Runs ((searchMem false 0 (ss.filter fun s => !s.isSave) h1 cur).bind
      fun r => (orExit r.1 bad).bind fun h' => freeModel h' bb r.2 true) fun h' => Bal ∅ h h' 0 := by
  refine (search_runs false 0 (ss.filter fun s => !s.isSave) (fun _ => False) (k := 0) b hc lc
    (fun _ h => h.elim) ?_).bind ?_
  · rintro ⟨s, hs, hi⟩
    have := (List.mem_filter.1 hs).2
    simp [hi] at this
  rintro ⟨h2, c2⟩ ⟨b2, hc2, l2, -⟩
  dsimp only at b2 hc2 l2 ⊢
  refine (orExit_runs h2 bad).bind ?_
  rintro h3 rfl
  rw [noSaveLeaks] at b2
  exact (freeModel_runs bb b2 hc2 l2).mono fun _ hx => hx.1

/-- Cbc on a copy of a solver: the solver given is untouched and no object is left. -/
theorem cbc_runs (setup : σ → σ) (cuts : Option (σ → σ)) (steps : List (SearchStep σ)) (bad : Bool)
    {h : BMem σ} (hf : h.Fresh) {solver : ℕ} (hs : h.Live solver) :
    Runs (cbcMem setup cuts steps bad h solver) fun h' => Bal ∅ h h' 0 := by
  unfold cbcMem
  refine (dup_runs hf hs ∅).bind ?_
  rintro ⟨h1, b⟩ ⟨hb, b1, hl⟩
  dsimp only at hb b1 hl ⊢
  subst hb
  refine ((use_runs b1.top hl setup).step b1 (M' := {h.next}) (by
    intro a ha hm; simp only [Set.mem_singleton_iff] at hm; omega)).bind ?_
  rintro h2 ⟨b2, l2⟩
  have hcut : Runs (match cuts with | none => Res.ok h2 | some f => h2.use h.next f)
      fun h3 => Bal ∅ h h3 1 ∧ h3.Live h.next := by
    cases cuts with
    | none => exact Runs.ok ⟨b2, l2 _ hl⟩
    | some f =>
      exact ((use_runs b2.top (l2 _ hl) f).step b2 (M' := {h.next}) (by
        intro a ha hm; simp only [Set.mem_singleton_iff] at hm; omega)).mono
        fun _ hx => ⟨hx.1, hx.2 _ (l2 _ hl)⟩
  refine hcut.bind ?_
  rintro h3 ⟨b3, l3⟩
  exact plainSearch_runs b3 le_rfl l3 steps bad

/-- Cbc on a file. -/
theorem cbcFile_runs (file : Option σ) (cuts : Option (σ → σ)) (steps : List (SearchStep σ)) (bad : Bool)
    {h : BMem σ} (hf : h.Fresh) :
    Runs (cbcFileMem file cuts steps bad h) fun h' => Bal ∅ h h' 0 := by
  unfold cbcFileMem
  cases file with
  | none => exact Runs.exit
  | some s =>
    have b1 := new_bal hf s ∅
    have l1 := new_live h s
    have hcut : Runs (match cuts with | none => Res.ok (h.new s) | some f => (h.new s).use h.next f)
        fun h3 => Bal ∅ h h3 1 ∧ h3.Live h.next := by
      cases cuts with
      | none => exact Runs.ok ⟨b1, l1⟩
      | some f =>
        exact ((use_runs b1.top l1 f).step b1 (M' := {h.next}) (by
          intro a ha hm; simp only [Set.mem_singleton_iff] at hm; omega)).mono
          fun _ hx => ⟨hx.1, hx.2 _ l1⟩
    refine hcut.bind ?_
    rintro h3 ⟨b3, l3⟩
    exact plainSearch_runs b3 le_rfl l3 steps bad

theorem cbcs_runs (solver : ℕ) (cs : List (CbcMem σ)) : ∀ {h : BMem σ}, h.Fresh → h.Live solver →
    Runs (cbcsMem solver cs h) fun h' => Bal ∅ h h' 0 := by
  induction cs with
  | nil => intro h hf _; exact Runs.ok (Bal.refl hf ∅)
  | cons c cs ih =>
    intro h hf hs
    refine (cbc_runs c.setup c.cuts c.steps c.bad hf hs).bind ?_
    intro h1 b1
    exact ((ih b1.top (b1.live hf hs)).step b1 (by simp)).mono fun _ hx => by simpa using hx.1

/-- The branch-and-bound tests, all runs permuted or none: the solver given survives unchanged and no object
is left. -/
theorem bbPasses_runs (solver : ℕ) (perm : Bool) (ps : List (BBPass σ)) : ∀ {h : BMem σ} {cur : Option ℕ},
    h.Fresh → h.Live solver → (∀ p ∈ ps, p.permuted.isSome = perm) →
    (perm = false → cur = none ∨ cur = some solver) →
    Runs (bbPassesMem solver ps h cur) fun h' => Bal ∅ h h' 0 := by
  induction ps with
  | nil => intro h cur hf _ _ _; exact Runs.ok (Bal.refl hf ∅)
  | cons p ps ih =>
    intro h cur hf hs hp hc
    unfold bbPassesMem
    have hp1 := hp p (by simp)
    have key : Runs (bbPassMem solver p h cur) fun r => Bal ∅ h r.1 0 ∧
        (perm = false → r.2 = none ∨ r.2 = some solver) := by
      unfold bbPassMem
      cases hq : p.permuted with
      | some s =>
        rw [hq] at hp1
        have b1 := new_bal hf s ∅
        refine ((cbcs_runs h.next p.calls b1.top (new_live h s)).step b1 (by simp)).bind ?_
        rintro h2 ⟨b2, l2⟩
        have hne : h.next ≠ solver := by have := live_lt hf hs; omega
        rw [if_pos hne]
        refine (delete_runs (k := 0) (by simpa using b2) le_rfl (l2 _ (new_live h s))).bind ?_
        rintro h3 ⟨b3, -⟩
        exact Runs.ok ⟨b3, fun hpf => by simp [hpf] at hp1⟩
      | none =>
        rw [hq] at hp1
        have hcur : cur.getD solver = solver := by
          rcases hc (by simpa using hp1.symm) with rfl | rfl <;> rfl
        simp only [hcur]
        refine (cbcs_runs solver p.calls hf hs).bind ?_
        intro h1 b1
        exact Runs.ok ⟨b1, fun _ => Or.inr rfl⟩
    refine key.bind ?_
    rintro ⟨h1, c1⟩ ⟨b1, hc1⟩
    dsimp only at b1 hc1 ⊢
    exact ((ih b1.top (b1.live hf hs) (fun q hq => hp q (by simp [hq])) hc1).step b1 (by simp)).mono
      fun _ hx => by simpa using hx.1

/-- All runs of a test are permuted, or none is. -/
def Uniform (ps : List (BBPass σ)) : Prop := ∃ b, ∀ p ∈ ps, p.permuted.isSome = b

theorem bbTests_runs {solver : ℕ} {ps : List (BBPass σ)} (hu : Uniform ps) {h : BMem σ} (hf : h.Fresh)
    (hs : h.Live solver) : Runs (bbPassesMem solver ps h none) fun h' => Bal ∅ h h' 0 := by
  obtain ⟨b, hb⟩ := hu
  exact bbPasses_runs solver b ps hf hs hb (fun _ => Or.inl rfl)

/-- The unused function that counts rounds of Gomory cuts leaves one solver behind on every call. -/
theorem gomoryRounds_leaks (work : σ → σ) {h : BMem σ} (hf : h.Fresh) {orig : ℕ} (ho : h.Live orig) :
    Runs (gomoryRoundsMem work h orig) fun h' => Bal ∅ h h' 1 := by
  unfold gomoryRoundsMem
  refine (dup_runs hf ho ∅).bind ?_
  rintro ⟨h1, b⟩ ⟨hb, b1, hl⟩
  dsimp only at hb b1 hl ⊢
  subst hb
  exact ((use_runs b1.top hl work).step b1 (M' := {h.next}) (by
    intro a ha hm; simp only [Set.mem_singleton_iff] at hm; omega)).mono fun _ hx => hx.1

/-- A solver for a term: the caller gets the only new object, or no object and a null pointer. -/
theorem termSolver_runs (work : σ → σ) (bad optimal : Bool) {h : BMem σ} (hf : h.Fresh) {solver : ℕ}
    (hs : h.Live solver) :
    Runs (termSolverMem work bad optimal h solver) fun r =>
      (r.2 = none ∧ Bal ∅ h r.1 0) ∨ ∃ a, r.2 = some a ∧ h.next ≤ a ∧ r.1.Live a ∧ Bal ∅ h r.1 1 := by
  unfold termSolverMem
  refine (dup_runs hf hs ∅).bind ?_
  rintro ⟨h1, b⟩ ⟨hb, b1, hl⟩
  dsimp only at hb b1 hl ⊢
  subst hb
  refine ((use_runs b1.top hl work).step b1 (M' := {h.next}) (by
    intro a ha hm; simp only [Set.mem_singleton_iff] at hm; omega)).bind ?_
  rintro h2 ⟨b2, l2⟩
  refine (orExit_runs h2 bad).bind ?_
  rintro h3 rfl
  split
  · exact Runs.ok (Or.inr ⟨_, rfl, le_rfl, l2 _ hl, b2⟩)
  · refine (delete_runs (k := 0) (by simpa using b2) le_rfl (l2 _ hl)).bind ?_
    rintro h4 ⟨b4, -⟩
    exact Runs.ok (Or.inl ⟨rfl, b4⟩)

theorem cleans_runs (c : ℕ) (ps : List ((σ → σ) × (σ → σ) × Bool)) : ∀ {h : BMem σ}, h.Fresh → h.Live c →
    Runs (cleansMem c ps h) fun h' => Bal {c} h h' 0 := by
  induction ps with
  | nil => intro h hf _; exact Runs.ok (Bal.refl hf _)
  | cons p ps ih =>
    intro h hf hc
    refine ((scratch_runs hf hc p.1 p.2.2).step (Bal.refl hf {c}) (by simp)).bind ?_
    rintro h1 ⟨b1, l1⟩
    refine ((use_runs b1.top (l1 _ hc) p.2.1).step b1 (M' := {c}) (fun _ _ h => h)).bind ?_
    rintro h2 ⟨b2, l2⟩
    exact ((ih b2.top (l2 _ (l1 _ hc))).step b2 (fun _ _ h => h)).mono fun _ hx => by simpa using hx.1

/-- Cleaning: the solver given survives unchanged and no object is left. -/
theorem cleaning_runs {before after : List (BBPass σ)} (hb : Uniform before) (ha : Uniform after) (empty : σ)
    (read : σ → σ) (cleans : List ((σ → σ) × (σ → σ) × Bool)) (bad : Bool) {h : BMem σ} (hf : h.Fresh)
    {solver : ℕ} (hs : h.Live solver) :
    Runs (cleaningMem before empty read cleans bad after h solver) fun h' => Bal ∅ h h' 0 := by
  unfold cleaningMem
  refine (bbTests_runs hb hf hs).bind ?_
  intro h1 b1
  have b2 := b1.trans (new_bal b1.top empty ∅) (by simp)
  have l2 := new_live h1 empty
  have hle := b1.next
  refine ((use_runs b2.top l2 read).step b2 (M' := {h1.next}) (by
    intro a ha hm; simp only [Set.mem_singleton_iff] at hm; omega)).bind ?_
  rintro h3 ⟨b3, l3⟩
  refine ((cleans_runs h1.next cleans b3.top (l3 _ l2)).step b3 (by
    intro a ha hm; simp only [Set.mem_singleton_iff] at hm; omega)).bind ?_
  rintro h4 ⟨b4, l4⟩
  refine (orExit_runs h4 bad).bind ?_
  rintro h5 rfl
  refine ((bbTests_runs ha b4.top (l4 _ (l3 _ l2))).step b4 (by simp)).bind ?_
  rintro h6 ⟨b6, l6⟩
  exact (delete_runs (k := 0) (by simpa using b6) hle (l6 _ (l4 _ (l3 _ l2)))).mono fun _ hx => hx.1

/-! ## The main program -/

/-- The pointers of the main program: `n` is the heap before the program; all that are set are different and
exist. -/
structure PtrOk (n : ℕ) (gomory : ℤ) (p : MainPtrs) (h : BMem σ) : Prop where
  solver : ∃ a, p.solver = some a ∧ n ≤ a ∧ h.Live a
  orig : ∃ a, p.orig = some a ∧ n ≤ a ∧ h.Live a ∧ p.solver ≠ some a
  noGom : gomory = 0 → p.gmic = none ∧ p.vpc = none ∧ p.all = none
  gom : gomory ≠ 0 → ∃ g v a, p.gmic = some g ∧ p.vpc = some v ∧ p.all = some a ∧ n ≤ g ∧ n ≤ v ∧ n ≤ a ∧
    h.Live g ∧ h.Live v ∧ h.Live a ∧ p.solver ≠ some g ∧ p.solver ≠ some v ∧ p.solver ≠ some a ∧
    p.orig ≠ some g ∧ p.orig ≠ some v ∧ p.orig ≠ some a ∧ g ≠ v ∧ g ≠ a ∧ v ≠ a

theorem PtrOk.keep {n : ℕ} {gomory : ℤ} {p : MainPtrs} {h h' : BMem σ} (o : PtrOk n gomory p h)
    (hl : ∀ c, h.Live c → h'.Live c) : PtrOk n gomory p h' := by
  obtain ⟨a, h1, h2, h3⟩ := o.solver
  obtain ⟨b, g1, g2, g3, g4⟩ := o.orig
  refine ⟨⟨a, h1, h2, hl _ h3⟩, ⟨b, g1, g2, hl _ g3, g4⟩, o.noGom, fun hg => ?_⟩
  obtain ⟨g, v, a, x1, x2, x3, x4, x5, x6, x7, x8, x9, x⟩ := o.gom hg
  exact ⟨g, v, a, x1, x2, x3, x4, x5, x6, hl _ x7, hl _ x8, hl _ x9, x⟩

/-- The number of solvers the main program holds. -/
def mainHeld (gomory : ℤ) : ℕ := if gomory = 0 then 2 else 5

theorem mainSetup_runs (gomory : ℤ) (read : Option σ) (solve : σ → σ) (bad : Bool) {h : BMem σ}
    (hf : h.Fresh) :
    Runs (mainSetup gomory read solve bad h) fun r =>
      Bal ∅ h r.1 (mainHeld gomory) ∧ PtrOk h.next gomory r.2 r.1 := by
  unfold mainSetup
  cases read with
  | none => exact Runs.exit
  | some s =>
    have b1 := new_bal hf s ∅
    have l1 := new_live h s
    dsimp only
    refine ((use_runs b1.top l1 solve).step b1 (M' := {h.next}) (by
      intro a ha hm; simp only [Set.mem_singleton_iff] at hm; omega)).bind ?_
    rintro h2 ⟨b2, l2⟩
    have l2 := l2 _ l1
    refine (orExit_runs h2 bad).bind ?_
    rintro h3 rfl
    have hd : ∀ {k : ℕ} {g : BMem σ}, Bal ∅ h g k → g.Live h.next →
        Runs (dupPtr g (some h.next)) fun r => r.2 = some g.next ∧ Bal ∅ h r.1 (k + 1) ∧
          r.1.Live g.next ∧ h.next < g.next ∧ g.next < r.1.next ∧ ∀ c, g.Live c → r.1.Live c := by
      intro k g bg lg
      unfold dupPtr
      refine (dup_runs bg.top lg ∅).bind ?_
      rintro ⟨g1, c⟩ ⟨hc, c1, lc⟩
      dsimp only at hc c1 lc ⊢
      subst hc
      exact Runs.ok ⟨rfl, bg.trans c1 (by simp), lc, live_lt bg.top lg, live_lt c1.top lc,
        fun c hc => c1.live bg.top hc⟩
    refine (hd b2 l2).bind ?_
    rintro ⟨h4, o⟩ ⟨ho, b4, l4, n4, m4, k4⟩
    dsimp only at ho b4 l4 n4 m4 k4 ⊢
    subst ho
    unfold gomoryCopies
    split
    · rename_i hg
      refine (hd b4 (k4 _ l2)).bind ?_
      rintro ⟨h5, g⟩ ⟨hg', b5, l5, n5, m5, k5⟩
      dsimp only at hg' b5 l5 n5 m5 k5 ⊢
      subst hg'
      refine (hd b5 (k5 _ (k4 _ l2))).bind ?_
      rintro ⟨h6, v⟩ ⟨hv, b6, l6, n6, m6, k6⟩
      dsimp only at hv b6 l6 n6 m6 k6 ⊢
      subst hv
      refine (hd b6 (k6 _ (k5 _ (k4 _ l2)))).bind ?_
      rintro ⟨h7, a⟩ ⟨ha, b7, l7, n7, m7, k7⟩
      dsimp only at ha b7 l7 n7 m7 k7 ⊢
      subst ha
      refine Runs.ok ⟨by simpa [mainHeld, hg] using b7, ⟨_, rfl, le_rfl, k7 _ (k6 _ (k5 _ (k4 _ l2)))⟩,
        ⟨_, rfl, n4.le, k7 _ (k6 _ (k5 _ l4)), by simp; omega⟩, fun h0 => absurd h0 hg, fun _ =>
        ⟨_, _, _, rfl, rfl, rfl, n5.le, n6.le, n7.le, k7 _ (k6 _ l5), k7 _ l6, l7, ?_, ?_, ?_, ?_, ?_, ?_,
          ?_, ?_, ?_⟩⟩ <;> (try simp) <;> omega
    · rename_i hg
      refine Runs.ok ⟨by
        have : gomory = 0 := not_not.1 hg
        simpa [mainHeld, this] using b4, ⟨_, rfl, le_rfl, k4 _ l2⟩, ⟨_, rfl, n4.le, l4, by simp; omega⟩,
        fun _ => ⟨rfl, rfl, rfl⟩, fun h0 => absurd h0 hg⟩

/-- Solvers left behind by a round. -/
def roundLeaks (r : RoundMem σ) : ℕ := match r.gen with | none => 0 | some g => genLeaks g

theorem round_runs (gomory : ℤ) {p : MainPtrs} (r : RoundMem σ) {h h1 : BMem σ} {k : ℕ} (b : Bal ∅ h h1 k)
    (o : PtrOk h.next gomory p h1) :
    Runs (roundMem gomory p r h1) fun h' => Bal ∅ h h' (k + roundLeaks r) ∧ PtrOk h.next gomory p h' := by
  have hu : ∀ {k : ℕ} {g : BMem σ} {q : Option ℕ} (f : σ → σ), Bal ∅ h g k → PtrOk h.next gomory p g →
      (∃ a, q = some a ∧ h.next ≤ a ∧ g.Live a) →
      Runs (usePtr g q f) fun g' => Bal ∅ h g' k ∧ PtrOk h.next gomory p g' := by
    rintro k g _ f bg og ⟨a, rfl, ha, la⟩
    refine ((use_runs bg.top la f).step bg (M' := {a}) (by
      intro c hc hm; simp only [Set.mem_singleton_iff] at hm; omega)).mono ?_
    rintro g' ⟨b', l'⟩
    exact ⟨b', og.keep l'⟩
  have hg : ∀ {g : BMem σ}, PtrOk h.next gomory p g → gomory ≠ 0 →
      (∃ a, p.gmic = some a ∧ h.next ≤ a ∧ g.Live a) ∧ (∃ a, p.vpc = some a ∧ h.next ≤ a ∧ g.Live a) ∧
      (∃ a, p.all = some a ∧ h.next ≤ a ∧ g.Live a) := by
    intro g og h0
    obtain ⟨x, v, a, x1, x2, x3, x4, x5, x6, x7, x8, x9, -⟩ := og.gom h0
    exact ⟨⟨x, x1, x4, x7⟩, ⟨v, x2, x5, x8⟩, ⟨a, x3, x6, x9⟩⟩
  unfold roundMem
  have s1 : Runs (if gomory = -1 ∨ gomory = 1 then
      (usePtr h1 p.gmic r.gmic).bind fun h =>
      (if 0 < gomory then usePtr h p.solver r.gmic else .ok h).bind fun h => usePtr h p.all r.gmic
      else .ok h1) fun h' => Bal ∅ h h' k ∧ PtrOk h.next gomory p h' := by
    split
    · rename_i hc
      have h0 : gomory ≠ 0 := by rcases hc with h | h <;> omega
      refine (hu r.gmic b o (hg o h0).1).bind ?_
      rintro h2 ⟨b2, o2⟩
      have : Runs (if 0 < gomory then usePtr h2 p.solver r.gmic else .ok h2)
          fun h' => Bal ∅ h h' k ∧ PtrOk h.next gomory p h' := by
        split
        · exact hu r.gmic b2 o2 o2.solver
        · exact Runs.ok ⟨b2, o2⟩
      refine this.bind ?_
      rintro h3 ⟨b3, o3⟩
      exact hu r.gmic b3 o3 (hg o3 h0).2.2
    · exact Runs.ok ⟨b, o⟩
  refine s1.bind ?_
  rintro h2 ⟨b2, o2⟩
  have s2 : Runs (match r.gen with
      | none => Res.ok h2
      | some g => match p.solver with | none => Res.undef | some a => genMem g h2 a)
      fun h' => Bal ∅ h h' (k + roundLeaks r) ∧ PtrOk h.next gomory p h' := by
    cases hr : r.gen with
    | none => exact Runs.ok ⟨by simpa [roundLeaks, hr] using b2, o2⟩
    | some g =>
      obtain ⟨a, ha, hn, la⟩ := o2.solver
      simp only [ha]
      refine ((gen_runs g b2.top la).step b2 (by
        rintro c hc ⟨rfl, -⟩; omega)).mono ?_
      rintro h3 ⟨b3, l3⟩
      exact ⟨by simpa [roundLeaks, hr] using b3, o2.keep l3⟩
  refine s2.bind ?_
  rintro h3 ⟨b3, o3⟩
  split
  · rename_i h0
    refine (hu r.apply b3 o3 (hg o3 h0).2.1).bind ?_
    rintro h4 ⟨b4, o4⟩
    refine (hu r.apply b4 o4 o4.solver).bind ?_
    rintro h5 ⟨b5, o5⟩
    exact hu r.apply b5 o5 (hg o5 h0).2.2
  · exact hu r.apply b3 o3 o3.solver

theorem rounds_runs (gomory : ℤ) {p : MainPtrs} (rs : List (RoundMem σ)) : ∀ {h h1 : BMem σ} {k : ℕ},
    Bal ∅ h h1 k → PtrOk h.next gomory p h1 →
    Runs (roundsMem gomory p rs h1) fun h' => Bal ∅ h h' (k + (rs.map roundLeaks).sum) ∧
      PtrOk h.next gomory p h' := by
  induction rs with
  | nil => intro h h1 k b o; exact Runs.ok ⟨by simpa using b, o⟩
  | cons r rs ih =>
    intro h h1 k b o
    refine (round_runs gomory r b o).bind ?_
    rintro h2 ⟨b2, o2⟩
    refine (ih b2 o2).mono ?_
    rintro h3 ⟨b3, o3⟩
    exact ⟨by simpa [Nat.add_assoc] using b3, o3⟩

/-- Deleting the pointers at the end: all that the program holds. -/
theorem wrap_runs {gomory : ℤ} {p : MainPtrs} {h h1 : BMem σ} {k : ℕ} (b : Bal ∅ h h1 (k + mainHeld gomory))
    (o : PtrOk h.next gomory p h1) : Runs (wrapMem p h1) fun h' => Bal ∅ h h' k := by
  obtain ⟨a, ha, na, la⟩ := o.solver
  obtain ⟨c, hc, nc, lc, hac⟩ := o.orig
  unfold wrapMem
  rw [ha] at hac
  have hac : c ≠ a := fun h => hac (by rw [h])
  rw [ha, hc]
  by_cases h0 : gomory = 0
  · obtain ⟨g1, g2, g3⟩ := o.noGom h0
    rw [g1, g2, g3]
    have b' : Bal ∅ h h1 (k + 1 + 1) := by simpa [mainHeld, h0, Nat.add_assoc] using b
    refine (delete_runs b' na la).bind ?_
    rintro h2 ⟨b2, l2⟩
    refine (delete_runs b2 nc (l2 _ hac lc)).bind ?_
    rintro h3 ⟨b3, -⟩
    exact Runs.ok b3
  · obtain ⟨g, v, w, x1, x2, x3, x4, x5, x6, x7, x8, x9, y1, y2, y3, y4, y5, y6, y7, y8, y9⟩ := o.gom h0
    rw [x1, x2, x3]
    rw [ha] at y1 y2 y3
    rw [hc] at y4 y5 y6
    simp only [ne_eq, Option.some.injEq] at y1 y2 y3 y4 y5 y6
    have b' : Bal ∅ h h1 (k + 1 + 1 + 1 + 1 + 1) := by simpa [mainHeld, h0, Nat.add_assoc] using b
    refine (delete_runs b' na la).bind ?_
    rintro h2 ⟨b2, l2⟩
    refine (delete_runs b2 nc (l2 _ hac lc)).bind ?_
    rintro h3 ⟨b3, l3⟩
    refine (delete_runs b3 x4 (l3 _ (Ne.symm y4) (l2 _ (Ne.symm y1) x7))).bind ?_
    rintro h4 ⟨b4, l4⟩
    refine (delete_runs b4 x5 (l4 _ (Ne.symm y7) (l3 _ (Ne.symm y5) (l2 _ (Ne.symm y2) x8)))).bind ?_
    rintro h5 ⟨b5, l5⟩
    exact (delete_runs b5 x6 (l5 _ (Ne.symm y9) (l4 _ (Ne.symm y8) (l3 _ (Ne.symm y6)
      (l2 _ (Ne.symm y3) x9))))).mono fun _ hx => hx.1

/-- Solvers left behind by the work of the main program. -/
def workLeaks : MainMem σ → ℕ
  | .cuts rs _ => (rs.map roundLeaks).sum
  | _ => 0

/-- All branch-and-bound tests of the program permute in all runs or in none. -/
def MainMem.Uniform : MainMem σ → Prop
  | .stop => True
  | .clean b _ _ _ _ a => VPC.Uniform b ∧ VPC.Uniform a
  | .cuts _ ts => VPC.Uniform ts

/-- The main program: no solver is used after it is deleted or deleted twice, nothing that existed before is
touched, and if it returns exactly the solvers left behind by partial trees still exist. -/
theorem main_runs (started : Bool) (gomory : ℤ) (read : Option σ) (solve : σ → σ) (bad : Bool)
    {m : MainMem σ} (hm : m.Uniform) {h : BMem σ} (hf : h.Fresh) :
    Runs (mainMem started gomory read solve bad m h)
      fun h' => Bal ∅ h h' (if started then workLeaks m else 0) := by
  unfold mainMem
  cases started with
  | false => exact Runs.ok (Bal.refl hf ∅)
  | true =>
    simp only [Bool.not_true, Bool.false_eq_true, if_false, if_true]
    refine (mainSetup_runs gomory read solve bad hf).bind ?_
    rintro ⟨h1, p⟩ ⟨b1, o1⟩
    dsimp only at b1 o1 ⊢
    have hw : Runs (workMem gomory p h1 m) fun h' => Bal ∅ h h' (workLeaks m + mainHeld gomory) ∧
        PtrOk h.next gomory p h' := by
      cases m with
      | stop => exact Runs.ok ⟨by simpa [workLeaks] using b1, o1⟩
      | clean b e r cs bd a =>
        obtain ⟨s, hs, -, ls⟩ := o1.solver
        simp only [workMem, hs]
        refine ((cleaning_runs hm.1 hm.2 e r cs bd b1.top ls).step b1 (by simp)).mono ?_
        rintro h2 ⟨b2, l2⟩
        exact ⟨by simpa [workLeaks] using b2, o1.keep l2⟩
      | cuts rs ts =>
        refine (rounds_runs gomory rs b1 o1).bind ?_
        rintro h2 ⟨b2, o2⟩
        obtain ⟨s, hs, -, ls, -⟩ := o2.orig
        simp only [hs]
        refine ((bbTests_runs hm b2.top ls).step b2 (by simp)).mono ?_
        rintro h3 ⟨b3, l3⟩
        exact ⟨by simpa [workLeaks, Nat.add_comm] using b3, o2.keep l3⟩
    refine hw.bind ?_
    rintro h2 ⟨b2, o2⟩
    exact wrap_runs b2 o2

end VPC
'''
open(p,'w').write(s)
