import Verif.Model.TmpFile
import Mathlib.Data.List.Basic
import Mathlib.Tactic.Common

/-!
# Properties of the temporary files (C132)
-/
namespace VPC

variable {P R : Type}

/-- `s` is a file name part `mkstemp` can choose. -/
def Six (s : List Char) : Prop := s.length = 6

theorem mkstemp_spec {limit : ℕ} {d d' : Disk P} {n : List Char} :
    ∀ {c : List (List Char)}, mkstemp limit d c = some (n, d') →
      (∃ s ∈ c, n = tmpStem ++ s) ∧ d.files n = none ∧ d'.files n = some .empty ∧
      (∀ m, m ≠ n → d'.files m = d.files m) ∧ d'.fds = d.fds + 1 ∧ d.fds < limit := by
  intro c
  induction c with
  | nil => intro h; simp [mkstemp] at h
  | cons s ss ih =>
    intro h
    rw [mkstemp] at h
    split at h
    · cases h
    · rename_i hl
      split at h
      · obtain ⟨⟨t, ht, e⟩, r⟩ := ih h
        exact ⟨⟨t, List.mem_cons_of_mem _ ht, e⟩, r⟩
      · rename_i hn
        cases h
        refine ⟨⟨s, List.mem_cons_self .., rfl⟩, hn, by simp [Disk.put], ?_, rfl, by omega⟩
        intro m hm
        simp [Disk.put, hm]

/-- `mkstemp` succeeds if there is a descriptor and one of the names is free. -/
theorem mkstemp_free {limit : ℕ} {d : Disk P} (hl : d.fds < limit) :
    ∀ {c : List (List Char)}, (∃ s ∈ c, d.files (tmpStem ++ s) = none) → ∃ r, mkstemp limit d c = some r := by
  intro c
  induction c with
  | nil => rintro ⟨s, hs, -⟩; cases hs
  | cons t ts ih =>
    rintro ⟨s, hs, h⟩
    rw [mkstemp, if_neg (by omega)]
    split
    · rename_i x hx
      rcases List.mem_cons.1 hs with rfl | hs
      · rw [h] at hx; cases hx
      · exact ih ⟨s, hs, h⟩
    · exact ⟨_, rfl⟩

theorem mpsGz_eq : ".mps".toList ++ ".gz".toList = mpsGz := by decide

theorem put_same (d : Disk P) (n : List Char) (c : FileC P) : (d.put n c).files n = some c := by simp [Disk.put]

theorem put_other (d : Disk P) {n m : List Char} (c : FileC P) (h : m ≠ n) : (d.put n c).files m = d.files m := by
  simp [Disk.put, h]

theorem base_ne (n : List Char) : n ≠ n ++ mpsGz := by
  intro h
  have := congrArg List.length h
  simp [mpsGz] at this

theorem foldl_put (l : List (List Char × FileC P)) (m : List Char) :
    ∀ d : Disk P, m ∉ l.map Prod.fst → (l.foldl (fun d w => d.put w.1 w.2) d).files m = d.files m := by
  induction l with
  | nil => intro d _; rfl
  | cons a l ih =>
    intro d h
    simp only [List.map_cons, List.mem_cons, not_or] at h
    rw [List.foldl_cons, ih _ h.2, put_other _ _ h.1]

theorem foldl_put_fds (l : List (List Char × FileC P)) :
    ∀ d : Disk P, (l.foldl (fun d w => d.put w.1 w.2) d).fds = d.fds := by
  induction l with
  | nil => intro d; rfl
  | cons a l ih => intro d; rw [List.foldl_cons, ih]; rfl

/-- How a run proceeds: the new name and the disk with the copy. -/
theorem tmpCopyOsi_empty {limit : ℕ} {c : List (List Char)} {d : Disk P} {p : P} {zlib : Bool} :
    (mkstemp limit d c = none ∧ tmpCopyOsi limit c zlib d p [] = .exit d) ∨
    ∃ n d1, mkstemp limit d c = some (n, d1) ∧
      tmpCopyOsi limit c zlib d p [] = .ok (writeMps zlib d1 n p) (n ++ mpsGz) := by
  unfold tmpCopyOsi createTmpFilename
  rw [if_pos rfl]
  cases h : mkstemp limit d c with
  | none => exact .inl ⟨rfl, rfl⟩
  | some r => exact .inr ⟨r.1, r.2, rfl, by simp⟩

/-- The names a run writes besides its own copy. -/
def SolverRun.names (s : SolverRun P R) (p : P) : List (List Char) := (s.writes p).map Prod.fst

/-- **C132 (one run).** If a run returns, the solver has worked on the problem it was given; the copy is gone; a
new empty file is left whose name did not exist before, and one more descriptor is open; no other file changes
except those the solver writes itself. -/
theorem tmp_run {limit : ℕ} {c : List (List Char)} {s : SolverRun P R} {d d' : Disk P} {p : P} {r : R}
    (h : runCopy limit c true s d p = .ok d' r) :
    s.result p = some r ∧ d'.fds = d.fds + 1 ∧ d.fds < limit ∧ ∃ t ∈ c, d.files (tmpStem ++ t) = none ∧
      d'.files (tmpStem ++ t ++ mpsGz) = none ∧
      (tmpStem ++ t ∉ s.names p → d'.files (tmpStem ++ t) = some .empty) ∧
      ∀ m, m ≠ tmpStem ++ t → m ≠ tmpStem ++ t ++ mpsGz → m ∉ s.names p → d'.files m = d.files m := by
  unfold runCopy at h
  rcases tmpCopyOsi_empty (limit := limit) (c := c) (d := d) (p := p) (zlib := true) with ⟨-, e⟩ | ⟨n, d1, hm, e⟩
  · rw [e] at h; cases h
  · rw [e] at h
    obtain ⟨⟨t, ht, rfl⟩, h1, h2, h3, h4, h5⟩ := mkstemp_spec hm
    have ew : writeMps true d1 (tmpStem ++ t) p = d1.put (tmpStem ++ t ++ mpsGz) (.prob p) := by
      unfold writeMps; rw [if_pos rfl, List.append_assoc _ ".mps".toList, mpsGz_eq]
    rw [ew] at h
    simp only [Fin.bind] at h
    unfold runFile at h
    rw [put_same] at h
    dsimp only at h
    cases hr : s.result p with
    | none => rw [hr] at h; cases h
    | some r' =>
      rw [hr] at h
      dsimp only at h
      cases h
      refine ⟨rfl, ?_, h5, t, ht, h1, by simp [Disk.del], fun hn => ?_, fun m a b hn => ?_⟩
      · exact (foldl_put_fds _ _).trans h4
      · show (if _ then none else _) = _
        rw [if_neg (base_ne _), foldl_put _ _ _ hn, put_other _ _ (base_ne _), h2]
      · show (if _ then none else _) = _
        rw [if_neg b, foldl_put _ _ _ hn, put_other _ _ b, h3 _ a]

/-- **C132 (a run that ends the process).** If the solver ends the process, the copy stays behind. -/
theorem tmp_run_killed {limit : ℕ} {c : List (List Char)} {s : SolverRun P R} {d : Disk P} {p : P}
    (hl : d.fds < limit) (hc : ∃ t ∈ c, d.files (tmpStem ++ t) = none) (hr : s.result p = none) :
    ∃ d', runCopy limit c true s d p = .exit d' ∧ ∃ t ∈ c, d.files (tmpStem ++ t) = none ∧
      (tmpStem ++ t ++ mpsGz ∉ s.names p → d'.files (tmpStem ++ t ++ mpsGz) = some (.prob p)) := by
  unfold runCopy
  rcases tmpCopyOsi_empty (limit := limit) (c := c) (d := d) (p := p) (zlib := true) with ⟨e0, -⟩ | ⟨n, d1, hm, e⟩
  · obtain ⟨r, h⟩ := mkstemp_free hl hc
    rw [h] at e0; cases e0
  · rw [e]
    obtain ⟨⟨t, ht, rfl⟩, h1, h2, h3, h4, h5⟩ := mkstemp_spec hm
    have ew : writeMps true d1 (tmpStem ++ t) p = d1.put (tmpStem ++ t ++ mpsGz) (.prob p) := by
      unfold writeMps; rw [if_pos rfl, List.append_assoc _ ".mps".toList, mpsGz_eq]
    rw [ew]
    simp only [Fin.bind]
    unfold runFile
    rw [put_same]
    dsimp only
    rw [hr]
    exact ⟨_, rfl, t, ht, h1, fun hn => by rw [foldl_put _ _ _ hn, put_same]⟩

/-- **C132 (without zlib).** If the library writes no compressed files, the file that is read is not the one that
was written: the process ends, unless a file of that name happens to exist. -/
theorem tmp_run_no_zlib {limit : ℕ} {c : List (List Char)} {s : SolverRun P R} {d : Disk P} {p : P}
    (hd : ∀ t ∈ c, d.files (tmpStem ++ t ++ mpsGz) = none) : ∃ d', runCopy limit c false s d p = .exit d' := by
  unfold runCopy
  rcases tmpCopyOsi_empty (limit := limit) (c := c) (d := d) (p := p) (zlib := false) with ⟨-, e⟩ | ⟨n, d1, hm, e⟩
  · rw [e]; exact ⟨_, rfl⟩
  · rw [e]
    obtain ⟨⟨t, ht, rfl⟩, h1, h2, h3, h4, h5⟩ := mkstemp_spec hm
    simp only [Fin.bind]
    unfold runFile writeMps
    rw [if_neg (by decide), List.append_nil, put_other, h3 _ (base_ne _).symm, hd t ht]
    · exact ⟨_, rfl⟩
    · intro h
      have := congrArg List.length h
      simp [mpsGz] at this

/-- **C132 (runs one after the other).** As many descriptors are open and as many empty files are left as there
were runs; so the number of runs of a process is at most the number of free descriptors. -/
theorem tmp_runs_leak {limit : ℕ} {s : SolverRun P R} (hs : ∀ p, ∀ n ∈ s.names p, ¬ tmpStem <+: n) :
    ∀ (l : List (P × List (List Char))) (d d' : Disk P) (rs : List R),
      (∀ x ∈ l, ∀ t ∈ x.2, Six t) → runCopies limit true s l d = .ok d' rs →
      rs.map some = l.map (fun x => s.result x.1) ∧ d'.fds = d.fds + l.length ∧ l.length ≤ limit - d.fds ∧
      ∃ left : List (List Char), left.length = l.length ∧ left.Nodup ∧ (∀ t ∈ left, Six t) ∧
        (∀ t ∈ left, d.files (tmpStem ++ t) = none ∧ d'.files (tmpStem ++ t) = some .empty) ∧
        ∀ t, Six t → t ∉ left → d'.files (tmpStem ++ t) = d.files (tmpStem ++ t) := by
  intro l
  induction l with
  | nil =>
    intro d d' rs _ h
    cases h
    exact ⟨rfl, rfl, Nat.zero_le _, [], rfl, List.nodup_nil, by simp, by simp, fun _ _ _ => rfl⟩
  | cons x l ih =>
    intro d d' rs hx h
    obtain ⟨p, c⟩ := x
    simp only [runCopies] at h
    cases h1 : runCopy limit c true s d p with
    | exit _ => rw [h1] at h; cases h
    | abort _ => rw [h1] at h; cases h
    | ok d1 r =>
      rw [h1] at h
      simp only [Fin.bind] at h
      cases h2 : runCopies limit true s l d1 with
      | exit _ => rw [h2] at h; cases h
      | abort _ => rw [h2] at h; cases h
      | ok d2 rs' =>
        rw [h2] at h
        dsimp only at h
        cases h
        obtain ⟨a1, a2, a3, t, ht, a4, a5, a6, a7⟩ := tmp_run h1
        obtain ⟨b1, b2, b3, left, c1, c2, c3, c4, c5⟩ := ih d1 d' rs' (fun y hy => hx y (List.mem_cons_of_mem _ hy)) h2
        have st : Six t := hx _ (List.mem_cons_self ..) t ht
        have nn : ∀ u, tmpStem ++ u ∉ s.names p := fun u hu => hs p _ hu (List.prefix_append ..)
        have keep : ∀ u, Six u → u ≠ t → d1.files (tmpStem ++ u) = d.files (tmpStem ++ u) := by
          intro u su hu
          refine a7 _ (fun e => hu (List.append_cancel_left e)) (fun e => ?_) (nn u)
          have := congrArg List.length e
          unfold Six at su st
          simp [mpsGz, su, st] at this
        have htl : t ∉ left := fun hm => by
          have := (c4 t hm).1
          rw [a6 (nn t)] at this; cases this
        refine ⟨by simp [a1, b1], by simp [b2, a2]; omega, by simp; omega, t :: left, by simp [c1],
          List.nodup_cons.2 ⟨htl, c2⟩, ?_, ?_, ?_⟩
        · intro u hu
          rcases List.mem_cons.1 hu with rfl | hu
          · exact st
          · exact c3 u hu
        · intro u hu
          rcases List.mem_cons.1 hu with rfl | hu
          · exact ⟨a4, (c5 u st htl).trans (a6 (nn u))⟩
          · refine ⟨?_, (c4 u hu).2⟩
            rw [← keep u (c3 u hu) (fun e => htl (e ▸ hu))]; exact (c4 u hu).1
        · intro u su hu
          simp only [List.mem_cons, not_or] at hu
          rw [c5 u su hu.2, keep u su hu.1]

/-- **C132 (descriptors run out).** With room for `k` more descriptors, a process that wants to make more than `k`
runs is ended, whatever the solver does. -/
theorem tmp_runs_limit {limit : ℕ} {s : SolverRun P R} :
    ∀ (l : List (P × List (List Char))) (d d' : Disk P) (rs : List R),
      runCopies limit true s l d = .ok d' rs → l.length ≤ limit - d.fds := by
  intro l
  induction l with
  | nil => intro d d' rs _; exact Nat.zero_le _
  | cons x l ih =>
    intro d d' rs h
    obtain ⟨p, c⟩ := x
    simp only [runCopies] at h
    cases h1 : runCopy limit c true s d p with
    | exit _ => rw [h1] at h; cases h
    | abort _ => rw [h1] at h; cases h
    | ok d1 r =>
      rw [h1] at h
      simp only [Fin.bind] at h
      cases h2 : runCopies limit true s l d1 with
      | exit _ => rw [h2] at h; cases h
      | abort _ => rw [h2] at h; cases h
      | ok d2 rs' =>
        have := ih _ _ _ h2
        obtain ⟨-, a2, a3, -⟩ := tmp_run h1
        simp only [List.length_cons]
        omega

/-! ## Names given by the caller -/

/-- **C132 (given name).** If the copy of a model is written under a name the caller gave, that name has the
extension, is the given one or the given one with the extension added, and holds the model; nothing else
changes. -/
theorem tmpCopyModel_named {limit : ℕ} {c : List (List Char)} {caught : Bool} {d d' : Disk P} {p : P}
    {name ext n : List Char} (hn : name ≠ []) (h : tmpCopyModel limit c caught d p name ext = .ok d' n) :
    ext <:+ n ∧ (n = name ∨ n = name ++ ext) ∧ d'.files n = some (.prob p) ∧
      (∀ m, m ≠ n → d'.files m = d.files m) ∧ d'.fds = d.fds := by
  unfold tmpCopyModel at h
  rw [if_neg hn] at h
  cases hw : withExt name ext with
  | none => rw [hw] at h; dsimp only at h; split at h <;> cases h
  | some m =>
    rw [hw] at h
    dsimp only at h
    cases h
    refine ⟨?_, ?_, put_same .., fun m hm => put_other _ _ hm, rfl⟩
    · unfold withExt at hw
      split at hw
      · rename_i he; cases hw; rw [he]; exact List.nil_suffix
      · split at hw
        · cases hw
        · split at hw
          · rename_i he; cases hw; rw [← he]; exact List.drop_suffix ..
          · cases hw; exact List.suffix_append ..
    · unfold withExt at hw
      split at hw
      · cases hw; exact .inl rfl
      · split at hw
        · cases hw
        · split at hw
          · cases hw; exact .inl rfl
          · cases hw; exact .inr rfl

/-- **C132 (no name given).** Without a name, the copy of a model gets a new name of the temporary directory with
the extension, and is the only file that changes besides the new empty one. -/
theorem tmpCopyModel_tmp {limit : ℕ} {c : List (List Char)} {caught : Bool} {d d' : Disk P} {p : P}
    {ext n : List Char} (h : tmpCopyModel limit c caught d p [] ext = .ok d' n) :
    ∃ t ∈ c, n = tmpStem ++ t ++ ext ∧ d.files (tmpStem ++ t) = none ∧ d'.files n = some (.prob p) ∧
      (∀ m, m ≠ n → m ≠ tmpStem ++ t → d'.files m = d.files m) := by
  unfold tmpCopyModel createTmpFilename at h
  rw [if_pos rfl] at h
  cases hm : mkstemp limit d c with
  | none => rw [hm] at h; cases h
  | some r =>
    obtain ⟨n', d1⟩ := r
    rw [hm] at h
    dsimp only [Option.map] at h
    cases h
    obtain ⟨⟨t, ht, rfl⟩, h1, h2, h3, h4, h5⟩ := mkstemp_spec hm
    exact ⟨t, ht, rfl, h1, put_same .., fun m a b => by rw [put_other _ _ a, h3 _ b]⟩

example : ∃ d, tmpCopyModel 10 ["abcdef".toList] false (⟨fun _ => none, 3⟩ : Disk ℕ) 5 [] mpsGz =
    .ok d "/tmp/tmpvpcabcdef.mps.gz".toList := ⟨_, rfl⟩

/-- **C132 (name given).** The copy of a solver object under a given name is in that name with `.mps.gz` (with
zlib), and that is the name reported. -/
theorem tmpCopyOsi_named (limit : ℕ) (c : List (List Char)) (d : Disk P) (p : P) {name : List Char} (hn : name ≠ []) :
    tmpCopyOsi limit c true d p name = .ok (d.put (name ++ mpsGz) (.prob p)) (name ++ mpsGz) := by
  unfold tmpCopyOsi writeMps
  rw [if_neg hn, if_pos rfl, List.append_assoc, mpsGz_eq]

/-- **C132 (short names).** A nonempty name shorter than the extension ends the process: with Gurobi through
`exit(1)`, with CPLEX through an exception nobody catches. -/
theorem tmpCopyModel_short (limit : ℕ) (c : List (List Char)) (d : Disk P) (p : P) {name : List Char}
    (hn : name ≠ []) (hs : name.length < 7) :
    tmpCopyModel limit c true d p name mpsGz = .exit d ∧ tmpCopyModel limit c false d p name mpsGz = .abort d := by
  have e : withExt name mpsGz = none := by
    unfold withExt
    rw [if_neg (by decide), if_pos (by rw [show mpsGz.length = 7 from by decide]; exact hs)]
  constructor <;> unfold tmpCopyModel <;> rw [if_neg hn, e] <;> rfl

/-- **C132 (the presolved problem).** Preprocessing asks for the stub of the instance with `_presolved`
(src/utility/preprocess.cpp:87-88); the model is then in that name with `.mps.gz`, whatever the stub. -/
theorem presolved_name (limit : ℕ) (c : List (List Char)) (caught : Bool) (d : Disk P) (p : P) (stub : List Char) :
    tmpCopyModel limit c caught d p (stub ++ "_presolved".toList) mpsGz =
      .ok (d.put (stub ++ "_presolved.mps.gz".toList) (.prob p)) (stub ++ "_presolved.mps.gz".toList) := by
  have e : withExt (stub ++ "_presolved".toList) mpsGz = some (stub ++ "_presolved.mps.gz".toList) := by
    have e1 : (stub ++ "_presolved".toList).drop ((stub ++ "_presolved".toList).length - mpsGz.length) =
        "solved".toList.take 0 ++ "esolved".toList := by
      have e2 : stub ++ "_presolved".toList = (stub ++ "_pr".toList) ++ "esolved".toList := by
        rw [List.append_assoc]; rfl
      rw [e2]
      have e3 : ((stub ++ "_pr".toList) ++ "esolved".toList).length - mpsGz.length = (stub ++ "_pr".toList).length := by
        rw [List.length_append (as := stub ++ "_pr".toList)]
        rw [show ("esolved".toList).length = 7 from by decide, show mpsGz.length = 7 from by decide]
        omega
      rw [e3, List.drop_left]; rfl
    unfold withExt
    rw [if_neg (by decide), if_neg, e1, if_neg (by decide), List.append_assoc]
    · rfl
    · rw [List.length_append, show ("_presolved".toList).length = 10 from by decide,
        show mpsGz.length = 7 from by decide]
      omega
  unfold tmpCopyModel
  rw [if_neg (by simp), e]

/-! ## Several processes -/

/-- The name a process works with. -/
def TPhase.name? : TPhase → Option (List Char)
  | .idle => none
  | .named n => some n
  | .wrote n => some n
  | .read n => some n

/-- What holds at every moment. -/
structure TInv (ps : ℕ → TProc P) (d : List Char → Option (FileC P)) : Prop where
  base : ∀ i n, (ps i).phase.name? = some n → (∃ s, Six s ∧ n = tmpStem ++ s) ∧ d n ≠ none
  diff : ∀ i j n, (ps i).phase.name? = some n → (ps j).phase.name? = some n → i = j
  copy : ∀ i n, (ps i).phase = .wrote n → ∀ p t, (ps i).todo = p :: t → d (n ++ mpsGz) = some (.prob p)
  good : ∀ i, ∀ x ∈ (ps i).seen, x.2 = some (.prob x.1)

theorem gz_ne_base {s t : List Char} (hs : Six s) (ht : Six t) : tmpStem ++ s ≠ tmpStem ++ t ++ mpsGz := by
  intro e
  have := congrArg List.length e
  unfold Six at hs ht
  simp [mpsGz, hs, ht] at this

theorem gz_inj {m n : List Char} (h : m ++ mpsGz = n ++ mpsGz) : m = n := List.append_cancel_right h

theorem tinv_step {ps : ℕ → TProc P} {d : List Char → Option (FileC P)} (h : TInv ps d) (i : ℕ) {s : List Char}
    (hs : Six s) : TInv (Function.update ps i ((ps i).step s d).1) ((ps i).step s d).2 := by
  have hsame : TInv (Function.update ps i (ps i)) d := by rw [Function.update_eq_self]; exact h
  cases htd : (ps i).todo with
  | nil => unfold TProc.step; rw [htd]; exact hsame
  | cons p t =>
    cases hph : (ps i).phase with
    | idle =>
      unfold TProc.step
      rw [htd, hph]
      dsimp only
      cases hd : d (tmpStem ++ s) with
      | some _ => dsimp only; exact hsame
      | none =>
        dsimp only
        have fresh : ∀ j n, (ps j).phase.name? = some n → n ≠ tmpStem ++ s := by
          rintro j n hj rfl
          exact (h.base j _ hj).2 hd
        refine ⟨fun j n hj => ?_, fun j k n hj hk => ?_, fun j n hj q u hq => ?_, fun j x hx => ?_⟩
        · by_cases e : j = i
          · subst e
            simp only [Function.update_self, TPhase.name?, Option.some.injEq] at hj
            subst hj
            exact ⟨⟨s, hs, rfl⟩, by simp⟩
          · rw [Function.update_of_ne e] at hj
            refine ⟨(h.base j n hj).1, ?_⟩
            rw [if_neg (fresh j n hj)]; exact (h.base j n hj).2
        · by_cases e : j = i <;> by_cases e' : k = i
          · rw [e, e']
          · subst e
            simp only [Function.update_self, TPhase.name?, Option.some.injEq] at hj
            rw [Function.update_of_ne e'] at hk
            exact absurd hj.symm (fresh k n hk)
          · subst e'
            simp only [Function.update_self, TPhase.name?, Option.some.injEq] at hk
            rw [Function.update_of_ne e] at hj
            exact absurd hk.symm (fresh j n hj)
          · rw [Function.update_of_ne e] at hj
            rw [Function.update_of_ne e'] at hk
            exact h.diff j k n hj hk
        · by_cases e : j = i
          · subst e; simp [Function.update_self] at hj
          · rw [Function.update_of_ne e] at hj hq
            obtain ⟨⟨u', su, rfl⟩, -⟩ := h.base j n (by rw [hj]; rfl)
            rw [if_neg (gz_ne_base hs su).symm]
            exact h.copy j _ hj q u hq
        · by_cases e : j = i
          · subst e; simp only [Function.update_self] at hx; exact h.good _ x hx
          · rw [Function.update_of_ne e] at hx; exact h.good j x hx
    | named n =>
      have e0 : (ps i).step s d = ({ ps i with phase := .wrote n },
          fun m => if m = n ++ mpsGz then some (.prob p) else d m) := by
        simp [TProc.step, htd, hph]
      rw [e0]
      dsimp only
      obtain ⟨⟨s', hs', en⟩, hn⟩ := h.base i n (by rw [hph]; rfl)
      have nm : ∀ j m, ((Function.update ps i { ps i with phase := .wrote n }) j).phase.name? = some m →
          (ps j).phase.name? = some m := by
        intro j m hj
        by_cases e : j = i
        · subst e; simp only [Function.update_self] at hj; rw [hph]; exact hj
        · rwa [Function.update_of_ne e] at hj
      refine ⟨fun j m hj => ?_, fun j k m hj hk => h.diff j k m (nm j m hj) (nm k m hk), fun j m hj q u hq => ?_,
        fun j x hx => ?_⟩
      · obtain ⟨⟨v, sv, ev⟩, hm⟩ := h.base j m (nm j m hj)
        refine ⟨⟨v, sv, ev⟩, ?_⟩
        rw [if_neg (by rw [ev, en]; exact gz_ne_base sv hs')]
        exact hm
      · by_cases e : j = i
        · subst e
          simp only [Function.update_self, TPhase.wrote.injEq] at hj hq
          subst hj
          rw [htd] at hq
          cases hq
          simp
        · rw [Function.update_of_ne e] at hj hq
          rw [if_neg]
          · exact h.copy j m hj q u hq
          · intro eq
            have := gz_inj eq
            subst this
            exact e (h.diff j i m (by rw [hj]; rfl) (by rw [hph]; rfl))
      · by_cases e : j = i
        · subst e; simp only [Function.update_self] at hx; exact h.good _ x hx
        · rw [Function.update_of_ne e] at hx; exact h.good j x hx
    | wrote n =>
      have e0 : (ps i).step s d = ({ ps i with
          phase := .read n
          seen := (ps i).seen ++ [(p, d (n ++ mpsGz))] }, d) := by
        simp [TProc.step, htd, hph]
      rw [e0]
      dsimp only
      have nm : ∀ j m, ((Function.update ps i
          { ps i with
            phase := .read n
            seen := (ps i).seen ++ [(p, d (n ++ mpsGz))] }) j).phase.name? = some m →
          (ps j).phase.name? = some m := by
        intro j m hj
        by_cases e : j = i
        · subst e; simp only [Function.update_self] at hj; rw [hph]; exact hj
        · rwa [Function.update_of_ne e] at hj
      refine ⟨fun j m hj => h.base j m (nm j m hj), fun j k m hj hk => h.diff j k m (nm j m hj) (nm k m hk),
        fun j m hj q u hq => ?_, fun j x hx => ?_⟩
      · by_cases e : j = i
        · subst e; simp [Function.update_self] at hj
        · rw [Function.update_of_ne e] at hj hq; exact h.copy j m hj q u hq
      · by_cases e : j = i
        · subst e
          simp only [Function.update_self, List.mem_append, List.mem_singleton] at hx
          rcases hx with hx | rfl
          · exact h.good _ x hx
          · exact h.copy j n hph p t htd
        · rw [Function.update_of_ne e] at hx; exact h.good j x hx
    | read n =>
      have e0 : (ps i).step s d = ({ ps i with
          todo := t
          phase := .idle }, fun m => if m = n ++ mpsGz then none else d m) := by
        simp [TProc.step, htd, hph]
      rw [e0]
      dsimp only
      obtain ⟨⟨s', hs', en⟩, hn⟩ := h.base i n (by rw [hph]; rfl)
      have nm : ∀ j m, ((Function.update ps i
          { ps i with
            todo := t
            phase := .idle }) j).phase.name? = some m →
          j ≠ i ∧ (ps j).phase.name? = some m := by
        intro j m hj
        by_cases e : j = i
        · subst e; simp [Function.update_self, TPhase.name?] at hj
        · exact ⟨e, by rwa [Function.update_of_ne e] at hj⟩
      refine ⟨fun j m hj => ?_, fun j k m hj hk => h.diff j k m (nm j m hj).2 (nm k m hk).2, fun j m hj q u hq => ?_,
        fun j x hx => ?_⟩
      · obtain ⟨⟨v, sv, ev⟩, hm⟩ := h.base j m (nm j m hj).2
        refine ⟨⟨v, sv, ev⟩, ?_⟩
        rw [if_neg (by rw [ev, en]; exact gz_ne_base sv hs')]
        exact hm
      · by_cases e : j = i
        · subst e; simp [Function.update_self] at hj
        · rw [Function.update_of_ne e] at hj hq
          rw [if_neg]
          · exact h.copy j m hj q u hq
          · intro eq
            have := gz_inj eq
            subst this
            exact e (h.diff j i m (by rw [hj]; rfl) (by rw [hph]; rfl))
      · by_cases e : j = i
        · subst e; simp only [Function.update_self] at hx; exact h.good _ x hx
        · rw [Function.update_of_ne e] at hx; exact h.good j x hx

theorem tinv_run : ∀ (l : List (ℕ × List Char)) {ps : ℕ → TProc P} {d : List Char → Option (FileC P)},
    TInv ps d → (∀ x ∈ l, Six x.2) → TInv (tRun l ps d).1 (tRun l ps d).2 := by
  intro l
  induction l with
  | nil => intro ps d h _; exact h
  | cons x l ih =>
    intro ps d h hx
    obtain ⟨i, s⟩ := x
    rw [tRun]
    exact ih (tinv_step h i (hx _ (List.mem_cons_self ..))) fun y hy => hx y (List.mem_cons_of_mem _ hy)

/-- **C132 (several processes).** Any number of processes that make such runs at the same time on one disk, in
any order of their file operations and whatever names `mkstemp` tries: every process reads exactly the problem it
wrote. -/
theorem tmp_concurrent (l : List (ℕ × List Char)) (hl : ∀ x ∈ l, Six x.2) (work : ℕ → List P)
    (d : List Char → Option (FileC P)) (i : ℕ) :
    ∀ x ∈ ((tRun l (fun i => ⟨work i, .idle, []⟩) d).1 i).seen, x.2 = some (.prob x.1) := by
  refine (tinv_run l ⟨?_, ?_, ?_, ?_⟩ hl).good i
  · intro i n h; simp [TPhase.name?] at h
  · intro i j n h; simp [TPhase.name?] at h
  · intro i n h; simp at h
  · intro i x h; simp at h

/-- What the processes leave, if there were no copies at the beginning. -/
theorem tmp_left_step {ps : ℕ → TProc P} {d0 d : List Char → Option (FileC P)} (h : TInv ps d)
    (h0 : ∀ t, Six t → d0 (tmpStem ++ t ++ mpsGz) = none)
    (hd : ∀ m, d m ≠ d0 m → (∃ t, Six t ∧ m = tmpStem ++ t) ∨
      ∃ i n, ((ps i).phase = .wrote n ∨ (ps i).phase = .read n) ∧ m = n ++ mpsGz) (i : ℕ) {s : List Char}
    (hs : Six s) (m : List Char) (hm : ((ps i).step s d).2 m ≠ d0 m) :
    (∃ t, Six t ∧ m = tmpStem ++ t) ∨
      ∃ j n, ((Function.update ps i ((ps i).step s d).1 j).phase = .wrote n ∨
        (Function.update ps i ((ps i).step s d).1 j).phase = .read n) ∧ m = n ++ mpsGz := by
  cases htd : (ps i).todo with
  | nil =>
    have e : (ps i).step s d = (ps i, d) := by unfold TProc.step; rw [htd]
    rw [e] at hm ⊢
    rw [Function.update_eq_self]
    exact hd m hm
  | cons p t =>
    cases hph : (ps i).phase with
    | idle =>
      cases hb : d (tmpStem ++ s) with
      | some x =>
        have e : (ps i).step s d = (ps i, d) := by simp [TProc.step, htd, hph, hb]
        rw [e] at hm ⊢
        rw [Function.update_eq_self]
        exact hd m hm
      | none =>
        have e : (ps i).step s d = ({ ps i with phase := .named (tmpStem ++ s) },
            fun m => if m = tmpStem ++ s then some .empty else d m) := by
          simp [TProc.step, htd, hph, hb]
        rw [e] at hm ⊢
        dsimp only at hm ⊢
        by_cases em : m = tmpStem ++ s
        · exact .inl ⟨s, hs, em⟩
        · rw [if_neg em] at hm
          rcases hd m hm with q | ⟨j, n, hj, q⟩
          · exact .inl q
          · refine .inr ⟨j, n, ?_, q⟩
            have : j ≠ i := by rintro rfl; rw [hph] at hj; simp at hj
            rw [Function.update_of_ne this]; exact hj
    | named n =>
      have e : (ps i).step s d = ({ ps i with phase := .wrote n },
          fun m => if m = n ++ mpsGz then some (.prob p) else d m) := by
        simp [TProc.step, htd, hph]
      rw [e] at hm ⊢
      dsimp only at hm ⊢
      by_cases em : m = n ++ mpsGz
      · exact .inr ⟨i, n, .inl (by simp), em⟩
      · rw [if_neg em] at hm
        rcases hd m hm with q | ⟨j, n', hj, q⟩
        · exact .inl q
        · refine .inr ⟨j, n', ?_, q⟩
          have : j ≠ i := by rintro rfl; rw [hph] at hj; simp at hj
          rw [Function.update_of_ne this]; exact hj
    | wrote n =>
      have e : (ps i).step s d = ({ ps i with
          phase := .read n
          seen := (ps i).seen ++ [(p, d (n ++ mpsGz))] }, d) := by
        simp [TProc.step, htd, hph]
      rw [e] at hm ⊢
      dsimp only at hm ⊢
      rcases hd m hm with q | ⟨j, n', hj, q⟩
      · exact .inl q
      · refine .inr ⟨j, n', ?_, q⟩
        by_cases ej : j = i
        · subst ej
          rw [hph] at hj
          simp only [TPhase.wrote.injEq, reduceCtorEq, or_false] at hj
          subst hj
          simp
        · rw [Function.update_of_ne ej]; exact hj
    | read n =>
      have e : (ps i).step s d = ({ ps i with
          todo := t
          phase := .idle }, fun m => if m = n ++ mpsGz then none else d m) := by
        simp [TProc.step, htd, hph]
      rw [e] at hm ⊢
      dsimp only at hm ⊢
      by_cases em : m = n ++ mpsGz
      · rw [if_pos em] at hm
        obtain ⟨⟨v, sv, ev⟩, -⟩ := h.base i n (by rw [hph]; rfl)
        rw [em, ev, h0 v sv] at hm
        exact absurd rfl hm
      · rw [if_neg em] at hm
        rcases hd m hm with q | ⟨j, n', hj, q⟩
        · exact .inl q
        · refine .inr ⟨j, n', ?_, q⟩
          by_cases ej : j = i
          · subst ej
            rw [hph] at hj
            simp only [reduceCtorEq, TPhase.read.injEq, false_or] at hj
            subst hj
            exact absurd q em
          · rw [Function.update_of_ne ej]; exact hj

/-- **C132 (several processes, files left).** At every moment the only files that differ from the beginning are
the names chosen by `mkstemp` and the copies processes are working with; once all processes are idle, only the
names are left. -/
theorem tmp_concurrent_left (l : List (ℕ × List Char)) (hl : ∀ x ∈ l, Six x.2) (work : ℕ → List P)
    (d : List Char → Option (FileC P)) (h0 : ∀ t, Six t → d (tmpStem ++ t ++ mpsGz) = none)
    (hi : ∀ i, ((tRun l (fun i => ⟨work i, .idle, []⟩) d).1 i).phase = .idle) (m : List Char)
    (hm : (tRun l (fun i => ⟨work i, .idle, []⟩) d).2 m ≠ d m) : ∃ t, Six t ∧ m = tmpStem ++ t := by
  have key : ∀ (l : List (ℕ × List Char)) (ps : ℕ → TProc P) (d1 : List Char → Option (FileC P)),
      TInv ps d1 → (∀ x ∈ l, Six x.2) →
      (∀ m, d1 m ≠ d m → (∃ t, Six t ∧ m = tmpStem ++ t) ∨
        ∃ i n, ((ps i).phase = .wrote n ∨ (ps i).phase = .read n) ∧ m = n ++ mpsGz) →
      ∀ m, (tRun l ps d1).2 m ≠ d m → (∃ t, Six t ∧ m = tmpStem ++ t) ∨
        ∃ i n, (((tRun l ps d1).1 i).phase = .wrote n ∨ ((tRun l ps d1).1 i).phase = .read n) ∧ m = n ++ mpsGz := by
    intro l
    induction l with
    | nil => intro ps d1 _ _ h; exact h
    | cons x l ih =>
      intro ps d1 hI hx h
      obtain ⟨i, s⟩ := x
      rw [tRun]
      have hs := hx _ (List.mem_cons_self ..)
      exact ih _ _ (tinv_step hI i hs) (fun y hy => hx y (List.mem_cons_of_mem _ hy)) (tmp_left_step hI h0 h i hs)
  have hI : TInv (fun i => (⟨work i, .idle, []⟩ : TProc P)) d := by
    refine ⟨?_, ?_, ?_, ?_⟩
    · intro i n h; simp [TPhase.name?] at h
    · intro i j n h; simp [TPhase.name?] at h
    · intro i n h; simp at h
    · intro i x h; simp at h
  rcases key l _ d hI hl (fun m hm => absurd rfl hm) m hm with q | ⟨i, n, hj, -⟩
  · exact q
  · rw [hi i] at hj; simp at hj

/-! ## Examples and violations -/

/-- An empty disk with three descriptors open. -/
def disk0 : Disk ℕ := ⟨fun _ => none, 3⟩

/-- A solver that returns the problem plus one and ends the process for problem 0. -/
def solver1 : SolverRun ℕ ℕ := ⟨fun _ => [], fun p => if p = 0 then none else some (p + 1)⟩

example : ∃ d, runCopy 10 ["abcdef".toList] true solver1 disk0 5 = .ok d 6 ∧
    d.files "/tmp/tmpvpcabcdef".toList = some .empty ∧ d.files "/tmp/tmpvpcabcdef.mps.gz".toList = none :=
  ⟨_, rfl, by decide +kernel, by decide +kernel⟩

example : (∃ t ∈ ["abcdef".toList], disk0.files (tmpStem ++ t) = none) ∧ solver1.result 0 = none ∧ disk0.fds < 10 :=
  ⟨⟨_, List.mem_cons_self .., rfl⟩, rfl, by decide⟩

example : ∃ d, runCopies 10 true solver1 [(5, ["abcdef".toList]), (7, ["abcdef".toList, "ghijkl".toList])] disk0 =
    .ok d [6, 8] ∧ d.files "/tmp/tmpvpcghijkl".toList = some .empty ∧ d.fds = 5 :=
  ⟨_, rfl, by decide +kernel, by decide +kernel⟩

/-- **C132 (violated).** Temporary files do not all disappear: after two runs two empty files are left. -/
theorem tmp_files_left : ∃ d, runCopies 10 true solver1 [(5, ["abcdef".toList]), (7, ["ghijkl".toList])] disk0 =
    .ok d [6, 8] ∧ d.files "/tmp/tmpvpcabcdef".toList ≠ none ∧ d.files "/tmp/tmpvpcghijkl".toList ≠ none :=
  ⟨_, rfl, by decide +kernel, by decide +kernel⟩

/-- **C132 (violated).** A file of the user that has the name of the copy is overwritten and removed: only the
name without extension is reserved. -/
theorem tmp_overwrites : ∃ d, runCopy 10 ["abcdef".toList] true solver1
      (disk0.put "/tmp/tmpvpcabcdef.mps.gz".toList .other) 5 = .ok d 6 ∧
    d.files "/tmp/tmpvpcabcdef.mps.gz".toList = none :=
  ⟨_, rfl, by decide +kernel⟩

/-- **C132 (violated).** Without zlib, such a file is taken for the copy, and the wrong problem is solved. -/
theorem tmp_no_zlib_wrong : ∃ d, runCopy 10 ["abcdef".toList] false solver1
      (disk0.put "/tmp/tmpvpcabcdef.mps.gz".toList (.prob 8)) 5 = .ok d 9 ∧
    d.files "/tmp/tmpvpcabcdef.mps".toList = some (.prob 5) :=
  ⟨_, rfl, by decide +kernel⟩

/-- **C132 (violated).** The third run of a process with two free descriptors ends it. -/
theorem tmp_fds_exhausted : ∃ d, runCopies 5 true solver1
    [(5, ["abcdef".toList]), (7, ["ghijkl".toList]), (9, ["mnopqr".toList])] disk0 = .exit d := ⟨_, rfl⟩

example : tmpCopyModel 10 [] false disk0 5 "out.gz".toList mpsGz = .abort disk0 :=
  (tmpCopyModel_short 10 [] disk0 5 (by decide) (by decide)).2

example : ∃ d, tmpCopyModel 10 [] false disk0 5 "a.mps.gz".toList mpsGz = .ok d "a.mps.gz".toList := ⟨_, rfl⟩

/-- Two processes take turns; the second one tries the name the first one has. -/
def turns : List (ℕ × List Char) :=
  [(0, "abcdef".toList), (1, "abcdef".toList), (1, "ghijkl".toList), (1, "abcdef".toList), (0, "abcdef".toList),
   (1, "abcdef".toList), (0, "abcdef".toList), (0, "abcdef".toList), (1, "abcdef".toList)]

example : (∀ x ∈ turns, Six x.2) ∧
    ((tRun turns (fun i => ⟨[i + 5], .idle, []⟩) disk0.files).1 0).seen = [(5, some (.prob 5))] ∧
    ((tRun turns (fun i => ⟨[i + 5], .idle, []⟩) disk0.files).1 1).seen = [(6, some (.prob 6))] ∧
    ((tRun turns (fun i => ⟨[i + 5], .idle, []⟩) disk0.files).1 1).phase = .idle := by
  refine ⟨by unfold Six; decide +kernel, by decide +kernel, by decide +kernel, by decide +kernel⟩

end VPC
