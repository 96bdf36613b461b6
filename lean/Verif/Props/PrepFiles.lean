import Verif.Model.PrepFiles
import Verif.Props.TmpFile

/-!
# C143: the preprocessing mode leaves the instance in the file it names and tests that instance
-/
namespace VPC

variable {P : Type}

/-! ## Specification -/

/-- The file that is to hold the cleaned instance: `X_presolved.mps.gz` for mode 1, `X_cleaned.mps` or
`X_cleaned.mps.gz` (as the library writes) for mode 2. -/
def PFEnv.saved (env : PFEnv P) : List Char :=
  if env.mode ≤ 1 then env.stub ++ "_presolved.mps.gz".toList
  else env.stub ++ "_cleaned.mps".toList ++ (if env.zlib then ".gz".toList else [])

/-- Files of the user: not in the way of temporary files, and none of the names that are written. -/
def PFEnv.Untouched (env : PFEnv P) (m : List Char) : Prop :=
  ¬ tmpStem <+: m ∧ m ≠ env.saved ∧ m ≠ env.stub ++ "_presolved.pre".toList ∧
    m ≠ env.stub ++ "_presolved.mps.gz.pre".toList

/-! ## Presolving -/

/-- How presolving leaves the disk: the result `q` is in the file `n`, which is the one to be saved (mode 1) or a
temporary one (mode 2); files of the user are as before. -/
structure Presolved (env : PFEnv P) (d d' : Disk P) (n : List Char) (q : P) : Prop where
  holds : d'.files n = some (.prob q)
  name1 : env.mode ≤ 1 → n = env.saved
  name2 : 1 < env.mode → ∃ t, n = tmpStem ++ t ++ mpsGz
  keeps : ∀ m, env.Untouched m → d'.files m = d.files m

theorem saved1 {env : PFEnv P} (h : env.mode ≤ 1) : env.saved = env.stub ++ "_presolved.mps.gz".toList := if_pos h

theorem presolvedStub1 {env : PFEnv P} (h : env.mode ≤ 1) : env.presolvedStub = env.stub ++ "_presolved".toList :=
  if_pos h

theorem presolvedStub2 {env : PFEnv P} (h : 1 < env.mode) : env.presolvedStub = [] := if_neg (by omega)

theorem append_ne_nil' (a : List Char) : a ++ "_presolved".toList ≠ [] := by
  intro h; rw [List.append_eq_nil_iff] at h; exact absurd h.2 (by decide)

/-- Saving under a name that already has the extension. -/
theorem tmpCopyModel_has (limit : ℕ) (c : List (List Char)) (caught : Bool) (d : Disk P) (p : P) (a : List Char) :
    tmpCopyModel limit c caught d p (a ++ mpsGz) mpsGz = .ok (d.put (a ++ mpsGz) (.prob p)) (a ++ mpsGz) := by
  have hn : a ++ mpsGz ≠ [] := by
    intro h; rw [List.append_eq_nil_iff] at h; exact absurd h.2 (by decide)
  have hw : withExt (a ++ mpsGz) mpsGz = some (a ++ mpsGz) := by
    unfold withExt
    rw [if_neg (by decide), if_neg (by rw [List.length_append]; omega), if_pos]
    rw [List.length_append, Nat.add_sub_cancel, List.drop_left]
  unfold tmpCopyModel
  rw [if_neg hn, hw]

/-- Saving under a name of the temporary directory, which has no extension. -/
theorem tmpCopyModel_stem (limit : ℕ) (c : List (List Char)) (caught : Bool) (d : Disk P) (p : P) {t : List Char}
    (ht : Six t) (he : t ≠ "mps.gz".toList) :
    tmpCopyModel limit c caught d p (tmpStem ++ t) mpsGz =
      .ok (d.put (tmpStem ++ t ++ mpsGz) (.prob p)) (tmpStem ++ t ++ mpsGz) := by
  have hn : tmpStem ++ t ≠ [] := by
    intro h; rw [List.append_eq_nil_iff] at h; exact absurd h.1 (by decide)
  have hw : withExt (tmpStem ++ t) mpsGz = some (tmpStem ++ t ++ mpsGz) := by
    have e : tmpStem ++ t = "/tmp/tmpvp".toList ++ ("c".toList ++ t) := by
      rw [← List.append_assoc]; rfl
    have hl : (tmpStem ++ t).length - mpsGz.length = "/tmp/tmpvp".toList.length := by
      rw [List.length_append, ht]; decide
    unfold withExt
    rw [if_neg (by decide), if_neg (by rw [List.length_append, ht]; decide), if_neg]
    rw [hl, e, List.drop_left]
    intro h
    have h' : 'c' :: t = mpsGz := h
    have : ('c' :: t).head? = mpsGz.head? := by rw [h']
    simp [mpsGz] at this
  unfold tmpCopyModel
  rw [if_neg hn, hw]

theorem grbPresolve_ok {env : PFEnv P} {d d' : Disk P} {n : List Char}
    (h : grbPresolve env d env.presolvedStub = .ok d' n) : ∃ q, Presolved env d d' n q := by
  unfold grbPresolve at h
  split at h
  · rename_i p hp
    split at h
    · cases h
    · rename_i q hq
      rcases le_or_gt env.mode 1 with hm | hm
      · rw [presolvedStub1 hm, presolved_name] at h
        cases h
        refine ⟨q, put_same .., fun _ => (saved1 hm).symm, fun h => absurd h (by omega), fun m hu => ?_⟩
        exact put_other _ _ (saved1 hm ▸ hu.2.1)
      · rw [presolvedStub2 hm] at h
        obtain ⟨t, -, rfl, -, h2, h3⟩ := tmpCopyModel_tmp h
        refine ⟨q, h2, fun h => absurd h (by omega), fun _ => ⟨t, rfl⟩, fun m hu => ?_⟩
        refine h3 m ?_ ?_ <;> rintro rfl
        · exact hu.1 (by rw [List.append_assoc]; exact List.prefix_append ..)
        · exact hu.1 (List.prefix_append ..)
  · cases h

/-- CPLEX after Gurobi, or alone. -/
theorem cpxPresolve_ok {env : PFEnv P} (hc : ∀ t ∈ env.candsC, Six t ∧ t ≠ "mps.gz".toList) {d0 d d' : Disk P}
    {name n : List Char} (hk : ∀ m, env.Untouched m → d.files m = d0.files m)
    (hname : name = env.presolvedStub ∨ (env.mode ≤ 1 ∧ name = env.saved) ∨
      (1 < env.mode ∧ ∃ t, name = tmpStem ++ t ++ mpsGz))
    (h : cpxPresolve env d name = .ok d' n) : ∃ q, Presolved env d0 d' n q := by
  unfold cpxPresolve at h
  split at h
  · rename_i p hp
    -- saving under a name `a` with the extension, after `.pre` was written
    by_cases hn : name = []
    · subst hn
      have hm : 1 < env.mode := by
        rcases le_or_gt env.mode 1 with hm | hm
        · rcases hname with e | ⟨-, e⟩ | ⟨-, t, e⟩
          · rw [presolvedStub1 hm] at e; exact absurd e.symm (append_ne_nil' _)
          · rw [saved1 hm] at e
            exact absurd (List.append_eq_nil_iff.1 e.symm).2 (by decide)
          · exact absurd (List.append_eq_nil_iff.1 e.symm).2 (by decide)
        · exact hm
      unfold cpxName createTmpFilename at h
      rw [if_pos rfl] at h
      cases hk' : mkstemp env.limit d env.candsC with
      | none => rw [hk'] at h; cases h
      | some r =>
        obtain ⟨b, d1⟩ := r
        rw [hk'] at h
        obtain ⟨⟨t, ht, rfl⟩, h1, h2, h3, -⟩ := mkstemp_spec hk'
        simp only [Option.map, List.append_nil, Fin.bind] at h
        split at h
        · cases h
        · rename_i q hq
          rw [tmpCopyModel_stem _ _ _ _ _ (hc t ht).1 (hc t ht).2] at h
          cases h
          refine ⟨q, put_same .., fun h => absurd h (by omega), fun _ => ⟨t, rfl⟩, fun m hu => ?_⟩
          have a1 : m ≠ tmpStem ++ t := by rintro rfl; exact hu.1 (List.prefix_append ..)
          have a2 : m ≠ tmpStem ++ t ++ mpsGz := by
            rintro rfl; exact hu.1 (by rw [List.append_assoc]; exact List.prefix_append ..)
          have a3 : m ≠ tmpStem ++ t ++ ".pre".toList := by
            rintro rfl; exact hu.1 (by rw [List.append_assoc]; exact List.prefix_append ..)
          rw [put_other _ _ a2, put_other _ _ a3, h3 _ a1, hk m hu]
    · unfold cpxName at h
      rw [if_neg hn] at h
      simp only [Fin.bind] at h
      split at h
      · cases h
      · rename_i q hq
        rcases hname with e | ⟨hm, e⟩ | ⟨hm, t, e⟩
        · rcases le_or_gt env.mode 1 with hm | hm
          · rw [e, presolvedStub1 hm, presolved_name] at h
            cases h
            refine ⟨q, put_same .., fun _ => (saved1 hm).symm, fun h => absurd h (by omega), fun m hu => ?_⟩
            have a1 : m ≠ env.stub ++ "_presolved".toList ++ ".pre".toList := by
              rw [List.append_assoc]; exact hu.2.2.1
            rw [put_other _ _ (saved1 hm ▸ hu.2.1), put_other _ _ a1, hk m hu]
          · rw [presolvedStub2 hm] at e; exact absurd e hn
        · have e' : name = (env.stub ++ "_presolved".toList) ++ mpsGz := by
            rw [e, saved1 hm, List.append_assoc]; rfl
          rw [e', tmpCopyModel_has] at h
          cases h
          rw [← e', e]
          refine ⟨q, put_same .., fun _ => rfl, fun h => absurd h (by omega), fun m hu => ?_⟩
          have a1 : m ≠ env.saved ++ ".pre".toList := by
            rw [saved1 hm, List.append_assoc]; exact hu.2.2.2
          rw [put_other _ _ hu.2.1, put_other _ _ a1, hk m hu]
        · rw [e, tmpCopyModel_has] at h
          cases h
          refine ⟨q, put_same .., fun h => absurd h (by omega), fun _ => ⟨t, rfl⟩, fun m hu => ?_⟩
          have a1 : m ≠ tmpStem ++ t ++ mpsGz := by
            rintro rfl; exact hu.1 (by rw [List.append_assoc]; exact List.prefix_append ..)
          have a2 : m ≠ tmpStem ++ t ++ mpsGz ++ ".pre".toList := by
            rintro rfl
            exact hu.1 (by rw [List.append_assoc, List.append_assoc]; exact List.prefix_append ..)
          rw [put_other _ _ a1, put_other _ _ a2, hk m hu]
  · cases h

/-- Presolving by Gurobi, CPLEX or both leaves the result in the file whose name is passed on. -/
theorem presolveAll_ok {env : PFEnv P} (he : env.gurobi = true ∨ env.cplex = true)
    (hc : ∀ t ∈ env.candsC, Six t ∧ t ≠ "mps.gz".toList) {d d' : Disk P} {n : List Char}
    (h : presolveAll env d = .ok d' n) : ∃ q, Presolved env d d' n q := by
  unfold presolveAll at h
  by_cases hg : env.gurobi = true
  · rw [if_pos hg] at h
    cases hr : grbPresolve env d env.presolvedStub with
    | exit d1 => rw [hr] at h; cases h
    | abort d1 => rw [hr] at h; cases h
    | ok d1 n1 =>
      rw [hr] at h
      obtain ⟨q, hq⟩ := grbPresolve_ok hr
      simp only [Fin.bind] at h
      split at h
      · refine cpxPresolve_ok hc hq.keeps (.inr ?_) h
        rcases le_or_gt env.mode 1 with hm | hm
        · exact .inl ⟨hm, hq.name1 hm⟩
        · exact .inr ⟨hm, hq.name2 hm⟩
      · cases h; exact ⟨q, hq⟩
  · rw [if_neg hg] at h
    simp only [Fin.bind] at h
    rw [if_pos (he.resolve_left hg)] at h
    exact cpxPresolve_ok hc (fun _ _ => rfl) (.inl rfl) h

/-! ## The run -/

theorem cleanedStub1 {env : PFEnv P} (h : env.mode ≤ 1) : env.cleanedStub = env.stub ++ "_presolved".toList := by
  unfold PFEnv.cleanedStub; rw [if_pos h, presolvedStub1 h]

theorem cleanedStub2 {env : PFEnv P} (h : 1 < env.mode) : env.cleanedStub = env.stub ++ "_cleaned".toList := by
  unfold PFEnv.cleanedStub; rw [if_neg (by omega)]

theorem writeMps_saved {env : PFEnv P} (h : 1 < env.mode) (d : Disk P) (p : P) :
    writeMps env.zlib d env.cleanedStub p = d.put env.saved (.prob p) := by
  have e : ¬ env.mode ≤ 1 := by omega
  unfold writeMps PFEnv.saved
  rw [cleanedStub2 h]
  simp only [if_neg e]
  congr 1
  rw [List.append_assoc env.stub]
  rfl

theorem testCleaned_ok {env : PFEnv P} {d d' : Disk P} {J : P} {r : P × Option P}
    (h : testCleaned env d J = .ok d' r) :
    d' = d ∧ r.1 = J ∧ (env.changed J = true → ∃ K, r.2 = some K ∧ testedProblem env d J = some K) ∧
      (env.changed J = false → r.2 = none) := by
  unfold testCleaned at h
  split at h
  · rename_i hc
    split at h
    · cases h
    · rename_i K hK
      cases h
      exact ⟨rfl, rfl, fun _ => ⟨K, rfl, hK⟩, fun h => by rw [hc] at h; cases h⟩
  · rename_i hc
    cases h
    exact ⟨rfl, rfl, fun h => absurd h hc, fun _ => rfl⟩

/-- **C143, saved.** If the preprocessing mode is run with Gurobi or CPLEX and returns, the file named after the instance
holds the cleaned instance, and files of the user are as before. -/
theorem prep_saved {env : PFEnv P} (he : env.gurobi = true ∨ env.cplex = true)
    (hc : ∀ t ∈ env.candsC, Six t ∧ t ≠ "mps.gz".toList) {d d' : Disk P} {r : P × Option P}
    (h : prepFiles env d = .ok d' r) :
    d'.files env.saved = some (.prob r.1) ∧ ∀ m, env.Untouched m → d'.files m = d.files m := by
  unfold prepFiles at h
  cases hp : presolveAll env d with
  | exit d1 => rw [hp] at h; cases h
  | abort d1 => rw [hp] at h; cases h
  | ok d1 n =>
    rw [hp] at h
    obtain ⟨q, hq⟩ := presolveAll_ok he hc hp
    simp only [Fin.bind] at h
    split at h
    · rename_i hm
      split at h
      · cases h
      · rename_i J hJ
        obtain ⟨rfl, h1, -⟩ := testCleaned_ok h
        rw [writeMps_saved hm, h1]
        refine ⟨put_same .., fun m hu => ?_⟩
        obtain ⟨t, rfl⟩ := hq.name2 hm
        rw [put_other _ _ hu.2.1]
        show (if _ then none else _) = _
        rw [if_neg, hq.keeps m hu]
        rintro rfl
        exact hu.1 (by rw [List.append_assoc]; exact List.prefix_append ..)
    · rename_i hm
      have hm : env.mode ≤ 1 := by omega
      obtain ⟨rfl, h1, -⟩ := testCleaned_ok h
      have hn := hq.name1 hm
      have hh := hq.holds
      rw [h1]
      refine ⟨?_, fun m hu => hq.keeps m hu⟩
      rw [← hn, hh, readBackFile, hh]

/-- What the presolvers make of the instance `p` in the file of the user: CPLEX if asked for, otherwise Gurobi. -/
def PFEnv.presolved (env : PFEnv P) (p : P) : Option P := if env.cplex then env.cpx p else env.grb p

/-- The presolved instance is the one made of the file of the user. -/
theorem presolveAll_holds {env : PFEnv P} (he : env.gurobi = true ∨ env.cplex = true)
    (hf : ¬ tmpStem <+: env.filename) (hs : env.filename ≠ env.saved)
    (hc : ∀ t ∈ env.candsC, Six t ∧ t ≠ "mps.gz".toList) {d d' : Disk P} {n : List Char} {p : P}
    (hp : d.files env.filename = some (.prob p)) (h : presolveAll env d = .ok d' n) :
    ∃ q, env.presolved p = some q ∧ d'.files n = some (.prob q) := by
  -- CPLEX on a disk that still has the file
  have cpx : ∀ {d1 : Disk P} {name : List Char}, d1.files env.filename = some (.prob p) → env.cplex = true →
      cpxPresolve env d1 name = .ok d' n → (name = [] ∨ ∃ a, name = a ++ mpsGz ∨ name = env.stub ++ "_presolved".toList) →
      ∃ q, env.presolved p = some q ∧ d'.files n = some (.prob q) := by
    intro d1 name h1 hx hh hn
    unfold cpxPresolve at hh
    rw [h1] at hh
    dsimp only at hh
    unfold PFEnv.presolved
    rw [if_pos hx]
    by_cases hnil : name = []
    · subst hnil
      unfold cpxName createTmpFilename at hh
      rw [if_pos rfl] at hh
      cases hk' : mkstemp env.limit d1 env.candsC with
      | none => rw [hk'] at hh; cases hh
      | some r =>
        obtain ⟨b, d2⟩ := r
        rw [hk'] at hh
        obtain ⟨⟨t, ht, rfl⟩, -⟩ := mkstemp_spec hk'
        simp only [Option.map, List.append_nil, Fin.bind] at hh
        split at hh
        · cases hh
        · rename_i q hq
          rw [tmpCopyModel_stem _ _ _ _ _ (hc t ht).1 (hc t ht).2] at hh
          cases hh
          exact ⟨q, hq, put_same ..⟩
    · unfold cpxName at hh
      rw [if_neg hnil] at hh
      simp only [Fin.bind] at hh
      split at hh
      · cases hh
      · rename_i q hq
        rcases hn with hn | ⟨a, rfl | rfl⟩
        · exact absurd hn hnil
        · rw [tmpCopyModel_has] at hh
          cases hh
          exact ⟨q, hq, put_same ..⟩
        · rw [presolved_name] at hh
          cases hh
          exact ⟨q, hq, put_same ..⟩
  unfold presolveAll at h
  by_cases hg : env.gurobi = true
  · rw [if_pos hg] at h
    cases hr : grbPresolve env d env.presolvedStub with
    | exit d1 => rw [hr] at h; cases h
    | abort d1 => rw [hr] at h; cases h
    | ok d1 n1 =>
      rw [hr] at h
      simp only [Fin.bind] at h
      obtain ⟨q1, hq1⟩ := grbPresolve_ok hr
      unfold grbPresolve at hr
      rw [hp] at hr
      dsimp only at hr
      split at hr
      · cases hr
      · rename_i q' hq'
        have both : d1.files n1 = some (.prob q') ∧ d1.files env.filename = some (.prob p) := by
          rcases le_or_gt env.mode 1 with hm | hm
          · rw [presolvedStub1 hm, presolved_name] at hr
            cases hr
            refine ⟨put_same .., ?_⟩
            rw [put_other _ _ (saved1 hm ▸ hs), hp]
          · rw [presolvedStub2 hm] at hr
            obtain ⟨t, -, rfl, -, h2, h3⟩ := tmpCopyModel_tmp hr
            refine ⟨h2, ?_⟩
            rw [h3, hp] <;> intro e <;> apply hf <;> rw [e]
            · rw [List.append_assoc]; exact List.prefix_append ..
            · exact List.prefix_append ..
        split at h
        · rename_i hx
          refine cpx both.2 hx h (.inr ?_)
          rcases le_or_gt env.mode 1 with hm | hm
          · exact ⟨env.stub ++ "_presolved".toList, .inl (by rw [hq1.name1 hm, saved1 hm, List.append_assoc]; rfl)⟩
          · obtain ⟨t, e⟩ := hq1.name2 hm
            exact ⟨_, .inl e⟩
        · rename_i hx
          cases h
          refine ⟨q', ?_, both.1⟩
          unfold PFEnv.presolved
          rw [if_neg hx, hq']
  · rw [if_neg hg] at h
    simp only [Fin.bind] at h
    rw [if_pos (he.resolve_left hg)] at h
    refine cpx hp (he.resolve_left hg) h ?_
    rcases le_or_gt env.mode 1 with hm | hm
    · exact .inr ⟨[], .inr (presolvedStub1 hm)⟩
    · exact .inl (presolvedStub2 hm)

/-- **C143, result.** The instance saved is what presolving (mode 1), or presolving and cleaning (mode 2) makes of the
instance in the file of the user. -/
theorem prep_result {env : PFEnv P} (he : env.gurobi = true ∨ env.cplex = true)
    (hf : ¬ tmpStem <+: env.filename) (hs : env.filename ≠ env.saved)
    (hc : ∀ t ∈ env.candsC, Six t ∧ t ≠ "mps.gz".toList) {d d' : Disk P} {r : P × Option P} {p : P}
    (hp : d.files env.filename = some (.prob p)) (h : prepFiles env d = .ok d' r) :
    ∃ q, env.presolved p = some q ∧ (env.mode ≤ 1 → r.1 = q) ∧ (1 < env.mode → env.clean q = some r.1) := by
  unfold prepFiles at h
  cases hq : presolveAll env d with
  | exit d1 => rw [hq] at h; cases h
  | abort d1 => rw [hq] at h; cases h
  | ok d1 n =>
    rw [hq] at h
    obtain ⟨q, h1, h2⟩ := presolveAll_holds he hf hs hc hp hq
    have hb : readBackFile env d1 n = q := by rw [readBackFile, h2]
    simp only [Fin.bind, hb] at h
    refine ⟨q, h1, ?_⟩
    split at h
    · rename_i hm
      split at h
      · cases h
      · rename_i J hJ
        obtain ⟨-, h1, -⟩ := testCleaned_ok h
        exact ⟨fun h => absurd h (by omega), fun _ => by rw [hJ, h1]⟩
    · rename_i hm
      obtain ⟨-, h1, -⟩ := testCleaned_ok h
      exact ⟨fun _ => h1, fun h => absurd h hm⟩

/-- The temporary copy of mode 2 is gone. -/
theorem prep_copy_removed {env : PFEnv P} (he : env.gurobi = true ∨ env.cplex = true)
    (hc : ∀ t ∈ env.candsC, Six t ∧ t ≠ "mps.gz".toList) (hm : 1 < env.mode) (hs : ¬ tmpStem <+: env.stub ++ "_cleaned".toList)
    {d d1 d' : Disk P} {n : List Char} {r : P × Option P} (hp : presolveAll env d = .ok d1 n)
    (h : prepFiles env d = .ok d' r) : d'.files n = none := by
  obtain ⟨q, hq⟩ := presolveAll_ok he hc hp
  unfold prepFiles at h
  rw [hp] at h
  simp only [Fin.bind, if_pos hm] at h
  split at h
  · cases h
  · obtain ⟨rfl, -⟩ := testCleaned_ok h
    rw [writeMps_saved hm, put_other]
    · show (if _ then none else _) = _
      rw [if_pos rfl]
    · obtain ⟨t, rfl⟩ := hq.name2 hm
      intro e
      apply hs
      have e1 : env.saved = (env.stub ++ "_cleaned".toList) ++ (".mps".toList ++ if env.zlib then ".gz".toList else []) := by
        unfold PFEnv.saved
        rw [if_neg (by omega), List.append_assoc, List.append_assoc]
        congr 1
      rw [e1] at e
      have h1 : tmpStem <+: (env.stub ++ "_cleaned".toList) ++ (".mps".toList ++ if env.zlib then ".gz".toList else []) := by
        rw [← e, List.append_assoc]; exact List.prefix_append ..
      rcases List.prefix_or_prefix_of_prefix h1 (List.prefix_append (env.stub ++ "_cleaned".toList) _) with h | h
      · exact h
      · exfalso
        -- the prefix of temporary names has no underscore
        have hmem : '_' ∈ tmpStem := h.subset (by simp)
        exact absurd hmem (by decide)

/-- **C143, tested (partial).** With Gurobi or CPLEX, the instance tested is the cleaned one if the reader finds the
file: the library does not compress (mode 2), or the reader looks for compressed files and there is no old file of the
name without `.gz`. Missing: the other cases, see `prep_tests_fail` and `prep_tests_old`. -/
theorem prep_tested_partial {env : PFEnv P} (he : env.gurobi = true ∨ env.cplex = true)
    (hc : ∀ t ∈ env.candsC, Six t ∧ t ≠ "mps.gz".toList) {d d' : Disk P} {r : P × Option P}
    (hr : (1 < env.mode ∧ env.zlib = false) ∨ (env.alsoGz = true ∧ d'.files (env.cleanedStub ++ ".mps".toList) = none))
    (h : prepFiles env d = .ok d' r) :
    r.2 = none ∨ r.2 = some r.1 := by
  have hs := (prep_saved he hc h).1
  have key : ∀ J K, testedProblem env d' J = some K → K = r.1 := by
    intro J K hK
    unfold testedProblem at hK
    rw [if_neg (by rcases he with h | h <;> simp [h])] at hK
    rcases hr with ⟨hm, hz⟩ | ⟨hg, hn⟩
    · have e : env.cleanedStub ++ ".mps".toList = env.saved := by
        unfold PFEnv.saved
        rw [cleanedStub2 hm, if_neg (by omega), hz, List.append_assoc]
        simp
      rw [e, hs] at hK
      cases hK; rfl
    · rw [hn] at hK
      dsimp only at hK
      rw [if_pos hg] at hK
      have e : env.cleanedStub ++ mpsGz = env.saved ∨ (1 < env.mode ∧ env.zlib = false) := by
        unfold PFEnv.saved
        rcases le_or_gt env.mode 1 with hm | hm
        · left; rw [cleanedStub1 hm, if_pos hm, List.append_assoc]; rfl
        · cases hz' : env.zlib
          · exact .inr ⟨hm, rfl⟩
          · left
            rw [cleanedStub2 hm, if_neg (by omega), List.append_assoc, List.append_assoc, if_pos rfl]
            rfl
      rcases e with e | ⟨hm, hz'⟩
      · rw [e, hs] at hK
        cases hK; rfl
      · exfalso
        have e : env.cleanedStub ++ ".mps".toList = env.saved := by
          unfold PFEnv.saved
          rw [cleanedStub2 hm, if_neg (by omega), hz', List.append_assoc]
          simp
        rw [e, hs] at hn; cases hn
  unfold prepFiles at h
  cases hp : presolveAll env d with
  | exit d1 => rw [hp] at h; cases h
  | abort d1 => rw [hp] at h; cases h
  | ok d1 n =>
    rw [hp] at h
    simp only [Fin.bind] at h
    have fin : ∀ {dd : Disk P} {J : P}, testCleaned env dd J = .ok d' r → r.2 = none ∨ r.2 = some r.1 := by
      intro dd J hh
      obtain ⟨rfl, h1, h2, h3⟩ := testCleaned_ok hh
      cases hch : env.changed J
      · exact .inl (h3 hch)
      · obtain ⟨K, e1, e2⟩ := h2 hch
        exact .inr (by rw [e1, key J K e2])
    split at h
    · split at h
      · cases h
      · exact fin h
    · exact fin h

/-! ## The other cases -/

/-- **C143, the tests fail.** If the library compresses (mode 2) or the mode is 1, the reader does not look for
compressed files, and there is no old file of the name without `.gz`, then the run ends the process although the instance
has been cleaned and saved. -/
theorem prep_tests_fail {env : PFEnv P} (he : env.gurobi = true ∨ env.cplex = true)
    (hg : env.alsoGz = false) {d : Disk P} (J : P) (hJ : env.changed J = true)
    (hn : d.files (env.cleanedStub ++ ".mps".toList) = none) : testCleaned env d J = .exit d := by
  unfold testCleaned testedProblem
  rw [if_pos hJ, if_neg (by rcases he with h | h <;> simp [h]), hn]
  dsimp only
  rw [hg]
  rfl

/-- **C143, an old file is tested.** If there is a file `X_cleaned.mps` (mode 2, the library compresses) or
`X_presolved.mps` (mode 1) from an earlier run, the instance in it is tested in place of the cleaned one. -/
theorem prep_tests_old {env : PFEnv P} (he : env.gurobi = true ∨ env.cplex = true) {d : Disk P} {J K : P}
    (hJ : env.changed J = true) (hK : d.files (env.cleanedStub ++ ".mps".toList) = some (.prob K)) :
    testCleaned env d J = .ok d (J, some K) := by
  unfold testCleaned testedProblem
  rw [if_pos hJ, if_neg (by rcases he with h | h <;> simp [h]), hK]

/-- Without Gurobi and CPLEX the instance in memory is tested, whatever is on the disk. -/
theorem prep_tests_memory {env : PFEnv P} (hg : env.gurobi = false) (hc : env.cplex = false) {d d' : Disk P}
    {r : P × Option P} (h : prepFiles env d = .ok d' r) : r.2 = none ∨ r.2 = some r.1 := by
  have fin : ∀ {dd : Disk P} {J : P}, testCleaned env dd J = .ok d' r → r.2 = none ∨ r.2 = some r.1 := by
    intro dd J hh
    obtain ⟨rfl, h1, h2, h3⟩ := testCleaned_ok hh
    cases hch : env.changed J
    · exact .inl (h3 hch)
    · obtain ⟨K, e1, e2⟩ := h2 hch
      unfold testedProblem at e2
      rw [hg, hc] at e2
      have e2 : some J = some K := e2
      cases e2
      exact .inr (by rw [e1, h1])
  unfold prepFiles presolveAll at h
  rw [hg, hc] at h
  simp only [Fin.bind, Bool.false_eq_true, if_false] at h
  split at h
  · split at h
    · cases h
    · exact fin h
  · exact fin h

/-! ## Concrete runs: problems are numbers, presolving doubles, cleaning adds one -/

/-- Gurobi and CPLEX, mode 2. -/
def prepDemo (mode : ℤ) (g c zlib alsoGz : Bool) : PFEnv ℕ :=
  { stub := "x".toList, filename := "x.mps".toList, mode := mode, gurobi := g, cplex := c, limit := 10
    candsG := ["uvwxyz".toList], candsC := ["abcdef".toList], zlib := zlib, alsoGz := alsoGz
    grb := fun p => some (2 * p), cpx := fun p => some (10 * p), clean := fun p => some (p + 1)
    changed := fun _ => true, empty := 0 }

/-- The disk: the instance, and files of earlier runs. -/
def prepDisk (old : List (List Char × ℕ)) : Disk ℕ :=
  { files := fun m =>
      if m = "x.mps".toList then some (.prob 3)
      else (old.find? fun e => decide (e.1 = m)).map fun e => .prob e.2
    fds := 3 }

theorem prepDemo_six (mode : ℤ) (g c zlib alsoGz : Bool) :
    ∀ t ∈ (prepDemo mode g c zlib alsoGz).candsC, Six t ∧ t ≠ "mps.gz".toList := by
  intro t ht
  rw [List.mem_singleton.1 ht]
  exact ⟨by unfold Six; decide, by decide⟩

-- mode 2 with Gurobi: the cleaned instance 7 is saved, read again and tested; the copy is gone
example : ∃ d, prepFiles (prepDemo 2 true false true true) (prepDisk []) = .ok d (7, some 7) ∧
    d.files "x_cleaned.mps.gz".toList = some (.prob 7) ∧ d.files "/tmp/tmpvpcuvwxyz.mps.gz".toList = none ∧
    d.files "x.mps".toList = some (.prob 3) :=
  ⟨_, rfl, by decide +kernel, by decide +kernel, by decide +kernel⟩

example : ∃ d, prepFiles (prepDemo 1 true false true true) (prepDisk []) = .ok d (6, some 6) ∧
    d.files "x_presolved.mps.gz".toList = some (.prob 6) := ⟨_, rfl, by decide +kernel⟩

example : (prepDemo 2 true false true true).saved = "x_cleaned.mps.gz".toList ∧
    (prepDemo 2 true false false true).saved = "x_cleaned.mps".toList ∧
    (prepDemo 1 true false false true).saved = "x_presolved.mps.gz".toList := by decide +kernel

example : (prepDemo 2 true false true true).Untouched "x.mps".toList := by
  unfold PFEnv.Untouched; decide +kernel

-- the hypotheses of `prep_result`
example : ¬ tmpStem <+: (prepDemo 2 true false true true).filename ∧
    (prepDemo 2 true false true true).filename ≠ (prepDemo 2 true false true true).saved ∧
    (prepDisk []).files (prepDemo 2 true false true true).filename = some (.prob 3) ∧
    (prepDemo 2 true false true true).presolved 3 = some 6 ∧ (prepDemo 2 true false true true).clean 6 = some 7 := by
  decide +kernel

-- the hypotheses of `prep_copy_removed`
example : ∃ d, presolveAll (prepDemo 2 true false true true) (prepDisk []) =
    .ok d "/tmp/tmpvpcuvwxyz.mps.gz".toList ∧ ¬ tmpStem <+: "x".toList ++ "_cleaned".toList :=
  ⟨_, rfl, by decide +kernel⟩

/-- Without engines the tests use the instance in memory, but nothing was read in mode 1 (no file was written),
and in mode 2 either: the cleaned instance is the one of an empty solver. -/
example : (∃ d, prepFiles (prepDemo 2 false false true true) (prepDisk []) = .ok d (1, some 1)) ∧
    ∃ d, prepFiles (prepDemo 1 false false true true) (prepDisk []) = .ok d (0, some 0) := ⟨⟨_, rfl⟩, _, rfl⟩

/-- **C143 (violated).** The run ends the process after the instance was cleaned, if the reader does not look for the
compressed file. -/
theorem prep_tests_fail_now : ∃ d, prepFiles (prepDemo 2 true false true false) (prepDisk []) = .exit d ∧
    d.files "x_cleaned.mps.gz".toList = some (.prob 7) := ⟨_, rfl, by decide +kernel⟩

/-- **C143 (violated).** The instance tested is the one of an old file. -/
theorem prep_tests_old_now : ∃ d, prepFiles (prepDemo 2 true false true true) (prepDisk [("x_cleaned.mps".toList, 99)]) =
    .ok d (7, some 99) := ⟨_, rfl⟩

/-- **C143 (violated).** With CPLEX alone in mode 2 two temporary files stay: the empty one and the one of CPLEX. -/
theorem prep_cplex_leaves : ∃ d, prepFiles (prepDemo 2 false true true true) (prepDisk []) = .ok d (31, some 31) ∧
    d.files "/tmp/tmpvpcabcdef".toList = some .empty ∧ d.files "/tmp/tmpvpcabcdef.pre".toList = some .other ∧
    d.files "/tmp/tmpvpcabcdef.mps.gz".toList = none :=
  ⟨_, rfl, by decide +kernel, by decide +kernel, by decide +kernel⟩

/-- With both engines the result of Gurobi is overwritten: CPLEX presolves the instance of the user again. -/
theorem prep_both {env : PFEnv P} (hg : env.gurobi = true) (hc : env.cplex = true) (hf : ¬ tmpStem <+: env.filename)
    (hs : env.filename ≠ env.saved) (hca : ∀ t ∈ env.candsC, Six t ∧ t ≠ "mps.gz".toList) {d d' : Disk P} {n : List Char}
    {p : P} (hp : d.files env.filename = some (.prob p)) (h : presolveAll env d = .ok d' n) :
    ∃ q, env.cpx p = some q ∧ d'.files n = some (.prob q) := by
  obtain ⟨q, h1, h2⟩ := presolveAll_holds (.inl hg) hf hs hca hp h
  exact ⟨q, by rwa [PFEnv.presolved, if_pos hc] at h1, h2⟩

example : ∃ d, prepFiles (prepDemo 2 true true true true) (prepDisk []) = .ok d (31, some 31) ∧
    (prepDemo 2 true true true true).grb 3 = some 6 := ⟨_, rfl, rfl⟩

end VPC
