p='Verif/Props/PrepFiles.lean'
s=open(p).read()
i=s.index('  { (default : Disk ℕ) with files')
s=s[:i]+'''  { files := fun m =>
      if m = "x.mps".toList then some (.prob 3)
      else (old.find? fun e => decide (e.1 = m)).map fun e => .prob e.2
    fds := 3 }

theorem prepDemo_six (mode : ℤ) (g c zlib alsoGz : Bool) :
    ∀ t ∈ (prepDemo mode g c zlib alsoGz).candsC, Six t ∧ t ≠ "mps.gz".toList := by
  intro t ht
  rw [List.mem_singleton.1 ht]
  exact ⟨by unfold Six; decide, by decide⟩

-- mode 2 with Gurobi: the cleaned instance 7 is saved, read again and tested; the copy is gone
example : ∃ d, prepFiles (prepDemo 2 true false true true) (prepDisk []) = .ok d (7, some 7) ∧
    d.files "x_cleaned.mps.gz".toList = some (.prob 7) ∧ d.files "/tmp/tmpvpcuvwxyz.mps.gz".toList = none ∧
    d.files "x.mps".toList = some (.prob 3) :=
  ⟨_, rfl, by decide +kernel, by decide +kernel, by decide +kernel⟩

example : ∃ d, prepFiles (prepDemo 1 true false true true) (prepDisk []) = .ok d (6, some 6) ∧
    d.files "x_presolved.mps.gz".toList = some (.prob 6) := ⟨_, rfl, by decide +kernel⟩

example : (prepDemo 2 true false true true).saved = "x_cleaned.mps.gz".toList ∧
    (prepDemo 2 true false false true).saved = "x_cleaned.mps".toList ∧
    (prepDemo 1 true false false true).saved = "x_presolved.mps.gz".toList := by decide +kernel

example : (prepDemo 2 true false true true).Untouched "x.mps".toList := by
  unfold PFEnv.Untouched; decide +kernel

-- the hypotheses of `prep_copy_removed`
example : ∃ d, presolveAll (prepDemo 2 true false true true) (prepDisk []) =
    .ok d "/tmp/tmpvpcuvwxyz.mps.gz".toList ∧ ¬ tmpStem <+: "x".toList ++ "_cleaned".toList :=
  ⟨_, rfl, by decide +kernel⟩

/-- Without engines the tests use the instance in memory, but nothing was read in mode 1 (no file was written),
and in mode 2 either: the cleaned instance is the one of an empty solver. -/
example : (∃ d, prepFiles (prepDemo 2 false false true true) (prepDisk []) = .ok d (1, some 1)) ∧
    ∃ d, prepFiles (prepDemo 1 false false true true) (prepDisk []) = .ok d (0, some 0) := ⟨⟨_, rfl⟩, _, rfl⟩

/-- **C143 (violated).** The run ends the process after the instance was cleaned, if the reader does not look for the
compressed file. -/
theorem prep_tests_fail_now : ∃ d, prepFiles (prepDemo 2 true false true false) (prepDisk []) = .exit d ∧
    d.files "x_cleaned.mps.gz".toList = some (.prob 7) := ⟨_, rfl, by decide +kernel⟩

/-- **C143 (violated).** The instance tested is the one of an old file. -/
theorem prep_tests_old_now : ∃ d, prepFiles (prepDemo 2 true false true true) (prepDisk [("x_cleaned.mps".toList, 99)]) =
    .ok d (7, some 99) := ⟨_, rfl⟩

/-- **C143 (violated).** With CPLEX alone in mode 2 two temporary files stay: the empty one and the one of CPLEX. -/
theorem prep_cplex_leaves : ∃ d, prepFiles (prepDemo 2 false true true true) (prepDisk []) = .ok d (31, some 31) ∧
    d.files "/tmp/tmpvpcabcdef".toList = some .empty ∧ d.files "/tmp/tmpvpcabcdef.pre".toList = some .other ∧
    d.files "/tmp/tmpvpcabcdef.mps.gz".toList = none :=
  ⟨_, rfl, by decide +kernel, by decide +kernel, by decide +kernel⟩

/-- With both engines the result of Gurobi is overwritten: CPLEX presolves the instance of the user again. -/
theorem prep_both {env : PFEnv P} (hg : env.gurobi = true) (hc : env.cplex = true) {d d' : Disk P} {n : List Char}
    (hf : ¬ tmpStem <+: env.filename) (hs : env.mode ≤ 1 → env.filename ≠ env.saved)
    {p q : P} (hp : d.files env.filename = some (.prob p)) (hq : env.cpx p = some q)
    (h : presolveAll env d = .ok d' n) : d'.files n = some (.prob q) := by
  unfold presolveAll at h
  rw [if_pos hg] at h
  cases hr : grbPresolve env d env.presolvedStub with
  | exit d1 => rw [hr] at h; cases h
  | abort d1 => rw [hr] at h; cases h
  | ok d1 n1 =>
    rw [hr] at h
    obtain ⟨q1, hq1⟩ := grbPresolve_ok hr
    simp only [Fin.bind, if_pos hc] at h
    have hk : d1.files env.filename = some (.prob p) := by
      unfold grbPresolve at hr
      rw [hp] at hr
      dsimp only at hr
      split at hr
      · cases hr
      · rename_i q' hq'
        rcases le_or_gt env.mode 1 with hm | hm
        · rw [presolvedStub1 hm, presolved_name] at hr
          cases hr
          rw [put_other _ _ (saved1 hm ▸ hs hm), hp]
        · rw [presolvedStub2 hm] at hr
          obtain ⟨t, -, rfl, -, -, h3⟩ := tmpCopyModel_tmp hr
          rw [h3, hp] <;> intro e <;> apply hf <;> rw [e]
          · rw [List.append_assoc]; exact List.prefix_append ..
          · exact List.prefix_append ..
    have hn : ∃ a, n1 = a ++ mpsGz := by
      rcases le_or_gt env.mode 1 with hm | hm
      · exact ⟨env.stub ++ "_presolved".toList, by rw [hq1.name1 hm, saved1 hm, List.append_assoc]; rfl⟩
      · obtain ⟨t, e⟩ := hq1.name2 hm
        exact ⟨_, e⟩
    obtain ⟨a, rfl⟩ := hn
    have hne : a ++ mpsGz ≠ [] := by
      intro h; rw [List.append_eq_nil_iff] at h; exact absurd h.2 (by decide)
    unfold cpxPresolve cpxName at h
    rw [hk, if_neg hne] at h
    simp only [Fin.bind, hq, tmpCopyModel_has] at h
    cases h
    exact put_same ..

example : ∃ d, prepFiles (prepDemo 2 true true true true) (prepDisk []) = .ok d (31, some 31) ∧
    (prepDemo 2 true true true true).grb 3 = some 6 := ⟨_, rfl, rfl⟩

end VPC
'''
open(p,'w').write(s)
