p='/verif/lean/Verif/Props/AutoTight.lean'
s=open(p).read().rstrip()[:-len('end VPC')]
s+='''/-- **C49 (by name).** Setting by name reports success exactly if some parameter of any of the three kinds has a
name that is its own canonical form. -/
theorem setByName_flag (env : CliEnv) (p q : Params) (nm v : String) (b : Bool)
    (h : p.setByName env nm v = some (q, b)) :
    b = true ↔ (∃ i ∈ IntId.all, upperNoUnderscore (p.ints i).name = (p.ints i).name) ∨
      (∃ i ∈ DblId.all, upperNoUnderscore (p.dbls i).name = (p.dbls i).name) ∨
      (∃ i ∈ StrId.all, upperNoUnderscore (p.strs i).1 = (p.strs i).1) := by
  have key : ∀ {α : Type} {l : List α} {f : α → Bool} {i : α}, l.find? f = some i → i ∈ l ∧ f i = true :=
    fun h => ⟨List.mem_of_find?_eq_some h, List.find?_some h⟩
  have none' : ∀ {α : Type} {l : List α} {f : α → Bool}, l.find? f = none → ¬ ∃ i ∈ l, f i = true := by
    rintro α l f h ⟨i, hi, hf⟩
    exact (List.find?_eq_none.1 h) i hi hf
  unfold Params.setByName at h
  split at h
  · rename_i i hi
    obtain ⟨x, -, hx⟩ := Option.map_eq_some_iff.1 h
    have hb : b = true := by simpa using (congrArg Prod.snd hx).symm
    have := key hi
    simp only [hb, true_iff]
    exact Or.inl ⟨i, this.1, by simpa using this.2⟩
  · rename_i h1
    have n1 := none' h1
    split at h
    · rename_i i hi
      obtain ⟨x, -, hx⟩ := Option.map_eq_some_iff.1 h
      have hb : b = true := by simpa using (congrArg Prod.snd hx).symm
      have := key hi
      simp only [hb, true_iff]
      exact Or.inr (Or.inl ⟨i, this.1, by simpa using this.2⟩)
    · rename_i h2
      have n2 := none' h2
      split at h
      · rename_i i hi
        have hb : b = true := by
          have := congrArg Prod.snd (Option.some.inj h)
          simpa using this.symm
        have := key hi
        simp only [hb, true_iff]
        exact Or.inr (Or.inr ⟨i, this.1, by simpa using this.2⟩)
      · rename_i h3
        have n3 := none' h3
        have hb : b = false := by
          have := congrArg Prod.snd (Option.some.inj h)
          simpa using this.symm
        simp only [hb, Bool.false_eq_true, false_iff]
        simp only [beq_iff_eq] at n1 n2 n3
        rintro (h | h | h)
        · exact n1 h
        · exact n2 h
        · exact n3 h

/-- **C98/C99.** Lists of different length count as unchanged: a presolved instance with other numbers of rows and columns
counts no changes of sides and bounds. -/
theorem presolveDiff_other (I J : Inst) (hr : I.relax.rows.length ≠ J.relax.rows.length)
    (hl : I.relax.lo.length ≠ J.relax.lo.length) (hh : I.relax.hi.length ≠ J.relax.hi.length) :
    presolveDiff I J = 0 := by
  simp [presolveDiff, countDiff, hr, hl, hh]

end VPC
'''
open(p,'w').write(s)
