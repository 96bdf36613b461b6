p='Props/CollectTight.lean'; s=open(p).read()
s=s.replace("exact ⟨trivial, this.1 (by simpa using hc)⟩","exact ⟨rfl, this.1 (by simpa using hc)⟩")
s=s.replace("ih hrs r hr","ih rs hrs r hr").replace("ih hrs' r hr","ih rs' hrs' r hr")
s=s.replace('''    intro s h
    unfold finishTerm at h
    split at h
    · simp only [Res''','''    intro s h
    simp only [finishTerm] at h
    split at h
    · simp only [Res''')
s=s.replace('''    rw [Nat.zero_add] at hd
    refine ⟨rs[i].2.1, rs[i].1, rs[i].2.2, ?_, hd, ?_⟩
    · rw [hterms]; simp [hi2]
    · rcases''','''    rw [Nat.zero_add] at hd
    obtain ⟨q, hq⟩ : ∃ q, q = rs[i] := ⟨_, rfl⟩
    rw [← hq] at hd
    obtain ⟨v, t', oc⟩ := q
    refine ⟨t', v, oc, ?_, hd, ?_⟩
    · rw [hterms]; simp [hi2, ← hq]
    · rcases''').replace("have hne : rs[i].1 ≠ none","have hne : v ≠ none")
s=s.replace("rw [h2, h1] at h; cases h","rw [h2] at h; rw [h1] at h; cases h")
open(p,'w').write(s)
