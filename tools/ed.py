p='Verif/Props/BBRepair.lean'
s=open(p).read()
i=s.index("  have hst : repairedStat s")
s=s[:i]+'''  have hst : ∀ u : BB, u.oLo = s.oLo → u.oHi = s.oHi →
      repairedStat u (missedStat s p m) (m.node.node s.count2 (some p.first)) m.node.lo m.node.hi =
      nodeStat (m.node.node s.count2 (some p.first)) s.count2 s.count2 p.number
        (changedBounds m.node.lo m.node.hi s.oLo s.oHi) := by
    intro u h1 h2
    unfold repairedStat missedStat prunedStat nodeStat
    rw [hpre, h1, h2]
    rfl
  have hid : (missedStat s p m).id = s.count2 := rfl
  have ho : (m.node.node s.count2 (some p.first)).osi = false := hosi
  by_cases hb : p.branchIndex = 0
  · rw [if_pos hb, if_pos (by simp [CNode.branchesLeft, hb]), pushStat_ok hinv.ids (by simp [nodeStat, hinv.len])]
    refine ⟨_, rfl, ?_⟩
    have hf := hfound [{ p with branchIndex := p.branchIndex + 1, number := s.count2 + 1 }]
    unfold repair
    rw [if_neg (by simp)]
    simp only [List.getLast?_append, List.getLast?_singleton, Option.some_or]
    rw [if_neg (by simp [nodeStat])]
    simp only [hid, hf, ho, Bool.false_eq_true, if_false, Bool.not_true]
    rw [hst _ rfl rfl]
    simp [nodeStat, midCreated, hb]
    rfl
  · rw [if_neg hb, if_neg (by simp only [CNode.branchesLeft]; push_cast; omega)]
    refine ⟨_, rfl, ?_⟩
    have hf := hfound []
    simp only [List.append_nil] at hf
    unfold repair
    rw [if_neg (by simp)]
    simp only [hlast, hl]
    rw [if_neg (by omega)]
    simp only [List.getLast?_append, List.getLast?_singleton, Option.some_or, hid, hf, ho, Bool.false_eq_true, if_false,
      Bool.not_true]
    rw [hst _ rfl rfl, if_neg (by simp only [nodeStat]; omega)]
    simp [midCreated]
end VPC
'''
open(p,'w').write(s)
