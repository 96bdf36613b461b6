p='Verif/Props/ProbData.lean'
s=open(p).read()
def r(a,b,n=1):
    global s
    assert s.count(a)>=1,(a,s.count(a))
    s=s.replace(a,b)
r("getElem?_set_ne' (fun he => hbnb (he ▸ List.mem_of_getElem? hv))]","getElem?_set_ne' (fun (he : b = v) => hbnb (he ▸ List.mem_of_getElem? hv))]")
r("getElem?_set_ne' (fun he => hknb (he ▸ List.mem_of_getElem? hv))]","getElem?_set_ne' (fun (he : k = v) => hknb (he ▸ List.mem_of_getElem? hv))]")
r("getElem?_set_ne' (fun he => hkb (he ▸ List.mem_of_getElem? hr))]","getElem?_set_ne' (fun (he : k = v) => hkb (he ▸ List.mem_of_getElem? hr))]")
r("      simp [visitNonbasic, hgetD, f1]\n","      unfold visitNonbasic; dsimp only; rw [hgetD, f1]\n")
r("    · right\n      rw [if_pos hex]\n      exact ⟨rfl, hex.1, rfl, hex.2⟩","    · right\n      rw [if_pos hex]\n      exact ⟨rfl, hex.1, trivial, hex.2⟩")
r("(∃ j, t.nb[j]? = some v ∧ getVarNB","(∃ j : ℕ, t.nb[j]? = some v ∧ getVarNB")
r("(∀ r, B.basics[r]? = some v → t.rowOfOrig[j]? = some (r : ℤ))","(∀ r : ℕ, B.basics[r]? = some v → t.rowOfOrig[j]? = some (r : ℤ))")
r("nbReducedCost D v < -DIFFEPS","nbReducedCost D v ≤ -DIFFEPS")
r("nbReducedCost D v < -defEps","nbReducedCost D v ≤ -defEps")
r("decide (x < -e)","decide (x ≤ -e)")
r("""some value is below `-DIFFEPS` (for `DIFFEPS` at least the default tolerance), and a warning is counted for each
value below minus""","""some value is at most `-DIFFEPS` (for `DIFFEPS` at least the default tolerance), and a warning is counted for each
value at most minus""")
r("simp only [decide_eq_true_eq, not_lt] at hl","simp only [decide_eq_true_eq, not_le] at hl")
open(p,'w').write(s)
