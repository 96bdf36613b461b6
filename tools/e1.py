p='Model/Collect.lean'; s=open(p).read()
a=s.index("/-- Do the consistency checks of a ray terminate"); b=s.index("/-- `genDepth1PRCollection`")
s=s[:a]+'''/-- Do the consistency checks made while a ray is computed terminate the process?
src/utility/nbspace.cpp:374-403. -/
def rayCheckExits (E : NumEnv) (got viol : ℚ) : Bool :=
  (lessThanVal got 0 E.EPS && lessThanVal got 0 E.DIFFEPS) ||
  (!(isVal got viol E.EPS) && !(isVal got viol E.DIFFEPS))

/-- Do the checks of a nonempty ray before it is stored terminate the process?
src/cut/CglVPC.cpp:1411-1433. -/
def rayStoreExits (E : NumEnv) (got viol : ℚ) : Bool :=
  !(isVal viol got E.DIFFEPS) || (lessThanVal got 0 E.EPS && lessThanVal got 0 E.DIFFEPS)

/-- One ray, src/cut/CglVPC.cpp:1383-1434: an empty ray is skipped. Warnings are not counted here. The
slope recomputed in nbspace.cpp (`nonTinyObj`, before scaling) is taken to be the one recomputed in
CglVPC.cpp:1402-1410 from the packed ray. -/
def collectRay (E : NumEnv) (o : NBData) (s : TermSol) (j : ℕ) : Res (Option (SVec × ℚ)) :=
  let p := packRay E.sortDecr E.expo E.EPS E.RAYEPS (s.rayObj j) o.rc (rayVals o s j)
  if rayCheckExits E (dotRC o.rc p.1 / p.2) (s.rayObj j) then .exit
  else if p.1 = [] then .ok none
  else if rayStoreExits E (dotRC o.rc p.1 / p.2) (s.rayObj j) then .exit
  else .ok (some (p.1, s.rayObj j))

/-- The loop over nonbasic variables, src/cut/CglVPC.cpp:1376-1436: fixed variables are skipped. -/
def collectRays (E : NumEnv) (o : NBData) (s : TermSol) : List ℕ → Res (List (SVec × ℚ))
  | [] => .ok []
  | j :: js =>
    if s.isFixed j then collectRays E o s js
    else (collectRay E o s j).bind fun r => (collectRays E o s js).bind fun rs => .ok (r.toList ++ rs)

'''+s[b:]
open(p,'w').write(s)
p='Props/Collect.lean'; s=open(p).read()
a=s.index("theorem collectRays_ok"); b=s.index("theorem genDepth1_ok")
s=s[:a]+'''/-- The packed ray of a nonbasic variable, with its scale. -/
def rayOf (E : NumEnv) (o : NBData) (s : TermSol) (j : ℕ) : SVec × ℚ :=
  packRay E.sortDecr E.expo E.EPS E.RAYEPS (s.rayObj j) o.rc (rayVals o s j)

/-- The variables whose ray is stored: not fixed, and the packed ray is not empty. -/
def rayKept (E : NumEnv) (o : NBData) (s : TermSol) (j : ℕ) : Bool :=
  !(s.isFixed j) && !((rayOf E o s j).1.isEmpty)

theorem collectRays_ok {E : NumEnv} {o : NBData} {s : TermSol} {js : List ℕ}
    {rs : List (SVec × ℚ)} (h : collectRays E o s js = .ok rs) :
    rs = (js.filter (rayKept E o s)).map fun j => ((rayOf E o s j).1, s.rayObj j) := by
  induction js generalizing rs with
  | nil => simp only [collectRays, Res.ok.injEq] at h; subst h; rfl
  | cons j js ih =>
    simp only [collectRays] at h
    cases hf : s.isFixed j with
    | true =>
      rw [hf, if_pos rfl] at h
      rw [ih h, List.filter_cons_of_neg (by simp [rayKept, hf])]
    | false =>
      rw [hf, if_neg (by simp)] at h
      obtain ⟨r, hr, h⟩ := Res.bind_ok h
      obtain ⟨rs', hrs', h⟩ := Res.bind_ok h
      simp only [Res.ok.injEq] at h
      subst h
      rw [ih hrs']
      unfold collectRay at hr
      dsimp only at hr
      split at hr
      · cases hr
      split at hr
      · rename_i he
        simp only [Res.ok.injEq] at hr; subst hr
        rw [List.filter_cons_of_neg (by
          simp only [rayKept, rayOf]; rw [he]; simp)]
        rfl
      · rename_i he
        split at hr
        · cases hr
        · simp only [Res.ok.injEq] at hr; subst hr
          rw [List.filter_cons_of_pos (by
            simp only [rayKept, rayOf, hf, Bool.not_false, Bool.true_and, Bool.not_eq_true',
              List.isEmpty_eq_false_iff]
            exact he), List.map_cons]
          rfl

'''+s[b:]
s=s.replace('''      ((s.nb.filter fun j => !(s.isFixed j)).map fun j =>
        ((packRay E.sortDecr E.expo E.EPS E.RAYEPS (s.rayObj j) o.rc (rayVals o s j)).1,
          s.rayObj j)) := by
  unfold genDepth1 at h''','''      ((s.nb.filter (rayKept E o s)).map fun j => ((rayOf E o s j).1, s.rayObj j)) := by
  unfold genDepth1 at h''')
s=s.replace('''  let js := s.nb.filter fun j => !(s.isFixed j)
''','''  let js := s.nb.filter (rayKept E o s)
''')
s=s.replace('''    have : s.isFixed j = true := by simpa using hf
    show |varVal Q x j - varVal Q s.x j| * _ = 0
    rw [hs.fixed j hj this x hx]; simp)]''','''    show |varVal Q x j - varVal Q s.x j| * _ = 0
    cases hfx : s.isFixed j with
    | true => rw [hs.fixed j hj hfx x hx]; simp
    | false =>
      have he : (pk j).1 = [] := by
        simpa [rayKept, hfx, rayOf, pk] using hf
      have h0 := hray j hj
      have hpos := (packRay_spec E.sortDecr hsort E.expo E.EPS E.RAYEPS
        (s.rayObj j) o.rc (rayVals o s j)).1
      have hne : (pk j).2 ≠ 0 := ne_of_gt hpos
      rw [he, show scoef ([] : SVec) i = 0 from rfl] at h0
      rw [(mul_eq_zero.1 h0.symm).resolve_right hne, mul_zero])]''')
open(p,'w').write(s)
