p='Verif/Model/NBSpace.lean'; s=open(p).read()
a=s.index('/-- The component of a ray for'); b=s.index('/-- The tiny-element loop for rays')
s=s[:a]+'''/-- The tableau column handed to `setCompNBCoorRay` by `genDepth1PRCollection`
(src/cut/CglVPC.cpp:1385-1390): `B⁻¹A_tmpVar`, negated if `isNonBasicLBVar(tmpVar)`. -/
def genRay (tmpLB : Bool) (tab : Vec) : Vec := fun r => if tmpLB then tab r * (-1) else tab r

/-- The component of a ray for an originally nonbasic variable,
src/utility/nbspace.cpp:217 and :244-269 with `rayNeedsCalculation = false` (the default,
include/nbspace.hpp:47, and the only use): `tmpVar` is the nonbasic variable
of the term's basis that generates the ray, `origVar` the coordinate, `row?` the row in which
`origVar` is basic in the term's basis (`rowOfOrigNBVar >= 0`), `ray` the column passed in,
`tmpUB` / `origUB` the at-upper-bound tests. -/
def rayCoor (tmpVar origVar : ℕ) (tmpUB origUB : Bool) (row? : Option ℕ) (ray : Vec) : ℚ :=
  let tmpRayMult : ℚ := if tmpUB then -1 else 1
  let rayMult : ℚ := if origUB then -1 else 1
  let newRayMult := tmpRayMult * rayMult
  if origVar = tmpVar then newRayMult
  else match row? with
    | some r => tmpRayMult * newRayMult * ray r
    | none => 0

'''+s[b:]
open(p,'w').write(s)
p='Verif/Props/NBPack.lean'; s=open(p).read()
a=s.index('/-- C38. The ray component stored'); b=s.index('theorem takeTinyRay_prefix')
s=s[:a]+'''/-- C38. The ray component stored for a coordinate is the derivative, along the ray, of the
complemented coordinate of the original basis: `+Δ` if the original variable was at its lower
bound, `-Δ` if at its upper bound. This needs the generating variable to be at exactly one of its
bounds (`tmpLB` and `tmpUB` are the code's two independent tests); see
`rayCoor_free_wrong` for a nonbasic free variable. -/
theorem rayCoor_exact (tmpVar origVar : ℕ) (tmpLB tmpUB origUB : Bool) (row? : Option ℕ)
    (tab : Vec) (hone : tmpLB = !tmpUB) :
    rayCoor tmpVar origVar tmpUB origUB row? (genRay tmpLB tab)
      = (if origUB then -1 else 1) * rayDelta tmpVar origVar tmpUB row? tab := by
  unfold rayCoor rayDelta genRay
  simp only
  by_cases h : origVar = tmpVar
  · rw [if_pos h, if_pos h]; ring
  · rw [if_neg h, if_neg h]
    cases row? with
    | none => simp
    | some r => cases tmpUB <;> cases origUB <;> simp [hone]

/-- C38 is violated for a nonbasic *free* variable (neither at lower nor at upper bound): the
column is not negated, so the basic components of the stored ray point the wrong way, and the
stored vector is not even a multiple of the ray in either direction. -/
theorem rayCoor_free_wrong :
    let tab : Vec := fun _ => 1
    -- coordinates 0 (the free variable itself) and 1 (basic in row 0)
    let stored := [rayCoor 0 0 false false none (genRay false tab),
                   rayCoor 0 1 false false (some 0) (genRay false tab)]
    let up := [rayDelta 0 0 false none tab, rayDelta 0 1 false (some 0) tab]
    ∀ c : ℚ, stored ≠ up.map (c * ·) := by
  intro tab stored up c h
  have h' : [(1 : ℚ), 1] = [c * 1, c * (-1)] := by
    simpa [stored, up, tab, rayCoor, genRay, rayDelta] using h
  simp only [List.cons.injEq, mul_one, mul_neg] at h'
  linarith [h'.1, h'.2.1]

example : rayCoor 0 1 true false (some 0) (genRay false (fun _ => 3)) = 3 := by decide +kernel

'''+s[b:]
open(p,'w').write(s)
