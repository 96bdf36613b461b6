import Verif.Props.TargetFacts
import Mathlib.Data.Nat.Sqrt

/-!
# More about the objectives tried: equations, counters, candidates, budgets, second rounds (C100, C104, C106)
-/
namespace VPC

/-! ## Equations -/

/-- **C100.** A row is required to hold with equality only if the same heuristic has tried that row as objective
before, and the solution found was tight on it. -/
theorem equation_only_when_tight {W : TWorld} {L : BuiltLP} (hw : L.WF) (hW : W.Sorts L) {cur : Option (List ℚ)}
    {g : Gen} {st : TSt} (h : targetCuts W L cur g = .ok st) :
    ∀ pre b post k, st.log = pre ++ b :: post → b.lp.eqRow = some k →
      ∃ a ∈ pre, a.heur = b.heur ∧ a.lp.eqRow = none ∧ a.lp.Minimizes (L.act k) ∧
        ∃ x, a.sol? = some x ∧ |L.act k x - L.rhs k| < 1 / 10 ^ 7 := by
  have hK : Keeps W L (fun st => (∀ a ∈ st.log, Shape L a.lp) ∧
      ∀ pre b post k, st.log = pre ++ b :: post → b.lp.eqRow = some k →
      ∃ a ∈ pre, a.heur = b.heur ∧ a.lp.eqRow = none ∧ a.lp.Minimizes (L.act k) ∧
        ∃ x, a.sol? = some x ∧ |L.act k x - L.rhs k| < 1 / 10 ^ 7) := by
    refine ⟨hW.cands, ?_, ?_, ?_⟩
    · intro st st' hP _ hl _ _ _
      rw [hl]; exact hP
    · intro st heur st' r hP _ hs hi ha
      obtain ⟨g', -, rfl⟩ := attempt_ok ha
      rw [after_log]
      refine ⟨?_, ?_⟩
      · intro a hm
        rw [List.mem_append, List.mem_singleton] at hm
        rcases hm with hm | rfl
        · exact hP.1 a hm
        · exact hs
      · intro pre b post k hl hk
        rcases List.eq_nil_or_concat post with rfl | ⟨post', c, rfl⟩
        · obtain ⟨hpre, hb⟩ := List.append_inj' hl rfl
          simp only [List.cons.injEq, and_true] at hb
          subst hb
          obtain ⟨a, ha, h1, h2, h3, x, h4, h5⟩ := hi.2 k hk
          refine ⟨a, by rw [← hpre]; exact ha, h1, h2, minimizes_add (hP.1 a ha) (vec_lt hw k) h3, x, h4, ?_⟩
          simpa [isVal, defEps] using h5
        · rw [List.concat_eq_append, ← List.cons_append, ← List.append_assoc] at hl
          obtain ⟨hpre, -⟩ := List.append_inj' hl rfl
          exact hP.2 pre b post' k hpre hk
    · intro st x j m hP _ _ _
      simpa [raiseLower] using hP
  exact (targetCuts_keeps hK (fun st _ hl _ _ _ => by rw [hl]; simp) h).1.2

open Tri in
/-- Non-vacuity: the run with four points has attempts with equations. -/
example : ∃ st, targetCuts tW4 L4 none tG = .ok st ∧ ∃ b ∈ st.log, b.lp.eqRow = some 1 := by
  have hr : (targetCuts tW4 L4 none tG).bind
      (fun st => Res.ok (st.log.any fun b => b.lp.eqRow == some 1)) = .ok true := by
    decide +kernel
  obtain ⟨st, h, hl⟩ := Res.bind_ok hr
  refine ⟨st, h, ?_⟩
  obtain ⟨b, hb, he⟩ := List.any_eq_true.1 (Res.ok.inj hl)
  exact ⟨b, hb, by simpa using he⟩

/-! ## No undefined behaviour with a point -/

theorem Res.bind_ne_undef {α β : Type} {r : Res α} {f : α → Res β} (h : r ≠ .undef)
    (hf : ∀ a, r = .ok a → f a ≠ .undef) : r.bind f ≠ .undef := by
  cases r with
  | ok a => exact hf a rfl
  | exit => simp [Res.bind]
  | undef => exact absurd rfl h

section Defined
variable {W : TWorld}

theorem attempt_def (heur : ObjType) (st : TSt) : attempt W heur st ≠ .undef := by
  unfold attempt; split <;> simp

theorem tryOne_def (heur : ObjType) (st : TSt) : tryOne W heur st ≠ .undef :=
  Res.bind_ne_undef (attempt_def _ _) (by simp)

theorem candLoop_def (heur : ObjType) (saved : TSt) : ∀ (k : ℕ) (cs : List PCand) (r : Ret) (st : TSt),
    candLoop W heur saved k cs r st ≠ .undef := by
  intro k
  induction k with
  | zero => intro cs r st; simp [candLoop]
  | succ k ih =>
    intro cs r st
    unfold candLoop
    split
    · simp
    · match cs with
      | [] => simp
      | [c] => simp
      | c :: c' :: rest =>
        refine Res.bind_ne_undef (tryOne_def _ _) ?_
        intro a _
        dsimp only
        split
        · simp
        · exact ih _ _ _

theorem findMore_def (heur : ObjType) (row : ℕ) (m : ℤ) (x : List ℚ) (r : Ret) (st : TSt) :
    findMore W heur row m x r st ≠ .undef := by
  unfold findMore
  dsimp only
  split
  · simp
  · exact Res.bind_ne_undef (candLoop_def _ _ _ _ _ _) (by simp)

theorem findCuts_def (heur : ObjType) (row : ℕ) (m : ℤ) (st : TSt) : findCuts W heur row m st ≠ .undef := by
  refine Res.bind_ne_undef (tryOne_def _ _) ?_
  intro a _
  unfold findCont
  split
  · simp
  split
  · simp
  split
  · simp
  · exact findMore_def _ _ _ _ _ _

theorem gomoryLoop_def : ∀ (k j : ℕ) (st : TSt), gomoryLoop W k j st ≠ .undef := by
  intro k
  induction k with
  | zero => intro j st; simp [gomoryLoop]
  | succ k ih =>
    intro j st
    rw [gomoryLoop]
    split
    · simp
    split
    · simp
    · simp
    · simp
    · dsimp only
      split
      · simp
      · refine Res.bind_ne_undef (attempt_def _ _) ?_
        intro a _
        split
        · simp
        · exact ih _ _

theorem iterate_def (st : TSt) : iterate W st ≠ .undef := by
  unfold iterate
  split
  · simp
  split
  · simp
  · simp
  · refine Res.bind_ne_undef (attempt_def _ _) ?_
    intro a _
    split
    · simp
    · split
      · simp
      · exact gomoryLoop_def _ _ _

theorem pointsLoop_def (m : ℤ) : ∀ (ks : List ℕ) (n : ℕ) (st : TSt), pointsLoop W m ks n st ≠ .undef := by
  intro ks
  induction ks with
  | nil => intro n st; simp [pointsLoop]
  | cons k ks ih =>
    intro n st
    rw [pointsLoop]
    split
    · simp
    split
    · simp
    split
    · exact ih _ _
    · exact Res.bind_ne_undef (findCuts_def _ _ _ _) fun _ _ => ih _ _

theorem points2Loop_def (first : ℕ) (m : ℤ) : ∀ (ks : List ℕ) (n : ℕ) (st : TSt),
    points2Loop W first m ks n st ≠ .undef := by
  intro ks
  induction ks with
  | nil => intro n st; simp [points2Loop]
  | cons k ks ih =>
    intro n st
    rw [points2Loop]
    split
    · simp
    split
    · simp
    split
    · exact ih _ _
    split
    · exact ih _ _
    · exact Res.bind_ne_undef (findCuts_def _ _ _ _) fun _ _ => ih _ _

theorem unitsLoop_def (m : ℤ) : ∀ (ks : List ℕ) (n : ℕ) (st : TSt), unitsLoop W m ks n st ≠ .undef := by
  intro ks
  induction ks with
  | nil => intro n st; simp [unitsLoop]
  | cons k ks ih =>
    intro n st
    rw [unitsLoop]
    split
    · simp
    split
    · simp
    split
    · exact ih _ _
    · exact Res.bind_ne_undef (Res.bind_ne_undef (tryOne_def _ _) (by simp)) fun _ _ => ih _ _

theorem tryRay_def (heur : ObjType) (mark : Bool) (k : ℕ) (st : TSt) : tryRay W heur mark k st ≠ .undef :=
  Res.bind_ne_undef (tryOne_def _ _) (by simp)

theorem raysLoop_def (m : ℤ) : ∀ (ks : List ℕ) (n : ℕ) (st : TSt), raysLoop W m ks n st ≠ .undef := by
  intro ks
  induction ks with
  | nil => intro n st; simp [raysLoop]
  | cons k ks ih =>
    intro n st
    rw [raysLoop]
    split
    · simp
    split
    · simp
    split
    · exact ih _ _
    · exact Res.bind_ne_undef (tryRay_def _ _ _ _) fun _ _ => ih _ _

theorem rays2Loop_def (m : ℤ) : ∀ (ks : List ℕ) (n : ℕ) (st : TSt), rays2Loop W m ks n st ≠ .undef := by
  intro ks
  induction ks with
  | nil => intro n st; simp [rays2Loop]
  | cons k ks ih =>
    intro n st
    rw [rays2Loop]
    split
    · simp
    split
    · simp
    split
    · exact ih _ _
    · exact Res.bind_ne_undef (tryRay_def _ _ _ _) fun _ _ => ih _ _

theorem Phase.next_def {p : Phase} {f : TSt → Phase} (hp : p ≠ .undef) (hf : ∀ st, f st ≠ .undef) :
    Phase.next p f ≠ .undef := by
  refine Res.bind_ne_undef hp ?_
  intro a _
  split
  · simp
  · exact hf _

theorem abandonTest_def (st : TSt) : abandonTest W st ≠ .undef := by simp [abandonTest]

theorem phasesLate_def (L : BuiltLP) (first : ℕ) (m : ℤ) (n : ℕ) (st : TSt) :
    phasesLate W L first m n st ≠ .undef := by
  refine Phase.next_def (Phase.next_def ?_ abandonTest_def) ?_
  · split
    · exact unitsLoop_def _ _ _ _
    · simp
  intro st
  refine Res.bind_ne_undef (Res.bind_ne_undef ?_ ?_) ?_
  · split
    · exact raysLoop_def _ _ _ _
    · simp
  · intro a _
    split
    · simp
    · exact Res.bind_ne_undef (abandonTest_def _) (by simp)
  · intro a _
    split
    · simp
    refine Phase.next_def (Phase.next_def ?_ abandonTest_def) ?_
    · split
      · exact points2Loop_def _ _ _ _ _
      · simp
    · intro st
      unfold phaseRays2
      split
      · exact rays2Loop_def _ _ _ _
      · simp

/-- **C106.** If the point-ray LP has a point, nothing undefined is executed while the objectives are tried, whatever
the LP solver and the clock answer (`no_points_undefined` shows what happens without). -/
theorem target_defined {L : BuiltLP} (hp : ∃ k, IsPoint L k) (cur : Option (List ℚ)) (g : Gen) :
    targetCuts W L cur g ≠ .undef := by
  unfold targetCuts
  dsimp only
  split
  · simp
  refine Res.bind_ne_undef ?_ (by simp)
  refine Phase.next_def ?_ ?_
  · unfold phaseAllOnes
    split
    · exact Res.bind_ne_undef (tryOne_def _ _) (by simp [abandonTest])
    · simp
  intro st
  refine Phase.next_def ?_ ?_
  · unfold phaseGomory
    split
    · exact Res.bind_ne_undef (iterate_def _) fun _ _ => abandonTest_def _
    · simp
  intro st
  unfold phasesPoints
  split
  · rename_i h
    obtain ⟨k, hk⟩ := hp
    have := mem_pointRows.2 hk
    rw [h] at this
    cases this
  refine Phase.next_def ?_ ?_
  · unfold phaseDisjLB
    split
    · exact Res.bind_ne_undef (findCuts_def _ _ _ _) fun _ _ => abandonTest_def _
    · simp
  intro st
  refine Res.bind_ne_undef (Res.bind_ne_undef ?_ ?_) ?_
  · split
    · exact pointsLoop_def _ _ _ _
    · simp
  · intro a _
    split
    · simp
    · exact Res.bind_ne_undef (abandonTest_def _) (by simp)
  · intro a _
    split
    · simp
    · exact phasesLate_def _ _ _ _ _

end Defined

open Tri in
/-- Non-vacuity: the run with four points. -/
example : targetCuts tW4 L4 none tG ≠ .undef := target_defined ⟨0, by decide +kernel, by decide +kernel⟩ _ _

/-! ## Counters and candidates -/

/-- **C106.** After an optimal solve the counter of a row, lower bound or upper bound moves one step away from zero
(zero counts as unmarked: up) if the constraint is tight at the solution, and stays otherwise. Infinite bounds are
never tight. -/
theorem tight_counters (st : TSt) (x : List ℚ) (hx : st.cur = some x) :
    (∀ k < st.tr.length, (updateTight st).tr.getD k 0 =
      if |st.lp.base.act k x - st.lp.base.rhs k| < 1 / 10 ^ 7 then
        (if st.tr.getD k 0 ≥ 0 then st.tr.getD k 0 + 1 else st.tr.getD k 0 - 1)
      else st.tr.getD k 0) ∧
    (∀ j < st.tl.length, (updateTight st).tl.getD j 0 =
      if isNegInfinity (st.lp.base.lb.getD j 0) = false ∧ |x.getD j 0 - st.lp.base.lb.getD j 0| < 1 / 10 ^ 7 then
        (if st.tl.getD j 0 ≥ 0 then st.tl.getD j 0 + 1 else st.tl.getD j 0 - 1)
      else st.tl.getD j 0) ∧
    (∀ j < st.tu.length, (updateTight st).tu.getD j 0 =
      if isInfinity (st.lp.base.ub.getD j 0) = false ∧ |x.getD j 0 - st.lp.base.ub.getD j 0| < 1 / 10 ^ 7 then
        (if st.tu.getD j 0 ≥ 0 then st.tu.getD j 0 + 1 else st.tu.getD j 0 - 1)
      else st.tu.getD j 0) := by
  unfold updateTight
  rw [hx]
  dsimp only
  refine ⟨?_, ?_, ?_⟩
  · intro k hk
    simp only [List.getD_eq_getElem?_getD, List.getElem?_mapIdx, List.getElem?_eq_getElem hk, Option.map_some,
      Option.getD_some, tightStep, bumpTight]
    have hb : (rowTight st.lp.base x k = true) =
        (|st.lp.base.act k x - st.lp.base.rhs k| < 1 / 10 ^ 7) := propext isVal_iff
    by_cases hc : |st.lp.base.act k x - st.lp.base.rhs k| < 1 / 10 ^ 7
    · rw [if_pos hc, if_pos (show rowTight st.lp.base x k = true from hb ▸ hc)]
    · rw [if_neg hc, if_neg (show ¬ rowTight st.lp.base x k = true from hb ▸ hc)]
  · intro j hj
    simp only [List.getD_eq_getElem?_getD, List.getElem?_mapIdx, List.getElem?_eq_getElem hj, Option.map_some,
      Option.getD_some, tightStep, bumpTight, lbTight, isVal, defEps, decide_eq_true_eq, Bool.and_eq_true,
      Bool.not_eq_true']
  · intro j hj
    simp only [List.getD_eq_getElem?_getD, List.getElem?_mapIdx, List.getElem?_eq_getElem hj, Option.map_some,
      Option.getD_some, tightStep, bumpTight, ubTight, isVal, defEps, decide_eq_true_eq, Bool.and_eq_true,
      Bool.not_eq_true']

/-- **C106.** The constraints offered as objectives on a point: rows whose slack is basic and not zero; finite bounds
of basic columns that are not tight and not marked. -/
theorem candidates_spec (st : TSt) (x : List ℚ) (basics : List ℕ) :
    (∀ k, PCand.row k ∈ candidates st x basics ↔
      k + st.lp.cols ∈ basics ∧ ¬ |st.lp.base.act k x - st.lp.base.rhs k| < 1 / 10 ^ 7) ∧
    (∀ j, PCand.lb j ∈ candidates st x basics ↔ j ∈ basics ∧ j < st.lp.cols ∧
      isNegInfinity (st.lp.base.lb.getD j 0) = false ∧ 0 ≤ st.tl.getD j 0 ∧
      ¬ |x.getD j 0 - st.lp.base.lb.getD j 0| < 1 / 10 ^ 7) ∧
    (∀ j, PCand.ub j ∈ candidates st x basics ↔ j ∈ basics ∧ j < st.lp.cols ∧
      isInfinity (st.lp.base.ub.getD j 0) = false ∧ 0 ≤ st.tu.getD j 0 ∧
      ¬ |x.getD j 0 - st.lp.base.ub.getD j 0| < 1 / 10 ^ 7) := by
  have hz : ∀ v : ℚ, isZero v = true ↔ |v| < 1 / 10 ^ 7 := by
    intro v; simp [isZero, isVal, defEps]
  refine ⟨?_, ?_, ?_⟩
  · intro k
    unfold candidates
    rw [List.mem_flatMap]
    constructor
    · rintro ⟨v, hv, h⟩
      split at h
      · simp only [colCands, List.mem_append] at h
        rcases h with h | h <;> split at h <;> simp at h
      · rename_i hlt
        unfold rowCands at h
        split at h
        · rename_i h'
          simp only [List.mem_singleton, PCand.row.injEq] at h
          subst h
          rw [Bool.not_eq_true', ← Bool.not_eq_true, hz] at h'
          exact ⟨by rw [Nat.sub_add_cancel (not_lt.1 hlt)]; exact hv, h'⟩
        · simp at h
    · rintro ⟨hv, h⟩
      refine ⟨_, hv, ?_⟩
      rw [if_neg (show ¬ k + st.lp.cols < st.lp.cols by omega), Nat.add_sub_cancel]
      unfold rowCands
      rw [← hz, Bool.not_eq_true] at h
      simp [h]
  · intro j
    unfold candidates
    rw [List.mem_flatMap]
    constructor
    · rintro ⟨v, hv, h⟩
      split at h
      · rename_i hlt
        simp only [colCands, List.mem_append] at h
        rcases h with h | h
        · split at h
          · rename_i h'
            simp only [List.mem_singleton, PCand.lb.injEq] at h
            subst h
            simp only [Bool.and_eq_true, Bool.not_eq_true', decide_eq_true_eq] at h'
            refine ⟨hv, hlt, h'.1.1, h'.1.2, ?_⟩
            rw [← hz, h'.2]; simp
          · simp at h
        · split at h <;> simp at h
      · unfold rowCands at h
        split at h <;> simp at h
    · rintro ⟨hv, hlt, h1, h2, h3⟩
      refine ⟨j, hv, ?_⟩
      rw [if_pos hlt]
      rw [← hz, Bool.not_eq_true] at h3
      unfold colCands
      rw [List.mem_append]
      left
      rw [if_pos (by rw [h1, h3]; simpa using h2)]
      simp
  · intro j
    unfold candidates
    rw [List.mem_flatMap]
    constructor
    · rintro ⟨v, hv, h⟩
      split at h
      · rename_i hlt
        simp only [colCands, List.mem_append] at h
        rcases h with h | h
        · split at h <;> simp at h
        · split at h
          · rename_i h'
            simp only [List.mem_singleton, PCand.ub.injEq] at h
            subst h
            simp only [Bool.and_eq_true, Bool.not_eq_true', decide_eq_true_eq] at h'
            refine ⟨hv, hlt, h'.1.1, h'.1.2, ?_⟩
            rw [← hz, h'.2]; simp
          · simp at h
      · unfold rowCands at h
        split at h <;> simp at h
    · rintro ⟨hv, hlt, h1, h2, h3⟩
      refine ⟨j, hv, ?_⟩
      rw [if_pos hlt]
      rw [← hz, Bool.not_eq_true] at h3
      unfold colCands
      rw [List.mem_append]
      right
      rw [if_pos (by rw [h1, h3]; simpa using h2)]
      simp

/-! ## Budgets -/

/-- The square root rounded up: the least `m` with `n ≤ m²`. -/
theorem ceilSqrt_spec (n : ℕ) : n ≤ ceilSqrt n * ceilSqrt n ∧ ∀ m, n ≤ m * m → ceilSqrt n ≤ m := by
  unfold ceilSqrt
  have h1 := Nat.sqrt_le n
  have h2 := Nat.lt_succ_sqrt n
  split
  · rename_i h
    exact ⟨by omega, fun m hm => by
      by_contra hlt
      have h3 : m + 1 ≤ Nat.sqrt n := by omega
      have h4 := Nat.mul_le_mul h3 h3
      nlinarith⟩
  · rename_i h
    refine ⟨h2.le, fun m hm => ?_⟩
    by_contra hlt
    have h3 : m ≤ Nat.sqrt n := by omega
    have h4 := Nat.mul_le_mul h3 h3
    have h5 : Nat.sqrt n * Nat.sqrt n < n := lt_of_le_of_ne h1 h
    omega

/-- **C104.** The budgets of rays and unit vectors: a parameter that is not negative is the number itself (for unit
vectors at most the number of columns of the point-ray LP); a negative one is a multiple of the square root, rounded
up, of the number of rays, or of the number of columns of the original problem. -/
theorem ray_and_unit_budgets (W : TWorld) (L : BuiltLP) (r c : ℕ)
    (hr : (rayRows L).length ≤ r * r ∧ ∀ m, (rayRows L).length ≤ m * m → r ≤ m)
    (hc : W.numCols ≤ c * c ∧ ∀ m, W.numCols ≤ m * m → c ≤ m) :
    (0 ≤ W.useTightRays → maxRays W L = W.useTightRays) ∧
    (W.useTightRays < 0 → maxRays W L = |W.useTightRays| * r) ∧
    (0 ≤ W.useUnitVectors → maxUnits W L = min (L.nz.length : ℤ) W.useUnitVectors) ∧
    (W.useUnitVectors < 0 → maxUnits W L = |W.useUnitVectors| * c) := by
  have e1 : ceilSqrt (rayRows L).length = r :=
    le_antisymm ((ceilSqrt_spec _).2 r hr.1) (hr.2 _ (ceilSqrt_spec _).1)
  have e2 : ceilSqrt W.numCols = c :=
    le_antisymm ((ceilSqrt_spec _).2 c hc.1) (hc.2 _ (ceilSqrt_spec _).1)
  unfold maxRays maxUnits
  rw [e1, e2]
  refine ⟨fun h => if_neg (by omega), fun h => ?_, fun h => if_neg (by omega), fun h => ?_⟩
  · rw [if_pos h, abs_of_neg h]; ring
  · rw [if_pos h, abs_of_neg h]; ring

open Tri in
/-- Two times the root of two rays, rounded up; two of three unit vectors. -/
example : maxRays tW4b L4 = 4 ∧ maxUnits tW4 L4 = 2 := by decide +kernel

/-! ## Reset before the points -/

/-- After the reset the solution held is the zero vector, so the next solution counts as a repetition only if it is
zero. -/
theorem reset_forgets (W : TWorld) (st : TSt) :
    (resetSolver W st).cur = none ∨ (resetSolver W st).cur = some (List.replicate st.lp.cols 0) := by
  unfold resetSolver constObj
  cases (W.solve st.n st.lp).sol? with
  | none => exact Or.inl rfl
  | some x => exact Or.inr rfl

/-! ## Second rounds -/

theorem bumpTight_neg (t : ℤ) : bumpTight t < 0 ↔ t < 0 := by unfold bumpTight; split <;> omega

theorem mapIdx_tight_neg (f : ℕ → Bool) (l : List ℤ) (k : ℕ) :
    (l.mapIdx fun i t => tightStep (f i) t).getD k 0 < 0 ↔ l.getD k 0 < 0 := by
  simp only [List.getD_eq_getElem?_getD, List.getElem?_mapIdx]
  cases l[k]? with
  | none => simp
  | some t =>
    simp only [Option.map_some, Option.getD_some, tightStep]
    split
    · exact bumpTight_neg t
    · exact Iff.rfl

/-- The marks of the rows are the same. -/
def SameMarks (st st' : TSt) : Prop := ∀ k, st'.tr.getD k 0 < 0 ↔ st.tr.getD k 0 < 0

theorem SameMarks.rfl' {st st' : TSt} (h : st'.tr = st.tr) : SameMarks st st' := fun k => by rw [h]

theorem SameMarks.trans {a b c : TSt} (h1 : SameMarks a b) (h2 : SameMarks b c) : SameMarks a c :=
  fun k => (h2 k).trans (h1 k)

theorem tryOne_marks {W : TWorld} {heur : ObjType} {st st' : TSt} {r : Ret} (h : tryOne W heur st = .ok (st', r)) :
    SameMarks st st' := by
  obtain ⟨s1, h1, rfl⟩ := tryOne_ok h
  have h2 : s1.tr = st.tr := by obtain ⟨g', _, rfl⟩ := attempt_ok h1; rfl
  intro k
  unfold updateTight
  split
  · rw [h2]
  · rw [← h2]
    exact mapIdx_tight_neg _ _ _

theorem addCand_tr (st : TSt) (cs : List PCand) : (addCand st cs).tr = st.tr := by
  cases cs <;> rfl

theorem candLoop_marks {W : TWorld} {heur : ObjType} {saved : TSt} : ∀ (k : ℕ) (cs : List PCand) (r : Ret)
    (st st' : TSt), candLoop W heur saved k cs r st = .ok st' → SameMarks st st' := by
  intro k
  induction k with
  | zero =>
    intro cs r st st' h
    simp only [candLoop, Res.ok.injEq] at h
    subst h
    exact .rfl' rfl
  | succ k ih =>
    intro cs r st st' h
    unfold candLoop at h
    split at h
    · simp only [Res.ok.injEq] at h
      subst h
      exact .rfl' rfl
    match cs, h with
    | [], h =>
      simp only [Res.ok.injEq] at h
      subst h
      exact .rfl' rfl
    | [c], h =>
      simp only [Res.ok.injEq] at h
      subst h
      exact .rfl' rfl
    | c :: c' :: rest, h =>
      obtain ⟨p, hp, h⟩ := Res.bind_ok h
      obtain ⟨p1, p2⟩ := p
      have h1 : SameMarks st p1 := fun k => tryOne_marks hp k
      simp only at h
      split at h
      · simp only [Res.ok.injEq] at h
        subst h
        exact h1
      · have h2 := ih _ _ _ _ h
        intro k
        rw [← h1 k, h2 k, addCand_tr]
        rfl

/-- Looking for cuts tight on a point marks nothing and unmarks nothing. -/
theorem findCuts_marks {W : TWorld} {heur : ObjType} {row : ℕ} {m : ℤ} {st st' : TSt}
    (h : findCuts W heur row m st = .ok st') : SameMarks st st' := by
  unfold findCuts at h
  obtain ⟨p, hp, h⟩ := Res.bind_ok h
  obtain ⟨p1, p2⟩ := p
  have h1 : SameMarks st p1 := fun k => tryOne_marks hp k
  unfold findCont at h
  split at h
  · simp only [Res.ok.injEq] at h
    subst h
    exact h1
  split at h
  · simp only [Res.ok.injEq] at h
    subst h
    exact h1
  split at h
  · simp only [Res.ok.injEq] at h
    subst h
    exact h1
  · unfold findMore at h
    dsimp only at h
    split at h
    · simp only [Res.ok.injEq] at h
      subst h
      exact h1.trans (.rfl' (addCand_tr _ _))
    · obtain ⟨s, hs, h⟩ := Res.bind_ok h
      simp only [Res.ok.injEq] at h
      subst h
      have h2 := candLoop_marks _ _ _ _ _ hs
      intro k
      have h3 := h2 k
      rw [addCand_tr] at h3
      rw [← h1 k]
      exact h3

/-- The second round over the points keeps the marks of the rows. -/
theorem points2_marks {W : TWorld} {first : ℕ} {m : ℤ} : ∀ (ks : List ℕ) (n : ℕ) (st : TSt) (q : TSt × Bool),
    points2Loop W first m ks n st = .ok q → SameMarks st q.1 := by
  intro ks
  induction ks with
  | nil =>
    intro n st q h
    simp only [points2Loop, Res.ok.injEq] at h
    subst h
    exact .rfl' rfl
  | cons k ks ih =>
    intro n st q h
    rw [points2Loop] at h
    split at h
    · simp only [Res.ok.injEq] at h
      subst h
      exact .rfl' rfl
    split at h
    · simp only [Res.ok.injEq] at h
      subst h
      exact .rfl' rfl
    split at h
    · exact ih _ st.ticked _ h
    split at h
    · exact ih _ st.ticked _ h
    · obtain ⟨s, hs, h⟩ := Res.bind_ok h
      have h1 : SameMarks st s := fun k => findCuts_marks hs k
      exact h1.trans (ih _ _ _ h)

/-- **C106, second round.** Points that are not marked are all tried a second time, except the first one, as long as
the budget lasts and no limit stops the search: the number of points tried is what is left of the budget, or all of
them. -/
theorem second_round_points {W : TWorld} {first : ℕ} {m : ℤ} : ∀ (ks : List ℕ) (n : ℕ) (st : TSt) (st' : TSt),
    st.lp.eqRow = none → (∀ k ∈ ks, 0 ≤ st.tr.getD k 0) →
    points2Loop W first m ks n st = .ok (st', false) →
    ∃ new, st'.log = st.log ++ new ∧ new.countP (fun a => a.lp.eqRow.isNone) =
      min (W.useTightPoints - n).toNat ((ks.filter (· ≠ first)).length) := by
  intro ks
  induction ks with
  | nil =>
    intro n st st' he hm h
    simp only [points2Loop, Res.ok.injEq, Prod.mk.injEq, and_true] at h
    subst h
    exact ⟨[], by simp, by simp⟩
  | cons k ks ih =>
    intro n st st' he hm h
    rw [points2Loop] at h
    split at h
    · simp at h
    split at h
    · rename_i hge
      simp only [Res.ok.injEq, Prod.mk.injEq, and_true] at h
      subst h
      refine ⟨[], by simp [TSt.ticked], ?_⟩
      have : (W.useTightPoints - n).toNat = 0 := by omega
      simp [this]
    rename_i hlt
    split at h
    · rename_i hneg
      exact absurd hneg (not_lt.2 (hm k (by simp)))
    split at h
    · rename_i hk
      obtain ⟨new, h1, h2⟩ := ih n st.ticked st' he (fun k hk => hm k (by simp [hk])) h
      refine ⟨new, h1, ?_⟩
      rw [h2]
      subst hk
      simp
    · rename_i hk
      obtain ⟨s, hs, h⟩ := Res.bind_ok h
      obtain ⟨n1, g1, o1⟩ := findCuts_grew (show st.ticked.lp.eqRow = none from he) hs
      have hmk : SameMarks st s := fun k => findCuts_marks hs k
      obtain ⟨new, h1, h2⟩ := ih (n + 1) s st' (by rw [g1.eq]; exact he) (fun k hk => by
        have := hm k (by simp [hk])
        by_contra hc
        exact absurd ((hmk k).1 (by omega)) (by omega)) h
      refine ⟨n1 ++ new, by rw [h1, g1.log, List.append_assoc]; rfl, ?_⟩
      obtain ⟨a, l, rfl, ha, hl⟩ := o1.shape
      rw [List.countP_append, h2, List.countP_cons]
      have hz : l.countP (fun a => a.lp.eqRow.isNone) = 0 := by
        rw [List.countP_eq_zero]
        intro b hb
        simp [hl b hb]
      rw [hz, ha]
      have hf : (k :: ks).filter (fun x => decide (x ≠ first)) = k :: ks.filter (fun x => decide (x ≠ first)) := by
        simp [hk]
      rw [hf, List.length_cons]
      simp only [Option.isNone_none, if_true]
      omega

/-- **C106, rays.** A ray whose objective failed in the first round is marked. -/
theorem failed_ray_marked {W : TWorld} {k : ℕ} {st st' : TSt} (hk : 0 ≤ st.tr.getD k 0) (hl : k < st.tr.length)
    (h : tryRay W .TIGHT_RAYS true k st = .ok st') (f : Fail) (hf : st'.rc = .fail f) : st'.tr.getD k 0 < 0 := by
  unfold tryRay at h
  obtain ⟨p, hp, h⟩ := Res.bind_ok h
  obtain ⟨p1, p2⟩ := p
  simp only [if_true, Res.ok.injEq] at h
  subst h
  have h1 : SameMarks st p1 := fun k => tryOne_marks hp k
  have h2 : p1.tr.length = st.tr.length := by
    obtain ⟨s1, h3, rfl⟩ := tryOne_ok hp
    have h2 : s1.tr = st.tr := by obtain ⟨g', _, rfl⟩ := attempt_ok h3; rfl
    unfold updateTight
    split
    · rw [h2]
    · simp [h2]
  simp only [TSt.setObj] at hf
  subst hf
  have h3 : ¬ p1.tr.getD k 0 < 0 := fun h => absurd ((h1 k).1 h) (by omega)
  simp only [TSt.setObj, markRay, List.getD_eq_getElem?_getD, List.getElem?_set, if_true]
  rw [if_pos (by omega)]
  simp only [List.getD_eq_getElem?_getD] at h3
  simp only [Option.getD_some]
  omega

/-- **C106, rays.** Marked rays are not tried in the second round: every objective of the second round is a ray that
was not marked when it started. -/
theorem marked_rays_skipped {W : TWorld} {L : BuiltLP} {max : ℤ} : ∀ (ks : List ℕ) (n : ℕ) (st : TSt)
    (q : TSt × Bool), AtRest L st.lp → rays2Loop W max ks n st = .ok q →
    ∃ new, q.1.log = st.log ++ new ∧ ∀ a ∈ new, ∃ k ∈ ks, 0 ≤ st.tr.getD k 0 ∧
      a.lp.obj = addObj (constObj L.nz.length 0) (L.vec k) := by
  intro ks
  induction ks with
  | nil =>
    intro n st q _ h
    simp only [rays2Loop, Res.ok.injEq] at h
    subst h
    exact ⟨[], by simp, by simp⟩
  | cons k ks ih =>
    intro n st q hr h
    rw [rays2Loop] at h
    split at h
    · simp only [Res.ok.injEq] at h
      subst h
      exact ⟨[], by simp [TSt.ticked], by simp⟩
    split at h
    · simp only [Res.ok.injEq] at h
      subst h
      exact ⟨[], by simp [TSt.ticked], by simp⟩
    split at h
    · obtain ⟨new, h1, h2⟩ := ih n st.ticked q hr h
      refine ⟨new, h1, fun a ha => ?_⟩
      obtain ⟨k', hk', h3⟩ := h2 a ha
      exact ⟨k', by simp [hk'], h3⟩
    · rename_i hneg
      obtain ⟨s, hs, h⟩ := Res.bind_ok h
      unfold tryRay at hs
      obtain ⟨p, hp, hs⟩ := Res.bind_ok hs
      obtain ⟨p1, p2⟩ := p
      simp only [Bool.false_eq_true, if_false, Res.ok.injEq] at hs
      obtain ⟨s1, ha1, rfl⟩ := tryOne_ok hp
      obtain ⟨g', _, rfl⟩ := attempt_ok ha1
      have hmk := tryOne_marks hp
      have hu := updateTight_same ((st.ticked.setObj (addObj st.ticked.lp.obj (st.ticked.lp.base.vec k))).after W.env
        (W.solve (st.ticked.setObj (addObj st.ticked.lp.obj (st.ticked.lp.base.vec k))).n
          (st.ticked.setObj (addObj st.ticked.lp.obj (st.ticked.lp.base.vec k))).lp) .TIGHT_RAYS2 g' p2)
      have hrest : AtRest L s.lp := by
        subst hs
        simp only [TSt.setObj] at hu
        refine ⟨hr.toShape.of_base ?_, ?_, ?_⟩
        · simp only [TSt.setObj, hu.2.2.2.2.1]; rfl
        · simp only [TSt.setObj, hu.2.2.2.2.1]
          simp only [TSt.after, TSt.ticked, hr.obj, hr.toShape.vec]
          exact clear_add _ _
        · simp only [TSt.setObj, hu.2.2.2.2.1]
          exact hr.eq
      obtain ⟨new, h1, h2⟩ := ih (n + 1) s q hrest h
      subst hs
      · have hlog := h1
        simp only [TSt.setObj] at hu
        simp only [TSt.setObj, hu.2.1] at hlog
        rw [after_log] at hlog
        simp only [List.append_assoc, List.singleton_append] at hlog
        refine ⟨_ :: new, hlog, ?_⟩
        intro a ha
        rcases List.mem_cons.1 ha with rfl | ha
        · refine ⟨k, by simp, not_lt.1 hneg, ?_⟩
          simp [TSt.ticked, hr.obj, hr.toShape.vec]
        · obtain ⟨k', hk', h3, h4⟩ := h2 a ha
          refine ⟨k', by simp [hk'], ?_, h4⟩
          by_contra hc
          exact absurd ((hmk k').2 (not_le.1 hc)) (not_lt.2 h3)

open Tri in
/-- Non-vacuity: in the run with four points a ray is marked at the end. -/
example : ∃ st, targetCuts tW4 L4 none tG = .ok st ∧ st.tr.getD 4 0 < 0 := by
  obtain ⟨st, h, hl⟩ := Res.bind_ok tRun4_tight
  refine ⟨st, h, ?_⟩
  simp only [Res.ok.injEq, Prod.mk.injEq] at hl
  rw [hl.2.1]
  decide

end VPC
