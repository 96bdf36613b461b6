import Verif.Props.TargetValid
import Verif.Props.TargetEx
import Verif.Props.EndToEnd

/-!
# C156: by how much a cut cuts off the LP optimum
-/
namespace VPC
open Finset

/-! ## Specification -/

/-- Violation of a cut at a point (negative if the point satisfies it with slack). -/
def violAt (c : RowCut) (x : Vec) : ℚ := c.lb - sdot c.row x

/-- What replacing the term of entry `e` by its largest value over the column bounds costs at `x`; nothing if the entry
stays. (Entries far below the tolerance are thrown away without replacement.) -/
def dropLoss (l u obj : Vec) (EPS EC : ℚ) (x : Vec) (e : ℕ × ℚ) : ℚ :=
  if |e.2| < EPS ∧ |(|e.2| * obj e.1)| < EPS then -(e.2 * x e.1)
  else if |e.2| ≤ EC ∧ e.2 < 0 ∧ isNegInfinity (l e.1) = false then |e.2| * (x e.1 - l e.1)
  else if |e.2| ≤ EC ∧ 0 < e.2 ∧ isInfinity (u e.1) = false then |e.2| * (u e.1 - x e.1)
  else 0

/-- All nonbasic variables of the LP optimum `x` are at their bounds, as recorded. -/
def AtOrigin (lp : LP) (nbVar : List ℕ) (x : Vec) : Prop := ∀ j < lp.numCols, nbCoord lp x (nbVar.getD j 0) = 0

/-! ## Cleaning -/

theorem dropLoss_step (l u obj : Vec) (EPS EC : ℚ) (x : Vec) (e : ℕ × ℚ) :
    dropLoss l u obj EPS EC x e = (match (rscStep l u obj EPS EC e).1 with | none => 0 | some e' => e'.2 * x e'.1)
      + (rscStep l u obj EPS EC e).2 - e.2 * x e.1 := by
  unfold dropLoss
  rcases rscStep_cases l u obj EPS EC e with ⟨h1, h2, hr⟩ | ⟨h0, ⟨h1, h2, h3, hr⟩ | ⟨h1, h2, h3, hr⟩ | ⟨h1, h2, hr⟩⟩
  · rw [hr, if_pos ⟨h1, h2⟩]; simp
  · rw [hr, if_neg h0, if_pos ⟨h1, h2, h3⟩, abs_of_neg h2]; ring
  · rw [hr, if_neg h0, if_neg (by rintro ⟨-, h, -⟩; linarith), if_pos ⟨h1, h2, h3⟩, abs_of_pos h2]; ring
  · rw [hr, if_neg h0, if_neg h1, if_neg h2]; ring

theorem dropLoss_sum (l u obj : Vec) (EPS EC : ℚ) (x : Vec) (row : SVec) :
    (row.map (dropLoss l u obj EPS EC x)).sum =
      sdot ((row.map (rscStep l u obj EPS EC)).filterMap (·.1)) x
        + ((row.map (rscStep l u obj EPS EC)).map (·.2)).sum - sdot row x := by
  induction row with
  | nil => simp
  | cons e row ih =>
    simp only [List.map_cons, List.sum_cons, List.filterMap_cons, sdot_cons]
    rw [ih, dropLoss_step]
    cases h : (rscStep l u obj EPS EC e).1 with
    | none => simp only; ring
    | some e' => simp only [sdot_cons]; ring

/-- **C156, cleaning.** The violation at any point drops by exactly the losses of the coefficients removed, and by what the
right-hand side is rounded (only to 0, and by less than `EPS`). -/
theorem violation_after_cleaning (l u obj : Vec) (EPS EC : ℚ) (cut : RowCut) (x : Vec) :
    ∃ ρ : ℚ, (ρ = 0 ∨ (|ρ| < EPS ∧ (removeSmallCoefficients l u obj EPS EC cut).lb = 0)) ∧
      violAt (removeSmallCoefficients l u obj EPS EC cut) x =
        violAt cut x - (cut.row.map (dropLoss l u obj EPS EC x)).sum - ρ := by
  unfold violAt
  rw [dropLoss_sum]
  unfold removeSmallCoefficients
  simp only [foldl_sub_eq (fun s : Option (ℕ × ℚ) × ℚ => s.2)]
  split
  · rename_i h
    refine ⟨cut.lb - ((cut.row.map (rscStep l u obj EPS EC)).map (·.2)).sum, Or.inr ⟨by simpa [isZero_iff] using h, rfl⟩, ?_⟩
    ring
  · exact ⟨0, Or.inl rfl, by ring⟩

theorem dropLoss_nonneg {l u obj : Vec} {EPS EC : ℚ} {x : Vec} (hx : InBox l u x) {e : ℕ × ℚ} (he : EPS ≤ |e.2|) :
    0 ≤ dropLoss l u obj EPS EC x e := by
  obtain ⟨hl, hu⟩ := hx e.1
  unfold dropLoss
  rw [if_neg (fun h => absurd h.1 (not_lt.mpr he))]
  split
  · exact mul_nonneg (abs_nonneg _) (by linarith)
  split
  · exact mul_nonneg (abs_nonneg _) (by linarith)
  · exact le_refl _

theorem dropLoss_le {l u obj : Vec} {EPS EC R : ℚ} (hEC : 0 ≤ EC) (hR : 0 ≤ R) {x : Vec} {e : ℕ × ℚ} (he : EPS ≤ |e.2|)
    (hl : isNegInfinity (l e.1) = false → x e.1 - l e.1 ≤ R) (hu : isInfinity (u e.1) = false → u e.1 - x e.1 ≤ R) :
    dropLoss l u obj EPS EC x e ≤ EC * R := by
  unfold dropLoss
  rw [if_neg (fun h => absurd h.1 (not_lt.mpr he))]
  split
  · rename_i h
    exact (mul_le_mul_of_nonneg_left (hl h.2.2) (abs_nonneg _)).trans (mul_le_mul_of_nonneg_right h.1 hR)
  split
  · rename_i h
    exact (mul_le_mul_of_nonneg_left (hu h.2.2) (abs_nonneg _)).trans (mul_le_mul_of_nonneg_right h.1 hR)
  · positivity

/-! ## The cut of a solution of the point-ray LP -/

/-- **C156.** Before cleaning, the cut of any solution is violated by the LP optimum by exactly the right-hand side of the
point-ray LP (exact arithmetic: no coefficient is so small that it is not stored). -/
theorem violation_is_beta {lp : LP} {nz : List ℕ} {β : List ℚ} {beta EPS : ℚ} {nbVar : List ℕ} {x : Vec}
    (ho : NBOrder lp nbVar) (hlen : nbVar.length = lp.numCols) (hne : nz ≠ []) (hsub : nz.Sublist (List.range lp.numCols))
    (hbig : ∀ k < lp.numCols, structCoeff lp (scPairs lp.numCols nz β nbVar) beta k = 0 ∨
      EPS ≤ |structCoeff lp (scPairs lp.numCols nz β nbVar) beta k|) (hx : AtOrigin lp nbVar x) :
    violAt (setCutFromNBCoefficients lp nz β beta nbVar EPS) x = beta := by
  have h1 := (setCut_exact lp nz β beta EPS nbVar (nbOrder_scPairs ho hlen hne hsub) hbig x).1
  rw [nbDot_scPairs lp nz β nbVar x hne (hsub.nodup List.nodup_range)
    (fun j hj => List.mem_range.1 (hsub.subset hj))] at h1
  have h2 : ddot lp.numCols (expand nz β) (fun j => nbCoord lp x (nbVar.getD j 0)) = 0 := by
    unfold ddot
    refine sum_eq_zero fun i hi => ?_
    show expand nz β i * nbCoord lp x (nbVar.getD i 0) = 0
    rw [hx i (mem_range.1 hi), mul_zero]
  rw [h2] at h1
  unfold violAt
  linarith

theorem setCut_length (lp : LP) (nz : List ℕ) (x : List ℚ) (beta : ℚ) (nbVar : List ℕ) (EPS : ℚ) :
    (setCutFromNBCoefficients lp nz x beta nbVar EPS).row.length ≤ lp.numCols := by
  unfold setCutFromNBCoefficients setOsiRowCut
  refine (List.length_filterMap_le _ _).trans ?_
  simp

theorem sum_le_length {l : List ℚ} {c : ℚ} (h : ∀ q ∈ l, q ≤ c) : l.sum ≤ l.length * c := by
  induction l with
  | nil => simp
  | cons a l ih =>
    have h1 := h a (by simp)
    have h2 := ih fun q hq => h q (by simp [hq])
    simp only [List.sum_cons, List.length_cons, Nat.cast_add, Nat.cast_one]
    linarith

/-- The setting of one point-ray LP: the tolerances agree, and the nonbasic variables are in order. -/
structure EnvOk (e : GenEnv) : Prop where
  order : NBOrder e.lp e.nbVar
  len : e.nbVar.length = e.lp.numCols
  ne : e.nz ≠ []
  sub : e.nz.Sublist (List.range e.lp.numCols)
  eps : e.clean.EPS = e.EPS
  pos : 0 ≤ e.EPS

/-- No structural coefficient of the solution is so small that it is not stored. -/
def NoTinyAt (e : GenEnv) (β : List ℚ) : Prop :=
  ∀ k < e.lp.numCols, structCoeff e.lp (scPairs e.lp.numCols e.nz β e.nbVar) e.beta k = 0 ∨
    e.EPS ≤ |structCoeff e.lp (scPairs e.lp.numCols e.nz β e.nbVar) e.beta k|

/-- **C156.** The violation of a cut that passed cleaning, at the LP optimum: the right-hand side of the point-ray LP less
the losses of the coefficients removed, and less the rounding of the right-hand side. -/
theorem collected_violation {e : GenEnv} (he : EnvOk e) {β : List ℚ} {c : RowCut} (hc : CutFrom e β c)
    (hbig : NoTinyAt e β) {x : Vec} (hx : AtOrigin e.lp e.nbVar x) :
    ∃ ρ : ℚ, (ρ = 0 ∨ (|ρ| < e.EPS ∧ c.lb = 0)) ∧
      violAt c x = e.beta - ((setCutFromNBCoefficients e.lp e.nz β e.beta e.nbVar e.EPS).row.map
        (dropLoss e.solver.colLower e.solver.colUpper e.solver.obj e.EPS e.clean.EPS_COEFF x)).sum - ρ := by
  have hcl : c = removeSmallCoefficients e.solver.colLower e.solver.colUpper e.solver.obj e.EPS
      e.clean.EPS_COEFF (setCutFromNBCoefficients e.lp e.nz β e.beta e.nbVar e.EPS) := by
    rw [← he.eps, ← cleanCut_fst e.norm, he.eps, hc]
  obtain ⟨ρ, h1, h2⟩ := violation_after_cleaning e.solver.colLower e.solver.colUpper e.solver.obj e.EPS
    e.clean.EPS_COEFF (setCutFromNBCoefficients e.lp e.nz β e.beta e.nbVar e.EPS) x
  rw [← hcl, violation_is_beta he.order he.len he.ne he.sub hbig hx] at h2
  rw [← hcl] at h1
  exact ⟨ρ, h1, h2⟩

/-- **C156, when the LP optimum is cut off** (partial: needs the bounds to be close enough). If no finite bound is further
than `R` from the LP optimum, the cut is violated there by at least the right-hand side of the point-ray LP less
`numCols · EPS_COEFF · R + EPS`. -/
theorem cuts_off_partial {e : GenEnv} (he : EnvOk e) {β : List ℚ} {c : RowCut} (hc : CutFrom e β c)
    (hbig : NoTinyAt e β) {x : Vec} (hx : AtOrigin e.lp e.nbVar x) {R : ℚ} (hEC : 0 ≤ e.clean.EPS_COEFF) (hR : 0 ≤ R)
    (hl : ∀ k, isNegInfinity (e.solver.colLower k) = false → x k - e.solver.colLower k ≤ R)
    (hu : ∀ k, isInfinity (e.solver.colUpper k) = false → e.solver.colUpper k - x k ≤ R) :
    e.beta - e.lp.numCols * (e.clean.EPS_COEFF * R) - e.EPS ≤ violAt c x := by
  obtain ⟨ρ, h1, h2⟩ := collected_violation he hc hbig hx
  have hs : ((setCutFromNBCoefficients e.lp e.nz β e.beta e.nbVar e.EPS).row.map
      (dropLoss e.solver.colLower e.solver.colUpper e.solver.obj e.EPS e.clean.EPS_COEFF x)).sum ≤
      e.lp.numCols * (e.clean.EPS_COEFF * R) := by
    refine (sum_le_length (c := e.clean.EPS_COEFF * R) fun q hq => ?_).trans ?_
    · obtain ⟨d, hd, rfl⟩ := List.mem_map.1 hq
      exact dropLoss_le hEC hR (setCut_noTiny _ _ _ _ _ _ d hd) (hl _) (hu _)
    · rw [List.length_map]
      have := setCut_length e.lp e.nz β e.beta e.nbVar e.EPS
      exact mul_le_mul_of_nonneg_right (by exact_mod_cast this) (mul_nonneg hEC hR)
  have hρ : ρ ≤ e.EPS := by
    rcases h1 with h | ⟨h, -⟩
    · rw [h]; exact he.pos
    · exact (le_abs_self _).trans h.le
  rw [h2]
  linarith

/-- **C156.** The violation is never more than the right-hand side of the point-ray LP, up to the rounding; so with the
sign of the right-hand side flipped the LP optimum is never cut off. -/
theorem violation_le_beta {e : GenEnv} (he : EnvOk e) {β : List ℚ} {c : RowCut} (hc : CutFrom e β c)
    (hbig : NoTinyAt e β) {x : Vec} (hx : AtOrigin e.lp e.nbVar x) (hbox : InBox e.solver.colLower e.solver.colUpper x) :
    violAt c x ≤ e.beta + e.EPS ∧ (e.beta ≤ -e.EPS → c.Sat x) := by
  obtain ⟨ρ, h1, h2⟩ := collected_violation he hc hbig hx
  have hs : 0 ≤ ((setCutFromNBCoefficients e.lp e.nz β e.beta e.nbVar e.EPS).row.map
      (dropLoss e.solver.colLower e.solver.colUpper e.solver.obj e.EPS e.clean.EPS_COEFF x)).sum := by
    refine List.sum_nonneg fun q hq => ?_
    obtain ⟨d, hd, rfl⟩ := List.mem_map.1 hq
    exact dropLoss_nonneg hbox (setCut_noTiny _ _ _ _ _ _ d hd)
  have hρ : -e.EPS ≤ ρ := by
    rcases h1 with h | ⟨h, -⟩
    · rw [h]; linarith [he.pos]
    · exact (neg_le_neg h.le).trans (neg_abs_le _)
  have hle : violAt c x ≤ e.beta + e.EPS := by rw [h2]; linarith
  refine ⟨hle, fun hb => ?_⟩
  unfold violAt at hle
  unfold RowCut.Sat
  linarith

/-- **C156, the run** (partial as above). Every cut that a run of the loop over objectives adds is violated by the LP
optimum by at least that amount. -/
theorem run_cuts_off_partial {W : TWorld} {L : BuiltLP} (hW : W.Sorts L) {cur : Option (List ℚ)} {g : Gen}
    {st : TSt} (h : targetCuts W L cur g = .ok st) (he : EnvOk W.env)
    (hbig : ∀ a ∈ st.log, ∀ β, a.sol? = some β → NoTinyAt W.env β) {x : Vec} (hx : AtOrigin W.env.lp W.env.nbVar x)
    {R : ℚ} (hEC : 0 ≤ W.env.clean.EPS_COEFF) (hR : 0 ≤ R)
    (hl : ∀ k, isNegInfinity (W.env.solver.colLower k) = false → x k - W.env.solver.colLower k ≤ R)
    (hu : ∀ k, isInfinity (W.env.solver.colUpper k) = false → W.env.solver.colUpper k - x k ≤ R)
    (hroom : W.env.lp.numCols * (W.env.clean.EPS_COEFF * R) + W.env.EPS < W.env.beta) :
    ∀ c ∈ st.g.cuts, c ∈ g.cuts ∨ ¬ c.cut.Sat x := by
  intro c hc
  rcases cuts_from_attempts hW h c hc with h1 | ⟨a, ha, β, hβ, hcf⟩
  · exact .inl h1
  · right
    have := cuts_off_partial he hcf (hbig a ha β hβ) hx hEC hR hl hu
    unfold violAt at this
    unfold RowCut.Sat
    linarith

/-! ## The exception -/

namespace CutsOffEx

/-- Two columns, `0 ≤ x₀ ≤ 10⁷` and `0 ≤ x₁ ≤ 1`, both nonbasic at 0 in the LP optimum; no rows. -/
def lp : LP :=
  { numCols := 2, rows := fun _ => [], sense := fun _ => .L, rhs := fun _ => 0, colLower := fun _ => 0
    colUpper := fun i => if i = 0 then 10 ^ 7 else 1, colStat := fun _ => .atLower }

/-- The tolerances are those of the program; the violation is not checked, as in the nonbasic space. -/
def env : GenEnv :=
  { lp := lp, nbVar := [0, 1], nz := [0, 1], beta := 1, EPS := 1 / 10 ^ 7, MIN_ORTHO := 0
    clean := { EPS_COEFF := 1 / 10 ^ 5, MAX_DYN := 10 ^ 8, MIN_SUP_THRESH := 100, MAX_SUP_ABS := 1000,
               MAX_SUP_REL := 9 / 10, MIN_VIOL_ABS := 1 / 10 ^ 7, MIN_VIOL_REL := 1 / 10 ^ 7,
               MIN_ABS_COEFF := 1, MAX_ABS_COEFF := 1, EPS := 1 / 10 ^ 7, checkViolation := false }
    solver := { numCols := 2, colLower := lp.colLower, colUpper := lp.colUpper, obj := fun _ => 1
                colSolution := fun _ => 0 }
    norm := fun _ => 1
    ortho := fun _ _ => 1 }

/-- The terms `x₀ ≥ 10⁶` and `x₁ ≥ 1` give the points `(10⁶, 0)` and `(0, 1)`, without rays. -/
def outs : List TermOutcome := [.collected [(0, 10 ^ 6)] (10 ^ 6) [], .collected [(1, 1)] 1 []]

def L : BuiltLP := ⟨[0, 1], [1 / 10 ^ 6, 1], [10 ^ 9, 10 ^ 9], [([(1, 1)], 1), ([(0, 10 ^ 6)], 1)]⟩

theorem envOk : EnvOk env where
  order := ⟨⟨[0, 1], [], rfl, by decide, by decide, by decide⟩, fun r e he => by simp [env, lp] at he⟩
  len := rfl
  ne := by decide
  sub := List.Sublist.refl _
  eps := rfl
  pos := by norm_num [env]

theorem origin : AtOrigin lp [0, 1] (fun _ => 0) := by unfold AtOrigin; decide +kernel

theorem noTiny : NoTinyAt env [1 / 10 ^ 6, 1] := by unfold NoTinyAt; decide +kernel

end CutsOffEx

/-- **C156.** A cut may be collected that does not cut off the LP optimum: here the solution of the point-ray LP is the only
vertex and its cut `10⁻⁶ x₀ + x₁ ≥ 1` is violated by 1, but the small coefficient is replaced by its largest value 10, and
what is added to the collection is `x₁ ≥ -9`, which is satisfied by all points of the LP; its effectiveness is 0. -/
theorem collected_but_not_violated : ∃ g', genCutHelper CutsOffEx.env Tri.tG [1 / 10 ^ 6, 1] .TIGHT_POINTS = (g', .num 1) ∧
    g'.cuts = [⟨⟨[(1, 1)], -9⟩, 0⟩] ∧
    violAt (setCutFromNBCoefficients CutsOffEx.lp [0, 1] [1 / 10 ^ 6, 1] 1 [0, 1] (1 / 10 ^ 7)) (fun _ => 0) = 1 ∧
    (∃ sortP : List PRow → List PRow, (∀ l, (sortP l).Perm l) ∧
      prlpSetup sortP (10 ^ 9) (1 / 10 ^ 3) 1 2 (setupConstraints false none CutsOffEx.outs) = some CutsOffEx.L) ∧
    CutsOffEx.L.Feas (10 ^ 9) [1 / 10 ^ 6, 1] ∧
    ∀ x, InBox CutsOffEx.lp.colLower CutsOffEx.lp.colUpper x → RowCut.Sat ⟨[(1, 1)], -9⟩ x := by
  have h : ((genCutHelper CutsOffEx.env Tri.tG [1 / 10 ^ 6, 1] .TIGHT_POINTS).2,
      (genCutHelper CutsOffEx.env Tri.tG [1 / 10 ^ 6, 1] .TIGHT_POINTS).1.cuts) =
      (.num 1, [⟨⟨[(1, 1)], -9⟩, 0⟩]) := by decide +kernel
  rw [Prod.mk.injEq] at h
  refine ⟨_, Prod.ext rfl h.1, h.2, by decide +kernel, ⟨List.reverse, fun l => List.reverse_perm l, by decide +kernel⟩,
    by unfold BuiltLP.Feas; decide +kernel, fun x hx => ?_⟩
  have := (hx 1).1
  simp only [CutsOffEx.lp] at this
  unfold RowCut.Sat
  simp [sdot]
  linarith

/-- Non-vacuity of `collected_violation` and `violation_le_beta`: the same cut. -/
example : ∃ c, CutFrom CutsOffEx.env [1 / 10 ^ 6, 1] c ∧ EnvOk CutsOffEx.env ∧ NoTinyAt CutsOffEx.env [1 / 10 ^ 6, 1] ∧
    AtOrigin CutsOffEx.env.lp CutsOffEx.env.nbVar (fun _ => 0) ∧
    InBox CutsOffEx.env.solver.colLower CutsOffEx.env.solver.colUpper (fun _ => 0) := by
  refine ⟨⟨[(1, 1)], -9⟩, by unfold CutFrom; decide +kernel, CutsOffEx.envOk, CutsOffEx.noTiny, CutsOffEx.origin, fun i => ?_⟩
  simp only [CutsOffEx.env, CutsOffEx.lp]
  split <;> norm_num

/-- Non-vacuity of `run_cuts_off_partial`: the run of `TargetEx`, whose columns have the bounds 0 and 1. -/
example : ∃ st, targetCuts Tri.tW Tri.L none Tri.tG = .ok st ∧ EnvOk Tri.tW.env ∧
    (∀ a ∈ st.log, ∀ β, a.sol? = some β → NoTinyAt Tri.tW.env β) ∧
    AtOrigin Tri.tW.env.lp Tri.tW.env.nbVar Tri.o.sol ∧
    (∀ k, isNegInfinity (Tri.tW.env.solver.colLower k) = false → Tri.o.sol k - Tri.tW.env.solver.colLower k ≤ 1) ∧
    (∀ k, isInfinity (Tri.tW.env.solver.colUpper k) = false → Tri.tW.env.solver.colUpper k - Tri.o.sol k ≤ 1) ∧
    Tri.tW.env.lp.numCols * (Tri.tW.env.clean.EPS_COEFF * 1) + Tri.tW.env.EPS < Tri.tW.env.beta ∧
    st.g.cuts ≠ [] := by
  have hb : (targetCuts Tri.tW Tri.L none Tri.tG).bind (fun st => Res.ok (
      (st.log.all fun a => decide (a.sol? = none ∨ a.sol? = some [1/2, 1/2])) && !st.g.cuts.isEmpty)) = .ok true := by
    decide +kernel
  obtain ⟨st, h, hb⟩ := Res.bind_ok hb
  simp only [Res.ok.injEq, Bool.and_eq_true, List.all_eq_true, decide_eq_true_eq, Bool.not_eq_true',
    List.isEmpty_eq_false_iff] at hb
  refine ⟨st, h, ⟨Tri.nbOk.order, rfl, by decide, List.Sublist.refl _, rfl, by norm_num [Tri.tW, Tri.tEnv]⟩, ?_,
    by unfold AtOrigin; decide +kernel, fun k _ => ?_, fun k _ => ?_, by decide +kernel, hb.2⟩
  · intro a ha β hβ
    rcases hb.1 a ha with h1 | h1
    · rw [h1] at hβ; cases hβ
    · rw [h1, Option.some.injEq] at hβ
      subst hβ
      unfold NoTinyAt; decide +kernel
  · simp only [Tri.tW, Tri.tEnv, Tri.o]
    split <;> norm_num
  · simp only [Tri.tW, Tri.tEnv, Tri.o]
    split <;> norm_num

end VPC
