import Verif.Props.Separate
import Verif.Props.CollectLive

/-!
# C150: a disjunction that moves the bound gives cuts
-/
namespace VPC
open Finset

/-- Along every ray collected the objective does not get better (`rc`: reduced costs of the LP relaxation). -/
def RaysCostly (terms : List (SVec × List SVec)) (rc : Vec) : Prop := ∀ t ∈ terms, ∀ r ∈ t.2, 0 ≤ sdot r rc

/-- Every point collected is worse than the LP optimum by at least `D`. -/
def BoundMoved (terms : List (SVec × List SVec)) (rc : Vec) (D : ℚ) : Prop := ∀ t ∈ terms, D ≤ sdot t.1 rc

instance (terms : List (SVec × List SVec)) (rc : Vec) : Decidable (RaysCostly terms rc) := by
  unfold RaysCostly; infer_instance
instance (terms : List (SVec × List SVec)) (rc : Vec) (D : ℚ) : Decidable (BoundMoved terms rc D) := by
  unfold BoundMoved; infer_instance

/-- **C150.** The objective cut: if every term is worse than the LP optimum by at least `D`, the inequality that the objective
increases by `D` is valid for the disjunctive hull. -/
theorem objective_cut_valid {n : ℕ} {terms : List (SVec × List SVec)} (hi : IdxBelow n terms) {rc : Vec} {D : ℚ}
    (hr : RaysCostly terms rc) (hb : BoundMoved terms rc D) : ValidCut n terms rc D :=
  (hull_valid_iff n terms rc D hi).2 fun t ht => ⟨hb t ht, hr t ht⟩

/-- **C150.** If every term is worse than the LP optimum by at least `D > 0`, the point-ray LP has a solution, and an optimal
solution for an objective is no worse than the objective cut; at a point that violates the objective cut it is violated too. -/
theorem bound_moved_gives_cut {sortP : List PRow → List PRow} (hsort : ∀ l, (sortP l).Perm l) {INF DIFFEPS scale : ℚ}
    {n : ℕ} {ip : Option (SVec × ℚ)} {outs : List TermOutcome} (hscale : 0 < scale)
    (hwf : WellFormed scale n (setupConstraints false ip outs)) (hi : IdxBelow n (collectedTerms ip outs))
    {L : BuiltLP} (hL : prlpSetup sortP INF DIFFEPS scale n (setupConstraints false ip outs) = some L)
    {rc : Vec} {D : ℚ} (hD : 0 < D) (hr : RaysCostly (collectedTerms ip outs) rc)
    (hb : BoundMoved (collectedTerms ip outs) rc D) :
    ¬ L.NoSolution INF ∧
      ∀ p : SVec, (∀ e ∈ p, e.1 ∈ L.nz) → ∀ β, L.Optimal INF (L.nz.map (scoef p)) β →
        sdot p (expand L.nz β) ≤ scale * (sdot p rc / D) ∧ (sdot p rc < D → sdot p (expand L.nz β) < scale) := by
  have hv := objective_cut_valid hi hr hb
  refine ⟨fun hno => (no_solution_no_cut hsort hscale hwf hi hL hno).1 rc D hD hv, fun p hp β hopt => ?_⟩
  have hv' := valid_scaled hv (c := scale / D) (by positivity)
  rw [div_mul_cancel₀ _ hD.ne'] at hv'
  have h := optimal_strongest_at hsort hwf hi hL hp hopt hv'
  have hs : sdot p (fun j => scale / D * rc j) = scale / D * sdot p rc := by
    unfold sdot
    rw [← List.sum_map_mul_left]
    congr 1
    exact List.map_congr_left fun e _ => by ring
  rw [hs] at h
  refine ⟨by calc _ ≤ scale / D * sdot p rc := h.1
               _ = _ := by ring, fun hlt => h.2 ?_⟩
  calc scale / D * sdot p rc < scale / D * D := mul_lt_mul_of_pos_left hlt (by positivity)
    _ = scale := div_mul_cancel₀ _ hD.ne'

/-- **C150.** So if the point-ray LP has no solution, some term has an optimal value no worse than the LP relaxation. -/
theorem no_solution_bound_not_moved {sortP : List PRow → List PRow} (hsort : ∀ l, (sortP l).Perm l) {INF DIFFEPS scale : ℚ}
    {n : ℕ} {ip : Option (SVec × ℚ)} {outs : List TermOutcome} (hscale : 0 < scale)
    (hwf : WellFormed scale n (setupConstraints false ip outs)) (hi : IdxBelow n (collectedTerms ip outs))
    {L : BuiltLP} (hL : prlpSetup sortP INF DIFFEPS scale n (setupConstraints false ip outs) = some L)
    {rc : Vec} (hr : RaysCostly (collectedTerms ip outs) rc) (hno : L.NoSolution INF) :
    ∃ t ∈ collectedTerms ip outs, sdot t.1 rc ≤ 0 := by
  by_contra hc
  push Not at hc
  obtain ⟨D, hD, hb⟩ : ∃ D > 0, BoundMoved (collectedTerms ip outs) rc D := by
    clear hi hr hno hL hwf
    generalize collectedTerms ip outs = terms at hc
    unfold BoundMoved
    induction terms with
    | nil => exact ⟨1, by norm_num, by simp⟩
    | cons t ts ih =>
      obtain ⟨D, hD, h⟩ := ih fun s hs => hc s (by simp [hs])
      refine ⟨min D (sdot t.1 rc), lt_min hD (hc t (by simp)), fun s hs => ?_⟩
      rcases List.mem_cons.1 hs with rfl | hs
      · exact min_le_right _ _
      · exact (min_le_left _ _).trans (h s hs)
  exact (bound_moved_gives_cut hsort hscale hwf hi hL hD hr hb).1 hno

/-- Non-vacuity: two terms, `(1, 0)` with the ray `(1, 1)` and `(0, 2)` with the ray `(2, -1)`; the objective gets worse by at
least 1. -/
def boundOuts : List TermOutcome := [.collected [(0, 1)] 1 [([(0, 1), (1, 1)], 2)], .collected [(1, 2)] 2 [([(0, 2), (1, -1)], 1)]]

example : ∃ L, prlpSetup id dblMax (1/1000) 1 2 (setupConstraints false none boundOuts) = some L ∧ ¬ L.NoSolution dblMax := by
  obtain ⟨L, hL⟩ := Option.isSome_iff_exists.1
    (by decide +kernel : (prlpSetup id dblMax (1/1000) 1 2 (setupConstraints false none boundOuts)).isSome = true)
  refine ⟨L, hL, (bound_moved_gives_cut (fun l => List.Perm.refl l) one_pos ⟨by decide +kernel, ?_, by decide +kernel⟩
    (by unfold IdxBelow; decide +kernel) hL (rc := fun _ => 1) one_pos (by decide +kernel) (by decide +kernel)).1⟩
  intro r hr j c hv h0
  have : r ∈ [⟨[(0, 1)], 1, 1⟩, ⟨[(0, 1), (1, 1)], 0, 2⟩, ⟨[(1, 2)], 1, 2⟩, (⟨[(0, 2), (1, -1)], 0, 1⟩ : PRow)] := hr
  simp only [List.mem_cons, List.not_mem_nil, or_false] at this
  rcases this with rfl | rfl | rfl | rfl
  · norm_num at h0
  · simp at hv
  · norm_num at h0
  · simp at hv

/-- Non-vacuity of `no_solution_bound_not_moved`: in the example of C147, with reduced costs `(0, 1)`, the first term is as good
as the LP optimum. -/
example : RaysCostly (collectedTerms none noCutOuts) (fun j => if j = 1 then 1 else 0) ∧
    ¬ BoundMoved (collectedTerms none noCutOuts) (fun j => if j = 1 then 1 else 0) 1 := by
  exact ⟨by decide +kernel, by decide +kernel⟩

/-! ## From the terms solved -/

theorem packed_dot {base : SVec} {vals : List ℚ} {rc : Vec} (hnd : (base.map (·.1)).Nodup)
    (htrue : ∀ e ∈ base, vals[e.1]? = some e.2)
    (hall : ∀ (i : ℕ) (v : ℚ), vals[i]? = some v → v ≠ 0 → (i, v) ∈ base) :
    sdot base rc = ∑ i ∈ range vals.length, rc i * vals.getD i 0 := by
  have hlt : ∀ e ∈ base, e.1 < vals.length := by
    intro e he
    have := htrue e he
    by_contra hc
    rw [List.getElem?_eq_none (by omega)] at this
    cases this
  rw [sdot_eq_sum vals.length base rc hlt]
  refine sum_congr rfl fun i hi => ?_
  rw [mem_range] at hi
  have hv : vals[i]? = some vals[i] := List.getElem?_eq_getElem hi
  rw [scoef_packed hnd htrue hall hv, List.getD_eq_getElem?_getD, hv, Option.getD_some, mul_comm]

theorem sdot_scaled (base : SVec) (c : ℚ) (x : Vec) : sdot (base.map fun e => (e.1, e.2 * c)) x = sdot base x * c := by
  unfold sdot
  rw [List.map_map, ← List.sum_map_mul_right]
  congr 1
  exact List.map_congr_left fun e _ => by simp only [Function.comp]; ring

/-- What is collected for a correctly solved term has the objective values of the term: the point its distance from the LP
optimum, the rays nonnegative slopes. -/
theorem genDepth1_costs {E : NumEnv} (hsort : ∀ l, (E.sortDecr l).Perm l) {V Q : Relax} {o : NBData} {s : TermSol}
    {cost : Vec} (hV : NBOk V o) (hQ : Refines V Q) (hidx : Q.Idx) (hs : TermSolOk Q s) (hrc : RcOk V o cost)
    (hob : TermObjOk Q o s cost) (hE : 0 < E.EPS) (hR : 0 < E.RAYEPS) (hnt : NoTiny E o s) {p : SVec} {d : ℚ}
    {rays : List (SVec × ℚ)} (h : genDepth1 E o s = .ok (.collected p d rays)) :
    sdot p o.rc = s.obj - o.obj ∧ ∀ r ∈ rays.map (·.1), 0 ≤ sdot r o.rc := by
  have h' := genDepth1_ok h
  simp only [TermOutcome.collected.injEq] at h'
  obtain ⟨hp, -, hr⟩ := h'
  constructor
  · rw [hp]
    obtain ⟨h1, h2, -⟩ := packCoor_spec E.sortDecr hsort E.EPS (s.obj - o.obj) o.rc (o.nb.map (compCoor o.lp o.sol s.x))
    unfold setCompNBCoorPoint
    rw [packed_dot (packCoor_nodup E.sortDecr hsort E.EPS (s.obj - o.obj) o.rc _) h1 (by
      intro i v hv h0
      refine h2 i v hv ?_
      rw [List.getElem?_map, Option.map_eq_some_iff] at hv
      obtain ⟨k, hk, rfl⟩ := hv
      rcases hnt.1 k (List.mem_of_getElem? hk) with hz | hz
      · exact absurd hz h0
      · exact hz)]
    rw [point_value hV hQ hrc hs.feas, hob.obj]
  · intro r hrm
    obtain ⟨q, hq, rfl⟩ := List.mem_map.1 hrm
    rw [hr] at hq
    obtain ⟨j, hj, rfl⟩ := List.mem_map.1 hq
    obtain ⟨hjn, hjk⟩ := List.mem_filter.1 hj
    have hf : s.isFixed j = false := by
      unfold rayKept at hjk
      simp only [Bool.and_eq_true, Bool.not_eq_true'] at hjk
      exact hjk.1
    have hspec := packRay_spec E.sortDecr hsort E.expo E.EPS E.RAYEPS (s.rayObj j) o.rc (rayVals o s j)
    dsimp only at hspec
    obtain ⟨hpos, base, hb, hnd, h1, h2, -⟩ := hspec
    show 0 ≤ sdot (rayOf E o s j).1 o.rc
    unfold rayOf
    rw [hb, sdot_scaled]
    refine mul_nonneg ?_ hpos.le
    rw [packed_dot hnd h1 (by
      intro i v hv h0
      refine h2 i v hv ?_
      rcases hnt.2 j hjn v (List.mem_of_getElem? hv) with hz | hz
      · exact absurd hz h0
      · exact hz), ← ray_slope hV hQ hidx hs hrc hob.full hjn, ← hob.slope j hjn hf]
    exact hob.opt j hjn hf

/-- The outcomes of the terms: each that was collected comes from a correctly solved relaxation of its term, whose value is
worse than the value of the LP relaxation by at least `D`. -/
def SolvedTerms (E : NumEnv) (V : Relax) (o : NBData) (cost : Vec) (D : ℚ) (outs : List TermOutcome) : Prop :=
  ∀ p d rays, TermOutcome.collected p d rays ∈ outs → ∃ (Q : Relax) (s : TermSol), Refines V Q ∧ Q.Idx ∧ TermSolOk Q s ∧
    TermObjOk Q o s cost ∧ NoTiny E o s ∧ D ≤ s.obj - o.obj ∧ genDepth1 E o s = .ok (.collected p d rays)

/-- **C150, for a run.** If every term collected was solved correctly and its LP value is worse than that of the LP relaxation,
then the point-ray LP built from what the code collects has a solution: there is a cut, and `PRLP_INFEASIBLE` is not true. -/
theorem better_terms_give_cut {E : NumEnv} (hsort : ∀ l, (E.sortDecr l).Perm l) {V : Relax} {o : NBData} {cost : Vec}
    (hV : NBOk V o) (hrc : RcOk V o cost) (hE : 0 < E.EPS) (hR : 0 < E.RAYEPS) {D : ℚ} (hD : 0 < D)
    {outs : List TermOutcome} (hout : SolvedTerms E V o cost D outs)
    {sortP : List PRow → List PRow} (hsortP : ∀ l, (sortP l).Perm l) {INF DIFFEPS scale : ℚ} {n : ℕ} (hscale : 0 < scale)
    (hwf : WellFormed scale n (setupConstraints false none outs)) (hi : IdxBelow n (collectedTerms none outs))
    {L : BuiltLP} (hL : prlpSetup sortP INF DIFFEPS scale n (setupConstraints false none outs) = some L) :
    ValidCut n (collectedTerms none outs) o.rc D ∧ ¬ L.NoSolution INF := by
  have key : ∀ t ∈ collectedTerms none outs, D ≤ sdot t.1 o.rc ∧ ∀ r ∈ t.2, 0 ≤ sdot r o.rc := by
    intro t ht
    unfold collectedTerms at ht
    simp only [List.nil_append] at ht
    obtain ⟨oc, hoc, hto⟩ := List.mem_filterMap.1 ht
    cases oc with
    | infeasible => simp at hto
    | notOptimal => simp at hto
    | timeLimit => simp at hto
    | collected p d rays =>
      simp only [Option.some.injEq] at hto
      subst hto
      obtain ⟨Q, s, hQ, hidx, hs, hob, hnt, hDs, hg⟩ := hout p d rays hoc
      obtain ⟨h1, h2⟩ := genDepth1_costs hsort hV hQ hidx hs hrc hob hE hR hnt hg
      exact ⟨by rw [h1]; exact hDs, h2⟩
  have hr : RaysCostly (collectedTerms none outs) o.rc := fun t ht => (key t ht).2
  have hb : BoundMoved (collectedTerms none outs) o.rc D := fun t ht => (key t ht).1
  exact ⟨objective_cut_valid hi hr hb, (bound_moved_gives_cut hsortP hscale hwf hi hL hD hr hb).1⟩

namespace Tri

/-- What is collected for the two terms of the example of `EndToEndEx`. -/
def outs : List TermOutcome :=
  [.collected [(1, 2)] 1 [([(1, 4)], 2), ([(0, 1), (1, 1)], 1)],
   .collected [(0, 2)] 1 [([(0, 4)], 2), ([(0, 1), (1, 1)], 1)]]

theorem solvedTerms : SolvedTerms E V o cost 1 outs := by
  have h0 : Refines V Q0 ∧ Q0.Idx := termLP_refines termOk0 V_idx (by decide +kernel)
  have h1 : Refines V Q1 ∧ Q1.Idx := termLP_refines termOk1 V_idx (by decide +kernel)
  have g0 : genDepth1 E o s0 = .ok (.collected [(1, 2)] 1 [([(1, 4)], 2), ([(0, 1), (1, 1)], 1)]) := by decide +kernel
  have g1 : genDepth1 E o s1 = .ok (.collected [(0, 2)] 1 [([(0, 4)], 2), ([(0, 1), (1, 1)], 1)]) := by decide +kernel
  intro p d rays h
  simp only [outs, List.mem_cons, List.not_mem_nil, or_false] at h
  rcases h with h | h
  · exact ⟨Q0, s0, h0.1, h0.2, sol0, objOk0, noTiny0, by decide +kernel, by rw [g0, h]⟩
  · exact ⟨Q1, s1, h1.1, h1.2, sol1, objOk1, noTiny1, by decide +kernel, by rw [g1, h]⟩

/-- Non-vacuity: in the example the LP value is -1 and both terms have the value 0; the point-ray LP has a solution. -/
example : ValidCut 2 (collectedTerms none outs) o.rc 1 ∧ ¬ L.NoSolution 1000000 := by
  have hr : setupConstraints false none outs = rows := by decide +kernel
  refine better_terms_give_cut (E := E) (fun l => List.Perm.refl l) nbOk rcOk (by decide +kernel) (by decide +kernel) one_pos
    solvedTerms (sortP := id) (fun l => List.Perm.refl l) one_pos (hr ▸ wf) (by unfold IdxBelow; decide +kernel)
    (by rw [hr]; exact prlp_eq)

end Tri

end VPC
