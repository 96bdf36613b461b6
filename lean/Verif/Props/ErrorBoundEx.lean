import Verif.Props.ErrorBound
import Verif.Props.TargetEx

/-! # Non-vacuity of the error bounds -/
namespace VPC.Tri
open Finset

/-- Tolerances so large that coordinates of points and rays are dropped. -/
def E3 : NumEnv := ⟨id, fun _ => 0, 3, 3, 1/1000⟩

/-- With these tolerances the vertex of the first term (coordinates `(0, 2)`) and one of its rays lose
all their coordinates, and the other ray keeps only its large one: exact membership in the cone fails,
the bound of `term_cone_near_partial` holds. -/
example : ∃ d rays, genDepth1 E3 o s0 = .ok (.collected [] d rays) ∧
    (rays.map (·.1) = [[(1, 4)]]) ∧
    ¬ InTermCone 2 [] [[(1, 4)]] (fun i => nbCoord o.lp (fun j => if j = 0 then 0 else -1) (o.nb.getD i 0)) ∧
    NearTermCone o.lp.numCols [] (rays.map (·.1)) (fun i => nbCoord o.lp (fun _ => 0) (o.nb.getD i 0))
      (E3.EPS + E3.RAYEPS * moveSum Q0 s0 (fun _ => 0)) (rayUnits E3 o Q0 s0 (fun _ => 0)) := by
  have hg : genDepth1 E3 o s0 = .ok (.collected [] 1 [([(1, 4)], 2)]) := by decide +kernel
  refine ⟨1, [([(1, 4)], 2)], hg, rfl, ?_, ?_⟩
  · rintro ⟨w, -, -, h⟩
    have h1 := h 0 (by norm_num)
    have h2 : nbCoord o.lp (fun j => if j = 0 then 0 else -1) (o.nb.getD 0 0) = 1 := by decide +kernel
    simp only [h2] at h1
    have h3 : ((w.zip [[(1, (4 : ℚ))]]).map fun q => q.1 * scoef q.2 0).sum = 0 := by
      cases w with
      | nil => simp
      | cons a w => simp [scoef]
    rw [h3] at h1
    simp [scoef] at h1
  · exact term_cone_near_partial (fun l => List.Perm.refl l) nbOk
      (termLP_refines termOk0 V_idx (by decide +kernel : termLP V t0 = .ok Q0)).1
      (termLP_refines termOk0 V_idx (by decide +kernel : termLP V t0 = .ok Q0)).2 sol0
      (by norm_num [E3]) (by norm_num [E3]) hg (by decide +kernel)

theorem spread : Spread (1/1000) 5 4 rows where
  one := by norm_num
  ratio := by
    have : ∀ r ∈ rows, ∀ r2 ∈ rows, ∀ i < 2, (1/1000 : ℚ) ≤ |scoef r.vec i| →
        1/1000 ≤ |scoef r2.vec i| → |scoef r.vec i| + 1/1000 ≤ 5 * |scoef r2.vec i| := by decide +kernel
    intro r hr r2 hr2 i h1 h2
    by_cases hi : i < 2
    · exact this r hr r2 hr2 i hi h1 h2
    · have : scoef r.vec i = 0 := scoef_eq_zero_of_forall_ne (by
        intro e he heq
        have := wf.idx r hr e he
        omega)
      rw [this] at h1
      norm_num at h1
  size := by
    have : ∀ r ∈ rows, ∀ i < 2, |scoef r.vec i| ≤ 4 := by decide +kernel
    intro r hr i
    by_cases hi : i < 2
    · exact this r hr i hi
    · have : scoef r.vec i = 0 := scoef_eq_zero_of_forall_ne (by
        intro e he heq
        have := wf.idx r hr e he
        omega)
      rw [this]; norm_num
  sorted := by decide +kernel

/-- Non-vacuity of `vpc_error_bound_partial`: the run `Tri` with its real tolerances and the point
`(0, 0)`; the cut `-x1 ≥ 0` is satisfied up to the bound. -/
example : ∃ b, 0 < b ∧ b < 1/100 ∧ (cutOf o L [1/2, 1/2] false 1 (1/10000000)).lb ≤
    sdot (cutOf o L [1/2, 1/2] false 1 (1/10000000)).row (fun _ => 0) + b := by
  refine ⟨_, ?_, ?_, vpc_error_bound_partial (E := E) (fun l => List.Perm.refl l) (by norm_num [E])
    (by norm_num [E]) nbOk rows_eq
    (sortP := id) (fun l => List.Perm.refl l) (INF := 1000000) (DIFFEPS := 1/1000) (EPS := 1/10000000)
    (scale := 1) (K := 5) (R := 4) (by norm_num) (by norm_num) (by norm_num) (by norm_num) (by norm_num)
    wf exact_rows.noReplace spread prlp_eq (by decide) feasβ
    (x := fun _ => 0) (by decide +kernel) (i := 0) (t := t0) rfl rfl termOk0 (M := 0) (U := 0)
    (le_refl _)
    ⟨rfl, fun Q h => by
      rw [lp0 h]
      exact ⟨sol0, by decide +kernel, by decide +kernel⟩, by simp, by simp⟩
    (by simp [t0, BChange.Sat]) (by simp [t0])⟩
  · decide +kernel
  · decide +kernel

/-- The run `Tri` meets the hypotheses of `run_near_partial` for the point `(0, 0)`. -/
theorem runNear : RunNear E D V ⟨V, []⟩ o false false w L 1000000 (1/1000) 1 5 4 10 10 (fun _ => 0) where
  sort := fun l => List.Perm.refl l
  eps := by norm_num [E]
  pos := by norm_num
  root := ⟨1, fun _ => false, fun _ => false, fun _ => none, by decide +kernel⟩
  nb := nbOk
  prlp := ⟨cost, 0, rows, _, id, rows_eq, fun l => List.Perm.refl l, wf, exact_rows.noReplace, spread,
    prlp_eq⟩
  nz := by decide
  terms := (runOk (fun _ => 0)).terms
  world := by
    intro i t h
    match i, h with
    | 0, h =>
      simp only [D, List.getElem?_cons_zero, Option.some.injEq] at h; subst h
      exact ⟨rfl, fun Q h => by
        rw [lp0 h]; exact ⟨sol0, by decide +kernel, by decide +kernel⟩, by simp, by simp⟩
    | 1, h =>
      simp only [D, List.getElem?_cons_succ, List.getElem?_cons_zero, Option.some.injEq] at h
      subst h
      exact ⟨rfl, fun Q h => by
        rw [lp1 h]; exact ⟨sol1, by decide +kernel, by decide +kernel⟩, by simp, by simp⟩
    | i + 2, h => simp [D] at h

/-- Non-vacuity of `run_near_partial` and `target_cuts_near_partial`. -/
example : ∃ st, targetCuts tW L none tG = .ok st ∧ st.g.cuts ≠ [] ∧
    ∀ c ∈ st.g.cuts, c ∈ tG.cuts ∨ ∃ a ∈ st.log, ∃ β, a.sol? = some β ∧
      c.cut.lb ≤ sdot c.cut.row (fun _ => 0) +
        errBound E tW.env.EPS (1/1000) 1 5 4 10 10 o.lp.numCols (expand L.nz β) (fun _ => 0) + tW.env.EPS := by
  obtain ⟨st, h, -⟩ := Res.bind_ok tRun_sol
  have hb : InBox tW.env.solver.colLower tW.env.solver.colUpper (fun _ => 0) := by
    have hb0 : ∀ i, (0 : ℚ) ≤ (fun _ => 0 : Vec) i ∧ (fun _ => 0 : Vec) i ≤ 1 := fun i => by norm_num
    exact hb0
  refine ⟨st, h, ?_, target_cuts_near_partial tWF tSorts tTruthful h ⟨rfl, rfl, rfl, by decide +kernel⟩ rfl
      (by decide +kernel) runNear (t := t0) (by simp [D]) rfl
      ⟨by decide +kernel, by simp [D, Disj.new], by simp [t0, BChange.Sat], by simp [t0]⟩
      (by simp [D, Disj.new]) hb⟩
  have : (targetCuts tW L none tG).bind (fun st => .ok (st.g.cuts.length)) ≠ .ok 0 := by decide +kernel
  intro h0
  apply this
  rw [h]
  simp [Res.bind, h0]

end VPC.Tri
