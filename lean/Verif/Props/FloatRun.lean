import Verif.Props.FloatCut
import Verif.Props.ErrorBoundEx

/-!
# All errors from the disjunction to the cut that is handed out (C157, C03)
-/
namespace VPC

open Finset

/-- **C157, the whole way** (partial as `run_near_partial`). Every point in a term marked feasible and within the bounds
violates the cut that is handed out, computed in floating-point arithmetic from a feasible solution of the point-ray LP, by
at most the tolerances of the code (`errBound`, `EPS`) and the rounding errors (`floatErr`). -/
theorem run_float_partial (hr : RelRnd u rnd) {E : NumEnv} {D : Disj} {P : Relax} {st : RootSt} {o : NBData}
    {strengthen flip : Bool} {w : ℕ → TermWorld} {L : BuiltLP} {INF DIFFEPS scale K R M U EPS EC : ℚ} {x : Vec}
    (h : RunNear E D P st o strengthen flip w L INF DIFFEPS scale K R M U x) (h0 : 0 ≤ EPS)
    (hc : ∀ r, ((o.lp.rows r).map (·.1)).Nodup) {t : Term}
    (ht : t ∈ D.terms) (hf : t.feasible = true) (hx : InTerm P D t x)
    (hi : ∀ c ∈ D.commonIneqs, c.Sat x) {β : List ℚ} (hβ : L.Feas INF β) {l hi' obj : Vec} (hbox : InBox l hi' x) :
    violAt (removeSmallCoefficientsR rnd l hi' obj EPS EC
        (setCutFromNBCoefficientsR rnd o.lp L.nz β ((if flip then -1 else 1) * scale) o.nb EPS)) x ≤
      floatErr u rnd o.lp l hi' L.nz β ((if flip then -1 else 1) * scale) o.nb EPS EC x +
        (errBound E EPS DIFFEPS scale K R M U o.lp.numCols (expand L.nz β) x + EPS * ∑ k ∈ range o.lp.numCols, |x k|) := by
  have h1 := run_near_partial h h0 ht hf hx hi hβ
  obtain ⟨cost, offset, rows, D', sortP, -, -, -, -, -, h6⟩ := h.prlp
  have ho : NBOrder o.lp ((scPairs o.lp.numCols L.nz β o.nb).map (·.1)) :=
    nbOrder_scPairs h.nb.order h.nb.len h.nz (prlpSetup_nz_sublist h6)
  have h2 := setCut_error_bound o.lp L.nz β ((if flip then -1 else 1) * scale) EPS o.nb x ho h0
  simp only at h2
  have h3 := (neg_le_neg h2).trans (neg_abs_le _)
  have h3' := (le_abs_self _).trans h2
  refine float_cut_valid hr hc h0 ho hbox ?_
  unfold cutOf at h1
  linarith

/-- Non-vacuity of `run_float_partial`: the run `Tri` in double precision at the point `(0, 0)`, whose bound is small. -/
example : RelRnd (1 / 2 ^ 53) (fl 53) ∧ (∀ r, ((Tri.o.lp.rows r).map (·.1)).Nodup) ∧
    violAt (removeSmallCoefficientsR (fl 53) (fun _ => 0) (fun _ => 1) (fun _ => 1) (1 / 10000000) (1 / 100000)
        (setCutFromNBCoefficientsR (fl 53) Tri.o.lp Tri.L.nz [1 / 2, 1 / 2] ((if false then -1 else 1) * 1) Tri.o.nb
          (1 / 10000000))) (fun _ => 0) ≤ 1 / 10 := by
  have hn : ∀ r, ((Tri.o.lp.rows r).map (·.1)).Nodup := by
    intro r
    show ((if r = 0 then [(0, -2), (1, 1)] else if r = 1 then [(0, 2), (1, 1)] else [] : SVec).map (·.1)).Nodup
    split_ifs <;> decide +kernel
  refine ⟨fl_relRnd 53, hn, (run_float_partial (fl_relRnd 53) Tri.runNear (by norm_num) hn (t := Tri.t0) (by simp [Tri.D]) rfl
    ⟨by decide +kernel, by simp [Tri.D, Disj.new], by simp [Tri.t0, BChange.Sat], by simp [Tri.t0]⟩
    (by simp [Tri.D, Disj.new]) Tri.feasβ (fun i => by norm_num)).trans ?_⟩
  decide +kernel

end VPC
