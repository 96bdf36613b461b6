import Verif.Model.CpxData
import Verif.Props.Solver

/-!
# A CPLEX problem converted and loaded is the same problem (C125)
-/
namespace VPC

/-! ## Specification -/

/-- Column `j` as described by the arrays `start`, `index`, `value`. -/
def CpxOut.col (d : CpxOut) (j : ℕ) : SVec :=
  (d.mat.take (d.start.getD (j + 1) 0)).drop (d.start.getD j 0)

/-- Activity of row `i` of a matrix given by columns. -/
def colAct (cols : List SVec) (i : ℕ) (x : Vec) : ℚ :=
  (cols.zipIdx.map fun c => scoef c.1 i * x c.2).sum

/-- CPLEX's `CPX_INFBOUND`. -/
def cpxInf : ℚ := 10 ^ 20

/-- A row of a CPLEX problem holds (for the senses G, L, E). -/
def cpxRowOk (r : Char × ℚ) (act : ℚ) : Prop :=
  (r.1 = 'G' → r.2 ≤ act) ∧ (r.1 = 'L' → act ≤ r.2) ∧ (r.1 = 'E' → act = r.2)

/-- A value is allowed for a CPLEX column: bounds beyond `CPX_INFBOUND` do not count; binary (`B`) and
integer (`I`) variables are integers, semicontinuous ones (`S`) may also be zero. -/
def cpxColOk (isMip : Bool) (c : CpxCol) (v : ℚ) : Prop :=
  (((c.lb ≤ -cpxInf ∨ c.lb ≤ v) ∧ (cpxInf ≤ c.ub ∨ v ≤ c.ub)) ∨ (isMip = true ∧ c.ctype = 'S' ∧ v = 0)) ∧
  (isMip = true → (c.ctype = 'B' ∨ c.ctype = 'I') → ∃ k : ℤ, v = k)

/-- The solutions of a CPLEX problem. -/
def CpxProb.Sol (p : CpxProb) (x : Vec) : Prop :=
  (∀ i r, p.rows[i]? = some r → cpxRowOk r (colAct (p.cols.map (·.entries)) i x)) ∧
  ∀ j c, p.cols[j]? = some c → cpxColOk p.isMip c (x j)

/-- The solutions of the problem an Osi solver holds after loading: columns from the arrays, row and column
bounds as numbers with the largest double as infinity, integrality as set by the loader. -/
def LoadedSol (d : CpxOut) (vars : List LoadedVar) (x : Vec) : Prop :=
  (∀ i b, d.rowbd[i]? = some b → ∃ l u, b = some (l, u) ∧
    (l ≤ -dblMax ∨ l ≤ colAct ((List.range d.obj.length).map d.col) i x) ∧
    (dblMax ≤ u ∨ colAct ((List.range d.obj.length).map d.col) i x ≤ u)) ∧
  ∀ j v, vars[j]? = some v → (v.lb ≤ -dblMax ∨ v.lb ≤ x j) ∧ (dblMax ≤ v.ub ∨ x j ≤ v.ub) ∧
    (v.isInt = true → ∃ k : ℤ, x j = k)

/-! ## The matrix -/

theorem nz_eq (p : CpxProb) : p.nz = (p.cols.map fun c => c.entries.length).sum := by
  unfold CpxProb.nz
  rw [List.take_of_length_le (by simp)]

theorem mat_length (p : CpxProb) : p.mat.length = p.nz := by
  rw [nz_eq]
  simp [CpxProb.mat, List.length_flatten, Function.comp_def]

/-- Number of nonzeros before column `j`. -/
def CpxProb.pre (p : CpxProb) (j : ℕ) : ℕ := ((p.cols.map fun c => c.entries.length).take j).sum

theorem pre_all (p : CpxProb) : p.pre p.cols.length = p.nz := rfl

theorem beg_eq (p : CpxProb) (j : ℕ) (h : j < p.cols.length) : p.beg j = p.pre j := by
  simp [CpxProb.beg, CpxProb.pre, h]

theorem cpxColEnd_eq (p : CpxProb) (j : ℕ) (h : j < p.cols.length) : cpxColEnd p j = p.pre (j + 1) := by
  unfold cpxColEnd
  split
  · exact beg_eq p _ (by omega)
  · rw [show j + 1 = p.cols.length by omega, pre_all]

theorem flatten_slice {α : Type} (L : List (List α)) (j : ℕ) (h : j < L.length) :
    (L.flatten.take ((L.map List.length).take (j + 1)).sum).drop ((L.map List.length).take j).sum = L[j] := by
  induction L generalizing j with
  | nil => simp at h
  | cons a L ih =>
    cases j with
    | zero => simp
    | succ j =>
      have := ih j (by simpa using h)
      simp only [List.map_cons, List.take_succ_cons, List.sum_cons, List.flatten_cons,
        List.getElem_cons_succ]
      rw [List.take_length_add_append, List.drop_length_add_append]
      simpa using this

theorem copy_slice (p : CpxProb) (j : ℕ) (h : j < p.cols.length) :
    (p.mat.take (cpxColEnd p j)).drop (p.beg j) = p.cols[j].entries := by
  rw [cpxColEnd_eq p j h, beg_eq p j h]
  have := flatten_slice (p.cols.map (·.entries)) j (by simpa using h)
  rw [List.map_map] at this
  rw [List.getElem_map] at this
  exact this

theorem copy_prefix (p : CpxProb) (k : ℕ) (h : k ≤ p.cols.length) :
    (List.range k).foldl (copyCpxCol p) ([], []) =
      ((List.range k).map p.pre, ((p.cols.take k).map (·.entries)).flatten) := by
  induction k with
  | zero => rfl
  | succ k ih =>
    have hk : k < p.cols.length := h
    rw [List.range_succ, List.foldl_append, ih (by omega)]
    simp only [List.foldl_cons, List.foldl_nil, copyCpxCol, copy_slice p k hk]
    rw [List.map_append, List.take_succ_eq_append_getElem hk, List.map_append, List.flatten_append]
    congr 2
    · simp [CpxProb.pre, List.length_flatten, Function.comp_def, List.map_take]
    · simp

theorem copyCpxCols_eq (p : CpxProb) :
    copyCpxCols p = ((List.range (p.cols.length + 1)).map p.pre, p.mat) := by
  unfold copyCpxCols
  rw [copy_prefix p _ le_rfl]
  simp only [List.take_length]
  rw [List.range_succ, List.map_append]
  have h1 : ((p.cols.map (·.entries)).flatten).length = p.pre p.cols.length := mat_length p
  rw [h1]
  rfl

/-- **C125, matrix.** When something is written, column `j` of the arrays is column `j` of the problem,
and the arrays end where the matrix ends. -/
theorem cpx_columns (p : CpxProb) (d : CpxOut) (h : (convertCpx p).2 = some d) (j : ℕ) (c : CpxCol)
    (hc : p.cols[j]? = some c) :
    d.col j = c.entries ∧ d.start.length = p.cols.length + 1 ∧ d.start[p.cols.length]? = some d.mat.length ∧
      d.mat.length = p.nz := by
  unfold convertCpx at h
  split at h
  · cases h
  · simp only [Option.some.injEq] at h
    subst h
    obtain ⟨hj, rfl⟩ := List.getElem?_eq_some_iff.mp hc
    have hl : p.mat.length = p.nz := mat_length p
    refine ⟨?_, ?_, ?_, ?_⟩
    · simp only [CpxOut.col, cpxWrite, copyCpxCols_eq]
      rw [← copy_slice p j hj, cpxColEnd_eq p j hj, beg_eq p j hj]
      simp [List.getD, show j < p.cols.length + 1 by omega, hj]
    · simp [cpxWrite, copyCpxCols_eq]
    · simp only [cpxWrite, copyCpxCols_eq]
      rw [List.getElem?_map, List.getElem?_range (by omega), Option.map_some, pre_all, hl]
    · simp [cpxWrite, copyCpxCols_eq, hl]

/-- A problem for the examples: `max 3 x₀ + x₁ + 7`, `x₀ + 2 x₁ ≤ 4`, `x₀ ≥ 1`, `x₀` integer. -/
def cpxEx : CpxProb :=
  { cols := [⟨[(0, 1), (1, 1)], 0, 5, 3, 'I'⟩, ⟨[(0, 2)], 0, 9, 1, 'C'⟩]
    rows := [('L', 4), ('G', 1)], isMip := true, objsense := -1, offset := 7 }

example : ∃ d, convertCpx cpxEx = (0, some d) ∧ d.start = [0, 2, 3] ∧ d.col 1 = [(0, 2)] :=
  ⟨_, rfl, by decide +kernel, by decide +kernel⟩

/-! ## Return value -/

/-- The return value: 0 exactly when all rows are `≥`, `≤` or `=` rows or the matrix is empty; otherwise 1. -/
theorem cpx_rval (p : CpxProb) :
    ((convertCpx p).1 = 0 ∨ (convertCpx p).1 = 1) ∧
    ((convertCpx p).1 = 0 ↔ p.nz = 0 ∨ ∀ r ∈ p.rows, r.1 = 'G' ∨ r.1 = 'L' ∨ r.1 = 'E') := by
  have hl : p.mat.length = p.nz := mat_length p
  have hb : ∀ r : Char × ℚ, (cpxRowBounds r).isNone = true ↔ ¬ (r.1 = 'G' ∨ r.1 = 'L' ∨ r.1 = 'E') := by
    intro r
    unfold cpxRowBounds
    by_cases h1 : r.1 = 'G'
    · simp [h1]
    · by_cases h2 : r.1 = 'L'
      · simp [h2]
      · by_cases h3 : r.1 = 'E' <;> simp [h1, h2, h3]
  unfold convertCpx
  by_cases h0 : p.nz = 0
  · simp [h0]
  · rw [if_neg h0]
    have e : cpxRval p = if (p.rows.map cpxRowBounds).any Option.isNone then 1 else 0 := by
      unfold cpxRval
      rw [copyCpxCols_eq, if_neg (by simp [hl])]
    have ha : (p.rows.map cpxRowBounds).any Option.isNone = true ↔
        ∃ r ∈ p.rows, ¬ (r.1 = 'G' ∨ r.1 = 'L' ∨ r.1 = 'E') := by
      simp only [List.any_map, List.any_eq_true, Function.comp_apply, hb]
    dsimp only
    rw [e]
    by_cases h : (p.rows.map cpxRowBounds).any Option.isNone = true
    · rw [if_pos h]
      obtain ⟨r, hr, hn⟩ := ha.mp h
      exact ⟨Or.inr rfl, by simp only [one_ne_zero, false_iff]; rintro (h | h); exacts [h0 h, hn (h r hr)]⟩
    · rw [if_neg h]
      refine ⟨Or.inl rfl, by simp only [true_iff]; right; intro r hr; by_contra hc; exact h (ha.mpr ⟨r, hr, hc⟩)⟩

/-- **C125 is violated**: for a problem without nonzeros (here one variable, no rows) success is
returned and nothing is written. -/
theorem cpx_empty_matrix :
    ∃ p : CpxProb, p.cols.length = 1 ∧ convertCpx p = (0, none) :=
  ⟨⟨[⟨[], 0, 5, 1, 'I'⟩], [], true, 1, 0⟩, rfl, rfl⟩

/-- **C125 is violated**: a pure LP converts successfully with types that were never written. -/
theorem cpx_lp_types :
    ∃ p d, convertCpx p = (0, some d) ∧ d.vartype = [none, none] ∧ cpxVars d = none :=
  ⟨{ cpxEx with isMip := false }, _, rfl, by decide +kernel, by decide +kernel⟩

/-! ## Equivalence -/

theorem cpxVars_eq (p : CpxProb) (hm : p.isMip = true) :
    cpxVars (cpxWrite p) = some (p.cols.map fun c => ⟨c.lb, c.ub, c.obj, c.ctype⟩) := by
  have key : ∀ k ≤ p.cols.length, (List.range k).mapM (fun j =>
      match (cpxWrite p).vartype.getD j none with
      | none => none
      | some t => some (⟨(cpxWrite p).collb.getD j 0, (cpxWrite p).colub.getD j 0,
          (cpxWrite p).obj.getD j 0, t⟩ : ProbVar)) =
      some ((p.cols.take k).map fun c => (⟨c.lb, c.ub, c.obj, c.ctype⟩ : ProbVar)) := by
    intro k hk
    induction k with
    | zero => rfl
    | succ k ih =>
      have h : k < p.cols.length := hk
      rw [List.range_succ, List.mapM_append, ih (by omega), List.take_succ_eq_append_getElem h, List.map_append]
      simp [-List.map_take, cpxWrite, cpxTypes, hm, List.getD, h]
  have := key p.cols.length le_rfl
  rw [List.take_length] at this
  have hl : (cpxWrite p).obj.length = p.cols.length := by simp [cpxWrite]
  unfold cpxVars
  rw [hl]
  exact this

theorem cpx_cols_eq (p : CpxProb) (hnz : p.nz ≠ 0) :
    (List.range (cpxWrite p).obj.length).map (cpxWrite p).col = p.cols.map (·.entries) := by
  apply List.ext_getElem
  · simp [cpxWrite]
  · intro j h1 h2
    have hj : j < p.cols.length := by simpa using h2
    have := (cpx_columns p (cpxWrite p) (by simp [convertCpx, hnz]) j p.cols[j]
      (List.getElem?_eq_getElem hj)).1
    simpa using this

/-- **C125, for problems with entries, types, plain rows and ordinary bounds.** If the problem has at least
one nonzero, is a mixed-integer program, all rows are `≥`, `≤` or `=` rows, all right-hand
sides and bounds are smaller than `10^20` in absolute value, variables are continuous, integer or
binary with bounds 0 and 1: the conversion succeeds and the problem loaded from the data has the same
solutions; the objective loaded is the same up to the constant, made a minimization. -/
theorem cpx_equivalent_partial (p : CpxProb) (hnz : p.nz ≠ 0) (hm : p.isMip = true)
    (hrow : ∀ r ∈ p.rows, (r.1 = 'G' ∨ r.1 = 'L' ∨ r.1 = 'E') ∧ |r.2| < cpxInf)
    (hcol : ∀ c ∈ p.cols, (c.ctype = 'C' ∨ c.ctype = 'I' ∨ (c.ctype = 'B' ∧ c.lb = 0 ∧ c.ub = 1)) ∧
      |c.lb| < cpxInf ∧ |c.ub| < cpxInf)
    (hs : p.objsense = 1 ∨ p.objsense = -1) :
    ∃ d vs, convertCpx p = (0, some d) ∧ cpxVars d = some vs ∧
      (∀ x, LoadedSol d (loadProblemData 0 ⟨vs, d.objsense, d.objoffset⟩).1 x ↔ p.Sol x) ∧
      (loadProblemData 0 ⟨vs, d.objsense, d.objoffset⟩).2.sense = 1 ∧
      ∀ x, (loadProblemData 0 ⟨vs, d.objsense, d.objoffset⟩).2.value x =
        p.objsense * ((p.cols.map (·.obj)).zipWith (· * ·) x).sum := by
  have hr0 : (convertCpx p).1 = 0 := (cpx_rval p).2.mpr (Or.inr fun r hr => (hrow r hr).1)
  have hl : p.mat.length = p.nz := mat_length p
  have hconv : convertCpx p = (0, some (cpxWrite p)) := by
    have e : convertCpx p = (cpxRval p, some (cpxWrite p)) := by simp [convertCpx, hnz]
    rw [e] at hr0 ⊢
    rw [show cpxRval p = 0 from hr0]
  have hbig : cpxInf < dblMax := by unfold cpxInf; decide +kernel
  refine ⟨cpxWrite p, _, hconv, cpxVars_eq p hm, ?_, ?_⟩
  · intro x
    unfold LoadedSol CpxProb.Sol
    rw [cpx_cols_eq p hnz]
    have hrb : (cpxWrite p).rowbd = p.rows.map cpxRowBounds := by
      simp only [cpxWrite, copyCpxCols_eq]
      rw [if_neg (by simp [hl])]
    rw [hrb]
    have hrows : ∀ (r : Char × ℚ), ((r.1 = 'G' ∨ r.1 = 'L' ∨ r.1 = 'E') ∧ |r.2| < cpxInf) → ∀ a : ℚ,
        (∃ l u, cpxRowBounds r = some (l, u) ∧ (l ≤ -dblMax ∨ l ≤ a) ∧ (dblMax ≤ u ∨ a ≤ u)) ↔
          cpxRowOk r a := by
      rintro ⟨t, b⟩ ⟨ht, hb⟩ a
      have hb' := abs_lt.mp hb
      dsimp only at ht hb'
      have hb1 : ¬ b ≤ -dblMax := by linarith [hb'.1]
      have hb2 : ¬ dblMax ≤ b := by linarith [hb'.2]
      rcases ht with rfl | rfl | rfl
      · have e : cpxRowBounds ('G', b) = some (b, dblMax) := rfl
        simp only [e, Option.some.injEq, Prod.mk.injEq, cpxRowOk]
        constructor
        · rintro ⟨l, u, ⟨rfl, rfl⟩, h1, _⟩
          exact ⟨fun _ => h1.resolve_left hb1, fun h => absurd h (by decide), fun h => absurd h (by decide)⟩
        · rintro ⟨h, _, _⟩
          exact ⟨_, _, ⟨rfl, rfl⟩, Or.inr (h trivial), Or.inl le_rfl⟩
      · have e : cpxRowBounds ('L', b) = some (-dblMax, b) := rfl
        simp only [e, Option.some.injEq, Prod.mk.injEq, cpxRowOk]
        constructor
        · rintro ⟨l, u, ⟨rfl, rfl⟩, _, h1⟩
          exact ⟨fun h => absurd h (by decide), fun _ => h1.resolve_left hb2, fun h => absurd h (by decide)⟩
        · rintro ⟨_, h, _⟩
          exact ⟨_, _, ⟨rfl, rfl⟩, Or.inl le_rfl, Or.inr (h trivial)⟩
      · have e : cpxRowBounds ('E', b) = some (b, b) := rfl
        simp only [e, Option.some.injEq, Prod.mk.injEq, cpxRowOk]
        constructor
        · rintro ⟨l, u, ⟨rfl, rfl⟩, h1, h2⟩
          refine ⟨fun h => absurd h (by decide), fun h => absurd h (by decide), fun _ => ?_⟩
          exact le_antisymm (h2.resolve_left hb2) (h1.resolve_left hb1)
        · rintro ⟨_, _, h⟩
          exact ⟨_, _, ⟨rfl, rfl⟩, Or.inr (h trivial).ge, Or.inr (h trivial).le⟩
    have hcols : ∀ (c : CpxCol), c ∈ p.cols → ∀ v : ℚ,
        (let w := loadVar ⟨c.lb, c.ub, c.obj, c.ctype⟩
         (w.lb ≤ -dblMax ∨ w.lb ≤ v) ∧ (dblMax ≤ w.ub ∨ v ≤ w.ub) ∧ (w.isInt = true → ∃ k : ℤ, v = k)) ↔
          cpxColOk p.isMip c v := by
      intro c hc v
      obtain ⟨ht, h1, h2⟩ := hcol c hc
      have h1' := abs_lt.mp h1
      have h2' := abs_lt.mp h2
      have b1 : ¬ c.lb ≤ -dblMax := by linarith [h1'.1]
      have b2 : ¬ dblMax ≤ c.ub := by linarith [h2'.2]
      have b3 : ¬ c.lb ≤ -cpxInf := by linarith [h1'.1]
      have b4 : ¬ cpxInf ≤ c.ub := by linarith [h2'.2]
      dsimp only
      unfold cpxColOk loadVar
      dsimp only
      rw [hm]
      rcases ht with ht | ht | ⟨ht, e1, e2⟩
      · simp [ht, b1, b2, b3, b4]
      · simp [ht, b1, b2, b3, b4, and_assoc]
      · rw [e1] at b1 b3 ⊢
        rw [e2] at b2 b4 ⊢
        simp [ht, b1, b2, b3, b4, and_assoc]
    have hlv : (loadProblemData 0 ⟨p.cols.map fun c => (⟨c.lb, c.ub, c.obj, c.ctype⟩ : ProbVar),
        (cpxWrite p).objsense, (cpxWrite p).objoffset⟩).1 =
        p.cols.map fun c => loadVar ⟨c.lb, c.ub, c.obj, c.ctype⟩ := by
      simp [loadProblemData, Function.comp_def]
    rw [hlv]
    refine and_congr ?_ ?_
    · constructor
      · intro h i r hi
        exact (hrows r (hrow r (List.mem_of_getElem? hi)) _).mp (h i _ (by rw [List.getElem?_map, hi]; rfl))
      · intro h i b hi
        rw [List.getElem?_map] at hi
        obtain ⟨r, hr, rfl⟩ := Option.map_eq_some_iff.mp hi
        exact (hrows r (hrow r (List.mem_of_getElem? hr)) _).mpr (h i r hr)
    · constructor
      · intro h j c hj
        exact (hcols c (List.mem_of_getElem? hj) _).mp (h j _ (by rw [List.getElem?_map, hj]; rfl))
      · intro h j v hj
        rw [List.getElem?_map] at hj
        obtain ⟨c, hc, rfl⟩ := Option.map_eq_some_iff.mp hj
        exact (hcols c (List.mem_of_getElem? hc) _).mpr (h j c hc)
  · have := load_partial ⟨p.cols.map fun c => (⟨c.lb, c.ub, c.obj, c.ctype⟩ : ProbVar),
      p.objsense, p.offset⟩ hs
    dsimp only at this
    refine ⟨this.1, fun x => ?_⟩
    have h2 := this.2.1 x
    rw [List.map_map] at h2
    exact h2

example : cpxEx.nz ≠ 0 ∧ cpxEx.isMip = true ∧
    (∀ r ∈ cpxEx.rows, (r.1 = 'G' ∨ r.1 = 'L' ∨ r.1 = 'E') ∧ |r.2| < cpxInf) ∧
    (∀ c ∈ cpxEx.cols, (c.ctype = 'C' ∨ c.ctype = 'I' ∨ (c.ctype = 'B' ∧ c.lb = 0 ∧ c.ub = 1)) ∧
      |c.lb| < cpxInf ∧ |c.ub| < cpxInf) ∧ (cpxEx.objsense = 1 ∨ cpxEx.objsense = -1) := by
  refine ⟨by decide, rfl, ?_, ?_, Or.inr rfl⟩
  · intro r hr
    simp only [cpxEx, List.mem_cons, List.not_mem_nil, or_false] at hr
    rcases hr with rfl | rfl <;> norm_num [cpxInf]
  · intro c hc
    simp only [cpxEx, List.mem_cons, List.not_mem_nil, or_false] at hc
    rcases hc with rfl | rfl <;> norm_num [cpxInf]

/-- One variable with a `≤` row, of the given type and bounds. -/
def cpxOne (lb ub : ℚ) (t : Char) : CpxProb :=
  { cols := [⟨[(0, 1)], lb, ub, 1, t⟩], rows := [('L', 10 ^ 30)], isMip := true, objsense := 1, offset := 0 }

/-- What was loaded for a single variable. -/
def cpxOneVars (p : CpxProb) : List LoadedVar :=
  match (convertCpx p).2 with
  | none => []
  | some d => match cpxVars d with
    | none => []
    | some vs => (loadProblemData 0 ⟨vs, d.objsense, d.objoffset⟩).1

/-- **C125 is violated** outside those conditions: a variable CPLEX considers unbounded is loaded with the finite
bound `10^20`; a binary variable fixed to 0 is loaded as free in {0, 1}; a semicontinuous variable with
values 0 and [2, 3] is loaded as [2, 3]. -/
theorem cpx_variables_changed :
    (cpxOneVars (cpxOne 0 (10 ^ 20) 'C') = [⟨0, 10 ^ 20, false⟩] ∧
      (cpxOne 0 (10 ^ 20) 'C').Sol (fun _ => 2 * 10 ^ 20)) ∧
    (cpxOneVars (cpxOne 0 0 'B') = [⟨0, 1, true⟩] ∧ ¬ (cpxOne 0 0 'B').Sol (fun _ => 1)) ∧
    (cpxOneVars (cpxOne 2 3 'S') = [⟨2, 3, false⟩] ∧ (cpxOne 2 3 'S').Sol (fun _ => 0)) := by
  have row : ∀ (lb ub : ℚ) (t : Char) (v : ℚ), v ≤ 10 ^ 30 → ∀ i r, (cpxOne lb ub t).rows[i]? = some r →
      cpxRowOk r (colAct ((cpxOne lb ub t).cols.map (·.entries)) i fun _ => v) := by
    intro lb ub t v hv i r hi
    match i, hi with
    | 0, hi =>
      simp only [cpxOne, List.getElem?_cons_zero, Option.some.injEq] at hi
      subst hi
      refine ⟨fun h => absurd h (by decide), fun _ => ?_, fun h => absurd h (by decide)⟩
      simpa [cpxOne, colAct, scoef] using hv
    | i + 1, hi => simp [cpxOne] at hi
  have col : ∀ (lb ub : ℚ) (t : Char) (j : ℕ) (c : CpxCol), (cpxOne lb ub t).cols[j]? = some c →
      c = ⟨[(0, 1)], lb, ub, 1, t⟩ := by
    intro lb ub t j c hj
    match j, hj with
    | 0, hj => simpa [cpxOne] using hj.symm
    | j + 1, hj => simp [cpxOne] at hj
  refine ⟨⟨by decide +kernel, row _ _ _ _ (by norm_num), ?_⟩, ⟨by decide +kernel, ?_⟩,
    ⟨by decide +kernel, row _ _ _ _ (by norm_num), ?_⟩⟩
  · intro j c hj
    rw [col _ _ _ _ _ hj]
    simp [cpxColOk, cpxInf]
  · intro h
    have := (h.2 0 _ rfl).1
    norm_num [cpxColOk, cpxOne, cpxInf] at this
  · intro j c hj
    rw [col _ _ _ _ _ hj]
    simp [cpxColOk, cpxOne]

/-- Ranged rows: the conversion reports failure (1), but the data has been written, without bounds for that row. -/
theorem cpx_ranged_row :
    ∃ p d, convertCpx p = (1, some d) ∧ d.rowbd = [some (-dblMax, 4), none] :=
  ⟨{ cpxEx with rows := [('L', 4), ('R', 1)] }, _, rfl, by decide +kernel⟩

end VPC
