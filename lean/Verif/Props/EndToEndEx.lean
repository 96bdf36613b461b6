import Verif.Props.EndToEnd

/-!
# A complete concrete run (non-vacuity of the end-to-end theorems)

Maximise `x1` subject to `x1 - 2 x0 ≤ 0`, `x1 + 2 x0 ≤ 2`, `0 ≤ x ≤ 1`: the LP optimum is the vertex
`(1/2, 1)`. The split `x0 ≤ 0 ∨ x0 ≥ 1` has the term optima `(0, 0)` and `(1, 0)`, and the point-ray
LP yields the cut `x1 ≤ 0`.
-/
namespace VPC.Tri
open Finset

def V : Relax := ⟨[some 0, some 0], [some 1, some 1],
  [⟨[(0, -2), (1, 1)], none, some 0⟩, ⟨[(0, 2), (1, 1)], none, some 2⟩]⟩

def lp : LP where
  numCols := 2
  rows := fun r => if r = 0 then [(0, -2), (1, 1)] else if r = 1 then [(0, 2), (1, 1)] else []
  sense := fun _ => .L
  rhs := fun r => if r = 1 then 2 else 0
  colLower := fun _ => 0
  colUpper := fun _ => 1
  colStat := fun _ => .other

/-- The nonbasic space at the LP optimum: both slacks are nonbasic. -/
def o : NBData where
  lp := lp
  sol := fun i => if i = 0 then 1/2 else 1
  obj := -1
  nb := [2, 3]
  isUB := fun _ => false
  rc := fun _ => 1/2

def E : NumEnv := ⟨id, fun _ => 0, 1/10000000, 1/10000000, 1/1000⟩

def t0 : Term := { changes := [⟨0, 1, 0⟩], feasible := true }
def t1 : Term := { changes := [⟨0, 0, 1⟩], feasible := true }
def Q0 : Relax := { V with hi := [some 0, some 1] }
def Q1 : Relax := { V with lo := [some 1, some 0] }
def D : Disj := { Disj.new with numTerms := 2, terms := [t0, t1] }

/-- Inverse of the basis `{x1, s1}` (rows 0 and 1) of the first term: `x1` is basic in row 0. -/
def Binv0 : ℕ → Vec := fun r i => if r = 0 then (if i = 0 then 1 else 0)
  else if r = 1 then (if i = 0 then -1 else if i = 1 then 1 else 0) else 0
/-- Inverse of the basis `{s0, x1}` of the second term: `x1` is basic in row 1. -/
def Binv1 : ℕ → Vec := fun r i => if r = 0 then (if i = 0 then 1 else if i = 1 then -1 else 0)
  else if r = 1 then (if i = 1 then 1 else 0) else 0

def row0 : ℕ → Option ℕ := fun j => if j = 1 then some 0 else if j = 3 then some 1 else none
def row1 : ℕ → Option ℕ := fun j => if j = 1 then some 1 else if j = 2 then some 0 else none

def s0 : TermSol where
  x := fun _ => 0
  obj := 0
  nb := [0, 2]
  row := row0
  isUB := fun j => j == 0
  isLB := fun j => j != 0
  isFixed := fun _ => false
  tab := fun j => tabCol 2 (sysCol Q0) Binv0 j
  rayObj := fun j => if j = 0 then 2 else 1

def s1 : TermSol where
  x := fun i => if i = 0 then 1 else 0
  obj := 0
  nb := [0, 3]
  row := row1
  isUB := fun _ => false
  isLB := fun _ => true
  isFixed := fun _ => false
  tab := fun j => tabCol 2 (sysCol Q1) Binv1 j
  rayObj := fun j => if j = 0 then 2 else 1

def w : ℕ → TermWorld := fun k =>
  ⟨true, fun _ => .optimal (if k = 0 then s0 else s1), fun _ => [],
    fun _ => .optimal (if k = 0 then s0 else s1), false⟩

/-- The rows collected: one point and two rays per term. -/
def rows : List PRow := [⟨[(1, 2)], 1, 1⟩, ⟨[(1, 4)], 0, 2⟩, ⟨[(0, 1), (1, 1)], 0, 1⟩,
  ⟨[(0, 2)], 1, 1⟩, ⟨[(0, 4)], 0, 2⟩, ⟨[(0, 1), (1, 1)], 0, 1⟩]

/-- The point-ray LP. -/
def L : BuiltLP := ⟨[0, 1], [1/2, 1/2], [1000000, 1000000],
  [([(1, 2)], 1), ([(0, 2)], 1), ([(0, 1), (1, 1)], 0)]⟩

def cost : Vec := fun i => if i = 1 then -1 else 0

theorem feas_iff (P : Relax) (x : Vec) : P.Feas x ↔
    (∀ e ∈ P.lo.zipIdx, geLo e.1 (x e.2)) ∧ (∀ e ∈ P.hi.zipIdx, leHi e.1 (x e.2)) ∧
    ∀ r ∈ P.rows, geLo r.lb (sdot r.coeffs x) ∧ leHi r.ub (sdot r.coeffs x) := by
  unfold Relax.Feas
  refine and_congr ?_ (and_congr ?_ Iff.rfl) <;>
  · constructor
    · intro h e he
      obtain ⟨b, i⟩ := e
      exact h i b (List.mem_zipIdx_iff_getElem?.1 he)
    · intro h i b hb
      exact h (b, i) (List.mem_zipIdx_iff_getElem?.2 hb)

instance (b : Option ℚ) (v : ℚ) : Decidable (geLo b v) := by
  cases b with
  | none => exact isTrue (by intro l h; cases h)
  | some a => exact decidable_of_iff (a ≤ v) ⟨fun h l hl => by cases hl; exact h, fun h => h a rfl⟩

instance (b : Option ℚ) (v : ℚ) : Decidable (leHi b v) := by
  cases b with
  | none => exact isTrue (by intro l h; cases h)
  | some a => exact decidable_of_iff (v ≤ a) ⟨fun h l hl => by cases hl; exact h, fun h => h a rfl⟩

instance (P : Relax) (x : Vec) : Decidable (P.Feas x) := decidable_of_iff _ (feas_iff P x).symm

theorem rows_eq : setupAll E o false false cost 0 V w D =
    .ok (rows, { D with bestObj := 0, worstObj := 0 }) := by decide +kernel

theorem prlp_eq : prlpSetup id 1000000 (1/1000) 1 2 rows = some L := by decide +kernel

theorem V_idx : V.Idx := by unfold Relax.Idx; decide +kernel

theorem nbOk : NBOk V o where
  lp :=
    { cols := rfl
      hi := by
        intro k u h
        match k, h with
        | 0, h => simp only [V, List.getElem?_cons_zero, Option.some.injEq] at h; exact h
        | 1, h => simp only [V, List.getElem?_cons_succ, List.getElem?_cons_zero,
            Option.some.injEq] at h; exact h
        | k + 2, h => simp [V] at h
      lo := by
        intro k u h
        match k, h with
        | 0, h => simp only [V, List.getElem?_cons_zero, Option.some.injEq] at h; exact h
        | 1, h => simp only [V, List.getElem?_cons_succ, List.getElem?_cons_zero,
            Option.some.injEq] at h; exact h
        | k + 2, h => simp [V] at h
      row := by decide +kernel
      rhs := by decide +kernel
      sense := by
        show ∀ r < V.rows.length, (V.row r).lb = none ∧ (V.row r).ub ≠ none
        decide +kernel }
  idx := V_idx
  len := rfl
  order := ⟨⟨[], [2, 3], rfl, by decide, by decide, by decide⟩, by
    intro r e he
    match r with
    | 0 => exact (by decide : ∀ e ∈ o.lp.rows 0, e.1 < o.lp.numCols) e he
    | 1 => exact (by decide : ∀ e ∈ o.lp.rows 1, e.1 < o.lp.numCols) e he
    | r + 2 => simp [o, lp] at he⟩
  lt := by decide
  col := by decide +kernel
  slack := by decide +kernel

theorem basis_of {Q : Relax} {Binv : ℕ → Vec} {row : ℕ → Option ℕ}
    (h1 : ∀ k < 4, row k = none ∨ row k = some 0 ∨ row k = some 1)
    (h2 : ∀ k < 4, ∀ r < 2, row k = some r → ∀ r' < 2,
      ∑ i ∈ range 2, Binv r' i * sysCol Q k i = if r' = r then 1 else 0)
    (h3 : ∀ k < 4, ∀ k' < 4, row k = row k' → row k ≠ none → k = k') :
    BasisSpec 4 2 (sysCol Q) Binv row := by
  have hr : ∀ k < 4, ∀ r, row k = some r → r < 2 := by
    intro k hk r hr
    rcases h1 k hk with h | h | h <;> rw [h] at hr <;> simp at hr <;> omega
  exact ⟨fun k hk r h => h2 k hk r (hr k hk r h) h, fun k hk k' hk' r h h' => h3 k hk k' hk'
    (by rw [h, h']) (by rw [h]; simp), hr⟩

theorem sol0 : TermSolOk Q0 s0 where
  feas := by decide +kernel
  basis := ⟨Binv0, basis_of (by decide) (by decide +kernel) (by decide +kernel), fun _ _ => rfl⟩
  nodup := by decide
  nb := by
    intro j
    constructor
    · revert j; decide
    · rintro ⟨h, h'⟩
      exact (by decide : ∀ j < 4, s0.row j = none → j ∈ s0.nb) j h h'
  one := by decide
  col := by decide +kernel
  slack := by decide +kernel
  fixed := by intro j _ h; cases h

theorem sol1 : TermSolOk Q1 s1 where
  feas := by decide +kernel
  basis := ⟨Binv1, basis_of (by decide) (by decide +kernel) (by decide +kernel), fun _ _ => rfl⟩
  nodup := by decide
  nb := by
    intro j
    constructor
    · revert j; decide
    · rintro ⟨h, h'⟩
      exact (by decide : ∀ j < 4, s1.row j = none → j ∈ s1.nb) j h h'
  one := by decide
  col := by decide +kernel
  slack := by decide +kernel
  fixed := by intro j _ h; cases h

theorem noTiny0 : NoTiny E o s0 := by unfold NoTiny; decide +kernel
theorem noTiny1 : NoTiny E o s1 := by unfold NoTiny; decide +kernel

theorem lp0 {Q : Relax} (h : termLP V t0 = .ok Q) : Q = Q0 := by
  have : termLP V t0 = .ok Q0 := by decide +kernel
  rw [this] at h; cases h; rfl

theorem lp1 {Q : Relax} (h : termLP V t1 = .ok Q) : Q = Q1 := by
  have : termLP V t1 = .ok Q1 := by decide +kernel
  rw [this] at h; cases h; rfl

theorem world0 (x : Vec) : WorldOk E o false V (w 0) t0 x :=
  ⟨rfl, fun Q h => by rw [lp0 h]; exact ⟨sol0, noTiny0⟩, by simp, by simp⟩

theorem world1 (x : Vec) : WorldOk E o false V (w 1) t1 x :=
  ⟨rfl, fun Q h => by rw [lp1 h]; exact ⟨sol1, noTiny1⟩, by simp, by simp⟩

theorem termOk0 : TermOk V t0 :=
  ⟨⟨by
    intro c hc
    simp only [t0, List.mem_singleton] at hc
    subst hc
    refine ⟨by decide, fun _ b hb => ?_⟩
    simp only [V, List.getElem?_cons_zero, Option.some.injEq] at hb
    subst hb; decide +kernel, by simp [t0]⟩, by simp [t0]⟩

theorem termOk1 : TermOk V t1 :=
  ⟨⟨by
    intro c hc
    simp only [t1, List.mem_singleton] at hc
    subst hc
    refine ⟨fun _ b hb => ?_, by decide⟩
    simp only [V, List.getElem?_cons_zero, Option.some.injEq] at hb
    subst hb; decide +kernel, by simp [t1]⟩, by simp [t1]⟩

theorem wf : WellFormed 1 2 rows where
  rhs := by decide +kernel
  sing := by
    intro r hr j c h
    have : ∀ r ∈ rows, ∀ e ∈ r.vec, defEps ≤ |e.2| := by decide +kernel
    intro _
    exact this r hr (j, c) (by rw [h]; simp)
  idx := by decide

theorem exact_rows : Exact 1 (1/1000) rows where
  noReplace := by decide +kernel
  truthful := by
    have : ∀ r ∈ rows, ∀ r2 ∈ rows, (rhsLineUp r r2 = true ∨ (r.rhs = 0 ∧ r2.rhs = 0)) →
        (isRowDifferent r.vec r.rhs r2.vec r2.rhs (1/1000) = 0 ∨
        isRowDifferent r.vec r.rhs r2.vec r2.rhs (1/1000) = 1) → r.vec = r2.vec ∧ r.rhs = r2.rhs := by
      decide +kernel
    intro r hr r2 hr2 hl h α h2
    obtain ⟨h3, h4⟩ := this r hr r2 hr2 hl h
    unfold RowOK at *
    rw [h3, h4]; exact h2

theorem feasβ : L.Feas 1000000 [1/2, 1/2] := by unfold BuiltLP.Feas; decide +kernel

theorem bigβ : NoTinyCut o L [1/2, 1/2] false 1 (1/10000000) := by unfold NoTinyCut; decide +kernel

/-- The whole run satisfies the hypotheses of `run_valid_partial`, for every point `x`. -/
theorem runOk (x : Vec) :
    RunOk E D V ⟨V, []⟩ o false false w L [1/2, 1/2] 1 (1/10000000) x where
  sort := fun l => List.Perm.refl l
  root := ⟨1, fun _ => false, fun _ => false, fun _ => none, by decide +kernel⟩
  nb := nbOk
  prlp := ⟨cost, 0, rows, _, id, 1000000, 1/1000, rows_eq, fun l => List.Perm.refl l, by norm_num,
    by norm_num, wf, exact_rows, prlp_eq, feasβ⟩
  nz := by decide
  big := bigβ
  terms := by
    intro t ht
    simp only [D, List.mem_cons, List.not_mem_nil, or_false] at ht
    rcases ht with rfl | rfl
    · exact termOk0
    · exact termOk1
  world := by
    intro i t h
    match i, h with
    | 0, h => simp only [D, List.getElem?_cons_zero, Option.some.injEq] at h; subst h; exact world0 x
    | 1, h =>
      simp only [D, List.getElem?_cons_succ, List.getElem?_cons_zero, Option.some.injEq] at h
      subst h; exact world1 x
    | i + 2, h => simp [D] at h

/-- The cut of the run is `x1 ≤ 0` (as `-x1 ≥ 0`). -/
theorem the_cut : cutOf o L [1/2, 1/2] false 1 (1/10000000) = ⟨[(1, -1)], 0⟩ := by decide +kernel

/-- It is valid for the points of the problem with `x0 ∈ {0, 1}`, and cuts off the LP optimum. -/
example (x : Vec) (hx : V.Feas x) (h0 : x 0 = 0 ∨ x 0 = 1) : x 1 ≤ 0 := by
  have key : (cutOf o L [1/2, 1/2] false 1 (1/10000000)).Sat x := by
    rcases h0 with h0 | h0
    · exact (run_valid_partial (runOk x) (t := t0) (by simp [D]) rfl
        ⟨hx, by simp [D, Disj.new], by simp [t0, BChange.Sat, h0], by simp [t0]⟩
        (by simp [D, Disj.new])).1
    · exact (run_valid_partial (runOk x) (t := t1) (by simp [D]) rfl
        ⟨hx, by simp [D, Disj.new], by simp [t1, BChange.Sat, h0], by simp [t1]⟩
        (by simp [D, Disj.new])).1
  rw [the_cut] at key
  simp only [RowCut.Sat, sdot_cons, sdot_nil] at key
  linarith

example : V.Feas o.sol ∧ ¬ o.sol 1 ≤ 0 := by decide +kernel

/-! ## With an integer solution stored

The solution `(1, 0)` is stored; the second term is now dropped because of the time limit. -/

def D2 : Disj := { D with intSol := [1, 0] }

/-- The second term hits the time limit: it is not collected. -/
def w2 : ℕ → TermWorld := fun k => { w k with timeUp := k == 1 }

def rows2 : List PRow := [⟨[(0, 2)], 1, 1⟩, ⟨[(1, 2)], 1, 1⟩, ⟨[(1, 4)], 0, 2⟩, ⟨[(0, 1), (1, 1)], 0, 1⟩]

def L2 : BuiltLP := ⟨[0, 1], [1/2, 1/2], [1000000, 1000000],
  [([(0, 2)], 1), ([(1, 2)], 1), ([(0, 1), (1, 1)], 0)]⟩

theorem rows2_eq : setupAll E o false false cost 0 V w2 D2 =
    .ok (rows2, { D2 with bestObj := 0, worstObj := 0 }) := by decide +kernel

theorem exact_rows2 : Exact 1 (1/1000) rows2 where
  noReplace := by decide +kernel
  truthful := by
    have : ∀ r ∈ rows2, ∀ r2 ∈ rows2, (rhsLineUp r r2 = true ∨ (r.rhs = 0 ∧ r2.rhs = 0)) →
        (isRowDifferent r.vec r.rhs r2.vec r2.rhs (1/1000) = 0 ∨
        isRowDifferent r.vec r.rhs r2.vec r2.rhs (1/1000) = 1) → r.vec = r2.vec ∧ r.rhs = r2.rhs := by
      decide +kernel
    intro r hr r2 hr2 hl h α h2
    obtain ⟨h3, h4⟩ := this r hr r2 hr2 hl h
    unfold RowOK at *
    rw [h3, h4]; exact h2

/-- Non-vacuity of `intSol_valid_partial`: the cut `x1 ≤ 0` is satisfied by the stored `(1, 0)`. -/
example : (cutOf o L2 [1/2, 1/2] false 1 (1/10000000)).Sat (fun i => D2.intSol.getD i 0) :=
  intSol_valid_partial (E := E) (fun l => List.Perm.refl l) nbOk rows2_eq (sortP := id)
    (fun l => List.Perm.refl l) (INF := 1000000) (DIFFEPS := 1/1000) (by norm_num) (by norm_num)
    (by norm_num)
    { rhs := by decide +kernel
      sing := by
        intro r hr j c h
        have : ∀ r ∈ rows2, ∀ e ∈ r.vec, defEps ≤ |e.2| := by decide +kernel
        intro _
        exact this r hr (j, c) (by rw [h]; simp)
      idx := by decide }
    exact_rows2 (L := L2) (by decide +kernel) (by decide) (by unfold BuiltLP.Feas; decide +kernel)
    (by unfold NoTinyCut; decide +kernel) (by decide) (by decide +kernel) (by decide +kernel)

/-! ## The same run, starting from the choice of the split

Column 0 is integer and has the value `1/2`; both sides are feasible. -/

/-- What the solver answers when a column is checked. -/
def ask : ℕ → ℕ → VarAns := fun _ col =>
  { isInt := col == 0, val := if col = 0 then 1/2 else 1, down := .optimal 0, up := .optimal 0 }

def u0 : Term := { t0 with obj := 0 }
def u1 : Term := { t1 with obj := 0 }
/-- The disjunction prepared: `x0 ≤ 0 ∨ x0 ≥ 1`. -/
def DS : Disj := { Disj.new with numTerms := 2, terms := [u0, u1] }

theorem split_prepared : splitPrepare (1/1000) [(true, 1/2), (false, 1)] id ask { d := Disj.new } =
    .ok (.SUCCESS, { d := DS, var := 0 }) := by decide +kernel

theorem rowsS_eq : setupAll E o false false cost 0 V w DS =
    .ok (rows, { DS with bestObj := 0, worstObj := 0 }) := by decide +kernel

theorem worldS0 (x : Vec) : WorldOk E o false V (w 0) u0 x :=
  ⟨rfl, fun Q h => by rw [lp0 h]; exact ⟨sol0, noTiny0⟩, by simp, by simp⟩

theorem worldS1 (x : Vec) : WorldOk E o false V (w 1) u1 x :=
  ⟨rfl, fun Q h => by rw [lp1 h]; exact ⟨sol1, noTiny1⟩, by simp, by simp⟩

theorem runOkS (x : Vec) :
    RunOk E DS V ⟨V, []⟩ o false false w L [1/2, 1/2] 1 (1/10000000) x where
  sort := fun l => List.Perm.refl l
  root := ⟨1, fun _ => false, fun _ => false, fun _ => none, by decide +kernel⟩
  nb := nbOk
  prlp := ⟨cost, 0, rows, _, id, 1000000, 1/1000, rowsS_eq, fun l => List.Perm.refl l, by norm_num,
    by norm_num, wf, exact_rows, prlp_eq, feasβ⟩
  nz := by decide
  big := bigβ
  terms := by
    intro t ht
    simp only [DS, List.mem_cons, List.not_mem_nil, or_false] at ht
    rcases ht with rfl | rfl
    · exact ⟨⟨termOk0.1.1, termOk0.1.2⟩, termOk0.2⟩
    · exact ⟨⟨termOk1.1.1, termOk1.1.2⟩, termOk1.2⟩
  world := by
    intro i t h
    match i, h with
    | 0, h => simp only [DS, List.getElem?_cons_zero, Option.some.injEq] at h; subst h; exact worldS0 x
    | 1, h =>
      simp only [DS, List.getElem?_cons_succ, List.getElem?_cons_zero, Option.some.injEq] at h
      subst h; exact worldS1 x
    | i + 2, h => simp [DS] at h

/-- Non-vacuity of `split_vpc_valid_partial`: every point of the problem with integral `x0` satisfies the cut
`x1 ≤ 0` found by the complete run. -/
example (x : Vec) (hx : V.Feas x) (h0 : ∃ z : ℤ, x 0 = z) : x 1 ≤ 0 := by
  have key := (split_vpc_valid_partial (isInt := fun i => i = 0) (by norm_num) rfl split_prepared
    (by intro k col h; simpa [ask] using h) (by intro k col x _ _; simp [ask]) (runOkS x) hx
    (by rintro i rfl; exact h0)).1
  rw [the_cut] at key
  simp only [RowCut.Sat, sdot_cons, sdot_nil] at key
  linarith

/-! ## The same run, starting from branch and bound

The root node branches on `x0 = 1/2` and the solver stops; both children are open. -/

def bbN : NewNode :=
  { var := 0, value := 1 / 2, firstUp := false, osi := true, prevLB := 0, prevUB := 1, obj := -1,
    lo := [some 0, some 0], hi := [some 1, some 1] }

def bbE : SaveEnv :=
  { hitTime := false, warmOk := fun _ => true, parentOptimal := fun _ => true, lp := fun _ _ _ => some 0 }

/-- The disjunction saved. -/
def DB : Disj := { Disj.new with numTerms := 2, terms := [u0, u1], rootObj := -1 }

def bbT : List CNode := (bbInit V bbN).tree

theorem bb_saved : ∃ r, saveInformation V 2 (bbInit V bbN) bbT [] 2 bbE = .ok r ∧
    decide (r.1 = false ∧ r.2.D = DB) = true := Res.okAnd_iff (by decide +kernel)

theorem rowsB_eq : setupAll E o false false cost 0 V w DB =
    .ok (rows, { DB with bestObj := 0, worstObj := 0 }) := by decide +kernel

theorem runOkB (x : Vec) :
    RunOk E DB V ⟨V, []⟩ o false false w L [1/2, 1/2] 1 (1/10000000) x where
  sort := fun l => List.Perm.refl l
  root := ⟨1, fun _ => false, fun _ => false, fun _ => none, by decide +kernel⟩
  nb := nbOk
  prlp := ⟨cost, 0, rows, _, id, 1000000, 1/1000, rowsB_eq, fun l => List.Perm.refl l, by norm_num,
    by norm_num, wf, exact_rows, prlp_eq, feasβ⟩
  nz := by decide
  big := bigβ
  terms := by
    intro t ht
    simp only [DB, List.mem_cons, List.not_mem_nil, or_false] at ht
    rcases ht with rfl | rfl
    · exact ⟨⟨termOk0.1.1, termOk0.1.2⟩, termOk0.2⟩
    · exact ⟨⟨termOk1.1.1, termOk1.1.2⟩, termOk1.2⟩
  world := by
    intro i t h
    match i, h with
    | 0, h => simp only [DB, List.getElem?_cons_zero, Option.some.injEq] at h; subst h; exact worldS0 x
    | 1, h =>
      simp only [DB, List.getElem?_cons_succ, List.getElem?_cons_zero, Option.some.injEq] at h
      subst h; exact worldS1 x
    | i + 2, h => simp [DB] at h

theorem bb_tightens : OnlyTightens V bbN [] := by
  refine ⟨⟨?_, ?_⟩, by simp⟩
  · intro i l h
    match i with
    | 0 => exact ⟨0, rfl, by simp [V] at h; linarith⟩
    | 1 => exact ⟨0, rfl, by simp [V] at h; linarith⟩
    | (i + 2) => simp [V] at h
  · intro i u h
    match i with
    | 0 => exact ⟨1, rfl, by simp [V] at h; linarith⟩
    | 1 => exact ⟨1, rfl, by simp [V] at h; linarith⟩
    | (i + 2) => simp [V] at h

/-- Non-vacuity of `bb_vpc_valid_partial`: every point of the problem with integral `x0` satisfies the cut `x1 ≤ 0`
found by the complete run. -/
example (x : Vec) (hx : V.Feas x) (h0 : ∃ z : ℤ, x 0 = z) : x 1 ≤ 0 := by
  obtain ⟨r, hr, h⟩ := bb_saved
  obtain ⟨h1, h2⟩ := of_decide_eq_true h
  have key := (bb_vpc_valid_partial bb_tightens rfl (List.Perm.refl _) hr h1 (h2 ▸ runOkB x) hx
    ⟨h0, by simp⟩ (by intro i j Q h; cases h) ⟨hx.1, hx.2.1⟩ (by simp [LostIn])).1
  rw [the_cut] at key
  simp only [RowCut.Sat, sdot_cons, sdot_nil] at key
  linarith

end VPC.Tri
