import Verif.Model.Target
import Verif.Props.GenCut
import Verif.Props.Rounds
import Verif.Props.PRLP
import Mathlib.Tactic.Ring
import Mathlib.Tactic.Linarith

/-!
# Traversal of `targetStrongAndDifferentCuts`

`Keeps W L P` collects what a property `P` of the state must satisfy to be an invariant of the whole
function; `targetCuts_keeps` is the induction over the program. Each property theorem is one choice of
`P`.
-/
namespace VPC

/-! ## Objectives -/

/-- Objective value. -/
def objVal (obj β : List ℚ) : ℚ := (List.zipWith (· * ·) obj β).sum

theorem objVal_set (obj β : List ℚ) (i : ℕ) (c : ℚ) (hl : obj.length = β.length)
    (hi : i < obj.length) :
    objVal (obj.set i c) β = objVal obj β + (c - obj.getD i 0) * β.getD i 0 := by
  induction obj generalizing β i with
  | nil => simp at hi
  | cons a obj ih =>
    cases β with
    | nil => simp at hl
    | cons b β =>
      cases i with
      | zero => simp [objVal]; ring
      | succ i =>
        have h := ih β i (by simpa using hl) (by simpa using hi)
        simp only [objVal] at h
        simp only [objVal, List.set_cons_succ, List.zipWith_cons_cons, List.sum_cons,
          List.getD_cons_succ, h]
        ring

theorem addObj_length (obj : List ℚ) (v : SVec) : (addObj obj v).length = obj.length := by
  induction v generalizing obj with
  | nil => rfl
  | cons e v ih => simp only [addObj, List.foldl_cons] at ih ⊢; rw [ih]; simp

theorem addObj_val (obj β : List ℚ) (v : SVec) (hl : obj.length = β.length)
    (hv : ∀ e ∈ v, e.1 < obj.length) :
    objVal (addObj obj v) β = objVal obj β + sdot v (fun t => β.getD t 0) := by
  induction v generalizing obj with
  | nil => simp [addObj, sdot]
  | cons e v ih =>
    have h := ih (obj.set e.1 (obj.getD e.1 0 + e.2)) (by simpa using hl)
      (fun e' he' => by simpa using hv e' (by simp [he']))
    simp only [addObj, List.foldl_cons] at h ⊢
    rw [h, objVal_set _ _ _ _ hl (hv e (by simp)), sdot_cons]
    ring

theorem constObj_val (n : ℕ) (c : ℚ) (β : List ℚ) (hl : β.length = n) :
    objVal (constObj n c) β = c * β.sum := by
  subst hl
  induction β with
  | nil => simp [objVal, constObj]
  | cons b β ih =>
    simp only [objVal, constObj, List.length_cons, List.replicate_succ, List.zipWith_cons_cons,
      List.sum_cons] at ih ⊢
    rw [ih]; ring

theorem foldl_set_zero_length (obj : List ℚ) (v : SVec) :
    (v.foldl (fun o e => o.set e.1 0) obj).length = obj.length := by
  induction v generalizing obj with
  | nil => rfl
  | cons e v ih => rw [List.foldl_cons, ih]; simp

theorem clearObj_length (obj : List ℚ) (v : SVec) : (clearObj obj v).length = obj.length := by
  cases v with
  | nil => simp [clearObj, constObj]
  | cons e v => exact foldl_set_zero_length _ (e :: v)

theorem foldl_set_zero_getElem (v : SVec) (j : ℕ) (obj : List ℚ) (hj : j < obj.length)
    (h : (∃ e ∈ v, e.1 = j) ∨ obj.getD j 0 = 0) :
    (v.foldl (fun o e => o.set e.1 0) obj).getD j 0 = 0 := by
  induction v generalizing obj with
  | nil => rcases h with ⟨e, he, _⟩ | h
           · simp at he
           · exact h
  | cons e v ih =>
    rw [List.foldl_cons]
    refine ih _ (by simpa using hj) ?_
    by_cases hej : e.1 = j
    · right
      rw [List.getD_eq_getElem?_getD, List.getElem?_set]
      simp [hej, hj]
    · rcases h with ⟨e', he', rfl⟩ | h
      · rcases List.mem_cons.1 he' with rfl | he'
        · exact absurd rfl hej
        · exact .inl ⟨e', he', rfl⟩
      · right
        rw [List.getD_eq_getElem?_getD, List.getElem?_set]
        rw [List.getD_eq_getElem?_getD] at h
        simp [hej, h]

theorem addObj_getD_of_notMem (v : SVec) (j : ℕ) (obj : List ℚ) (h : ∀ e ∈ v, e.1 ≠ j) :
    (addObj obj v).getD j 0 = obj.getD j 0 := by
  induction v generalizing obj with
  | nil => rfl
  | cons e v ih =>
    simp only [addObj, List.foldl_cons] at ih ⊢
    rw [ih _ (fun e' he' => h e' (by simp [he']))]
    rw [List.getD_eq_getElem?_getD, List.getElem?_set, List.getD_eq_getElem?_getD]
    simp [h e (by simp)]

theorem eq_constObj_zero {obj : List ℚ} {n : ℕ} (hl : obj.length = n)
    (h : ∀ j < n, obj.getD j 0 = 0) : obj = constObj n 0 := by
  apply List.ext_getElem
  · simpa [constObj] using hl
  · intro i h1 h2
    have := h i (hl ▸ h1)
    rw [List.getD_eq_getElem?_getD, List.getElem?_eq_getElem h1] at this
    simpa [constObj] using this

/-- Adding a vector to the zero objective and clearing its entries gives the zero objective. -/
theorem clear_add (n : ℕ) (v : SVec) : clearObj (addObj (constObj n 0) v) v = constObj n 0 := by
  have hl : (addObj (constObj n 0) v).length = n := by simp [addObj_length, constObj]
  apply eq_constObj_zero (by rw [clearObj_length, hl])
  intro j hj
  cases v with
  | nil =>
    rw [clearObj, hl, constObj, List.getD_eq_getElem?_getD, List.getElem?_replicate, if_pos hj]
    rfl
  | cons e v =>
    refine foldl_set_zero_getElem (e :: v) j _ (by rw [hl]; exact hj) ?_
    by_cases h : ∃ e' ∈ e :: v, e'.1 = j
    · exact .inl h
    · right
      push Not at h
      rw [addObj_getD_of_notMem _ _ _ h, constObj, List.getD_eq_getElem?_getD,
        List.getElem?_replicate, if_pos hj]
      rfl

theorem set_set_zero (n j : ℕ) (c : ℚ) : ((constObj n 0).set j c).set j 0 = constObj n 0 := by
  apply eq_constObj_zero (by simp [constObj])
  intro i hi
  simp only [List.getD_eq_getElem?_getD, List.set_set, List.getElem?_set, constObj,
    List.getElem?_replicate, List.length_replicate]
  by_cases h : j = i <;> simp [h, hi]

/-! ## The shape of the LP -/

/-- Row entries refer to columns, and there is one pair of bounds per column. -/
structure BuiltLP.WF (L : BuiltLP) : Prop where
  rows : ∀ r ∈ L.rows, ∀ e ∈ r.1, e.1 < L.nz.length
  lb : L.lb.length = L.nz.length
  ub : L.ub.length = L.nz.length

/-- `p` is `L` up to lower bounds and the objective. -/
structure Shape (L : BuiltLP) (p : PLP) : Prop where
  nz : p.base.nz = L.nz
  rows : p.base.rows = L.rows
  ub : p.base.ub = L.ub
  lb : p.base.lb.length = L.lb.length

/-- Between two heuristics the objective is zero and all rows are inequalities. -/
structure AtRest (L : BuiltLP) (p : PLP) : Prop extends Shape L p where
  obj : p.obj = constObj L.nz.length 0
  eq : p.eqRow = none

theorem Shape.vec {L : BuiltLP} {p : PLP} (h : Shape L p) (k : ℕ) : p.base.vec k = L.vec k := by
  simp [BuiltLP.vec, h.rows]

theorem Shape.rhs {L : BuiltLP} {p : PLP} (h : Shape L p) (k : ℕ) : p.base.rhs k = L.rhs k := by
  simp [BuiltLP.rhs, h.rows]

theorem Shape.cols {L : BuiltLP} {p : PLP} (h : Shape L p) : p.cols = L.nz.length := by
  simp [PLP.cols, h.nz]

theorem Shape.cand {L : BuiltLP} {p : PLP} (h : Shape L p) (c : PCand) :
    candVec p.base c = candVec L c := by
  cases c <;> simp [candVec, h.vec]

/-! ## What each heuristic is meant to minimize -/

/-- The candidate refers to an existing row or column. -/
def CandIn (L : BuiltLP) : PCand → Prop
  | .row k => k < L.rows.length
  | .lb j => j < L.nz.length
  | .ub j => j < L.nz.length

/-- Minimize the activity of the row of point `k`, or, with that row as an equation, the activity of
another row, or a variable, or minus a variable. -/
def OnPoint (L : BuiltLP) (k : ℕ) (p : PLP) : Prop :=
  (p.eqRow = none ∧ p.obj = addObj (constObj L.nz.length 0) (L.vec k)) ∨
  (p.eqRow = some k ∧ ∃ c, CandIn L c ∧ p.obj = addObj (constObj L.nz.length 0) (candVec L c))

/-- The objective each heuristic is meant to use. `first` is the row of the point of the lowest objective
value. -/
def Intended (W : TWorld) (L : BuiltLP) (heur : ObjType) (p : PLP) : Prop :=
  match heur with
  | .ALL_ONES => p.eqRow = none ∧ p.obj = constObj L.nz.length 1
  | .ITER_BILINEAR => p.eqRow = none ∧ ((W.gomory = .point p.obj) ∨ ∃ j, W.gomoryStep j = .point p.obj)
  | .DISJ_LB => ∃ k, (pointRows L).head? = some k ∧ OnPoint L k p
  | .TIGHT_POINTS => ∃ k ∈ middlePoints (pointRows L), OnPoint L k p
  | .UNIT_VECTORS => p.eqRow = none ∧ ∃ j ∈ W.unitOrder, p.obj = (constObj L.nz.length 0).set j 1
  | .TIGHT_RAYS => p.eqRow = none ∧
      ∃ k ∈ rayRows L, p.obj = addObj (constObj L.nz.length 0) (L.vec k)
  | .TIGHT_POINTS2 => ∃ k ∈ pointRows L, (pointRows L).head? ≠ some k ∧ OnPoint L k p
  | .TIGHT_RAYS2 => p.eqRow = none ∧
      ∃ k ∈ rayRows L, p.obj = addObj (constObj L.nz.length 0) (L.vec k)
  | _ => False

/-- The solution of the point-ray LP used by an attempt. -/
def Attempt.sol? (a : Attempt) : Option (List ℚ) :=
  match a.op with
  | .tryObj _ _ s _ => s.sol?
  | _ => none

/-- The row of a point is an equation only after an attempt of the same heuristic with the row as objective whose
solution is tight on it. -/
def TightBefore (L : BuiltLP) (heur : ObjType) (st : TSt) : Prop :=
  ∀ k, st.lp.eqRow = some k → ∃ a ∈ st.log, a.heur = heur ∧ a.lp.eqRow = none ∧
    a.lp.obj = addObj (constObj L.nz.length 0) (L.vec k) ∧ ∃ x, a.sol? = some x ∧ isVal (L.act k x) (L.rhs k) = true

theorem tightBefore_none {L : BuiltLP} {heur : ObjType} {st : TSt} (h : st.lp.eqRow = none) :
    TightBefore L heur st := fun k hk => by rw [h] at hk; cases hk

/-- Neither the cut limit nor the failure limit is reached. -/
def Below (W : TWorld) (st : TSt) : Prop :=
  st.g.reachedCutLimit = false ∧
  ∃ t, reachedFailureLimit st.g.cutLimit t W.prlpTimeLimit st.pCuts st.pFails = false

/-- `P` is preserved by everything the function does. -/
structure Keeps (W : TWorld) (L : BuiltLP) (P : TSt → Prop) : Prop where
  ord : ∀ n l, (W.order n l).Perm l
  same : ∀ st st', P st → st'.g = st.g → st'.log = st.log → st'.pCuts = st.pCuts →
    st'.pFails = st.pFails → st'.lp.base = st.lp.base → P st'
  att : ∀ st heur st' r, P st → Below W st → Shape L st.lp →
    Intended W L heur st.lp ∧ TightBefore L heur st → attempt W heur st = .ok (st', r) → P st'
  low : ∀ st x j m, P st → AtRest L st.lp → j ∈ W.unitOrder →
    W.solve m { st.lp with obj := (constObj L.nz.length 0).set j 1 } = .optimal x →
    P (raiseLower j { st with
      cur := some x, lp := { st.lp with obj := (constObj L.nz.length 0).set j 1 } })

/-! ## Single steps -/

theorem limits_below {W : TWorld} {st : TSt} {b : Bool} (h : ¬ ((b || limits W st) = true)) :
    Below W st := by
  simp only [limits, Bool.or_eq_true, not_or, Bool.not_eq_true] at h
  exact ⟨h.2.1.1, _, h.2.2⟩

theorem Below.ticked {W : TWorld} {st : TSt} (h : Below W st) : Below W st.ticked := h

theorem Below.of_eq {W : TWorld} {st st' : TSt} (h : Below W st) (h1 : st'.g = st.g)
    (h2 : st'.pCuts = st.pCuts) (h3 : st'.pFails = st.pFails) : Below W st' := by
  unfold Below at *; rw [h1, h2, h3]; exact h

theorem attempt_ok {W : TWorld} {heur : ObjType} {st st' : TSt} {r : Ret}
    (h : attempt W heur st = .ok (st', r)) :
    ∃ g', genCut W.env st.g st.cur (W.solve st.n st.lp) heur = some (g', r) ∧
      st' = st.after W.env (W.solve st.n st.lp) heur g' r := by
  unfold attempt at h
  split at h
  · cases h
  · rename_i g' r' hg
    simp only [Res.ok.injEq, Prod.mk.injEq] at h
    obtain ⟨h1, h2⟩ := h
    subst h2
    exact ⟨g', hg, h1.symm⟩

theorem attempt_lp {W : TWorld} {heur : ObjType} {st st' : TSt} {r : Ret}
    (h : attempt W heur st = .ok (st', r)) : st'.lp = st.lp := by
  obtain ⟨g', _, rfl⟩ := attempt_ok h; rfl

/-- With the cut limit not reached, the solution held afterwards is the answer of this solve. -/
theorem attempt_cur {W : TWorld} {heur : ObjType} {st st' : TSt} {r : Ret} (hb : Below W st)
    (h : attempt W heur st = .ok (st', r)) : st'.cur = (W.solve st.n st.lp).sol? := by
  obtain ⟨g', _, rfl⟩ := attempt_ok h
  simp [TSt.after, hb.1]

theorem updateTight_same (st : TSt) :
    (updateTight st).g = st.g ∧ (updateTight st).log = st.log ∧ (updateTight st).pCuts = st.pCuts ∧
    (updateTight st).pFails = st.pFails ∧ (updateTight st).lp = st.lp ∧
    (updateTight st).cur = st.cur := by
  unfold updateTight; split <;> simp_all

theorem tryOne_ok {W : TWorld} {heur : ObjType} {st st' : TSt} {r : Ret}
    (h : tryOne W heur st = .ok (st', r)) :
    ∃ s1, attempt W heur st = .ok (s1, r) ∧ st' = updateTight s1 := by
  unfold tryOne at h
  obtain ⟨p, hp, h⟩ := Res.bind_ok h
  simp only [Res.ok.injEq, Prod.mk.injEq] at h
  exact ⟨p.1, by rw [hp, ← h.2], h.1.symm⟩

section Traversal
variable {W : TWorld} {L : BuiltLP} {P : TSt → Prop}

/-- One objective. -/
theorem tryOne_keeps (hK : Keeps W L P) {heur : ObjType} {st st' : TSt} {r : Ret} (hP : P st)
    (hb : Below W st) (hs : Shape L st.lp) (hi : Intended W L heur st.lp)
    (ht : TightBefore L heur st) (h : tryOne W heur st = .ok (st', r)) :
    P st' ∧ st'.lp = st.lp ∧ st'.cur = (W.solve st.n st.lp).sol? := by
  obtain ⟨s1, h1, rfl⟩ := tryOne_ok h
  have hu := updateTight_same s1
  refine ⟨hK.same s1 _ (hK.att _ _ _ _ hP hb hs ⟨hi, ht⟩ h1) hu.1 hu.2.1 hu.2.2.1 hu.2.2.2.1
    (by rw [hu.2.2.2.2.1]), ?_, ?_⟩
  · rw [hu.2.2.2.2.1]; exact attempt_lp h1
  · rw [hu.2.2.2.2.2]; exact attempt_cur hb h1

theorem Keeps.ticked (hK : Keeps W L P) {st : TSt} (h : P st) : P st.ticked :=
  hK.same _ _ h rfl rfl rfl rfl rfl

theorem Keeps.setObj (hK : Keeps W L P) {st : TSt} (h : P st) (o : List ℚ) : P (st.setObj o) :=
  hK.same _ _ h rfl rfl rfl rfl rfl

theorem Keeps.setEq (hK : Keeps W L P) {st : TSt} (h : P st) (o : Option ℕ) : P (st.setEq o) :=
  hK.same _ _ h rfl rfl rfl rfl rfl

theorem addCand_same (st : TSt) (cs : List PCand) :
    (addCand st cs).g = st.g ∧ (addCand st cs).log = st.log ∧ (addCand st cs).pCuts = st.pCuts ∧
    (addCand st cs).pFails = st.pFails ∧ (addCand st cs).lp.base = st.lp.base ∧
    (addCand st cs).lp.eqRow = st.lp.eqRow := by
  cases cs <;> simp [addCand, TSt.setObj]

theorem Keeps.addCand (hK : Keeps W L P) {st : TSt} (h : P st) (cs : List PCand) :
    P (addCand st cs) := by
  have := addCand_same st cs
  exact hK.same _ _ h this.1 this.2.1 this.2.2.1 this.2.2.2.1 this.2.2.2.2.1

theorem Shape.of_base {p q : PLP} (h : Shape L p) (e : q.base = p.base) : Shape L q :=
  ⟨by rw [e]; exact h.nz, by rw [e]; exact h.rows, by rw [e]; exact h.ub, by rw [e]; exact h.lb⟩

theorem Shape.setObj {st : TSt} (h : Shape L st.lp) (o : List ℚ) : Shape L (st.setObj o).lp :=
  h.of_base rfl

theorem Below.setObj {st : TSt} (h : Below W st) (o : List ℚ) : Below W (st.setObj o) :=
  h.of_eq rfl rfl rfl

/-- In the loop over candidates the row of the point is an equation and the objective is the vector of
the first candidate. -/
structure CandSt (L : BuiltLP) (row : ℕ) (cs : List PCand) (p : PLP) : Prop extends Shape L p where
  eq : p.eqRow = some row
  obj : p.obj = match cs with
    | [] => constObj L.nz.length 0
    | c :: _ => addObj (constObj L.nz.length 0) (candVec L c)
  mem : ∀ c ∈ cs, CandIn L c

theorem candSt_add {row : ℕ} {st : TSt} (hs : Shape L st.lp) (he : st.lp.eqRow = some row)
    (ho : st.lp.obj = constObj L.nz.length 0) (cs : List PCand) (hm : ∀ c ∈ cs, CandIn L c) :
    CandSt L row cs (addCand st cs).lp := by
  have hsame := addCand_same st cs
  refine ⟨hs.of_base hsame.2.2.2.2.1, by rw [hsame.2.2.2.2.2, he], ?_, hm⟩
  cases cs with
  | nil => exact ho
  | cons c cs => simp [addCand, TSt.setObj, ho, hs.cand]

theorem tryOne_log_mono {W : TWorld} {heur : ObjType} {st st' : TSt} {r : Ret}
    (h : tryOne W heur st = .ok (st', r)) {a : Attempt} (ha : a ∈ st.log) : a ∈ st'.log := by
  obtain ⟨s1, h1, rfl⟩ := tryOne_ok h
  rw [(updateTight_same s1).2.1]
  obtain ⟨g', _, rfl⟩ := attempt_ok h1
  exact List.mem_append_left _ ha

theorem tryOne_last {W : TWorld} {heur : ObjType} {st st' : TSt} {r : Ret}
    (h : tryOne W heur st = .ok (st', r)) :
    ∃ a ∈ st'.log, a.heur = heur ∧ a.lp = st.lp ∧ a.sol? = (W.solve st.n st.lp).sol? := by
  obtain ⟨s1, h1, rfl⟩ := tryOne_ok h
  rw [(updateTight_same s1).2.1]
  obtain ⟨g', _, rfl⟩ := attempt_ok h1
  exact ⟨_, List.mem_append_right _ (List.mem_singleton_self _), rfl, rfl, rfl⟩

theorem candLoop_keeps (hK : Keeps W L P) {heur : ObjType} {saved : TSt} {row : ℕ}
    (hint : ∀ p, OnPoint L row p → Intended W L heur p) :
    ∀ (k : ℕ) (cs : List PCand) (r : Ret) (st st' : TSt), P st → CandSt L row cs st.lp → TightBefore L heur st →
      candLoop W heur saved k cs r st = .ok st' → P st' ∧ Shape L st'.lp := by
  intro k
  induction k with
  | zero =>
    intro cs r st st' hP hc ht h
    simp only [candLoop, Res.ok.injEq] at h
    subst h
    exact ⟨hP, hc.toShape⟩
  | succ k ih =>
    intro cs r st st' hP hc ht h
    unfold candLoop at h
    split at h
    · simp only [Res.ok.injEq] at h
      subst h
      exact ⟨hK.ticked hP, hc.toShape⟩
    rename_i hlim
    have hb := limits_below hlim
    match cs, hc, h with
    | [], hc, h =>
      simp only [Res.ok.injEq] at h
      subst h
      exact ⟨hK.ticked hP, hc.toShape⟩
    | [c], hc, h =>
      simp only [Res.ok.injEq] at h
      subst h
      exact ⟨hK.ticked hP, hc.toShape⟩
    | c :: c' :: rest, hc, h =>
      simp only at h
      obtain ⟨p, hp, h⟩ := Res.bind_ok h
      obtain ⟨p1, p2⟩ := p
      have hi : Intended W L heur st.ticked.lp :=
        hint _ (.inr ⟨hc.eq, c, hc.mem c (by simp), by rw [show st.ticked.lp.obj = st.lp.obj from rfl, hc.obj]⟩)
      obtain ⟨hP1, hlp, -⟩ := tryOne_keeps hK (hK.ticked hP) hb.ticked hc.toShape hi ht hp
      have hlp : p1.lp = st.lp := hlp
      simp only at h
      split at h
      · simp only [Res.ok.injEq] at h
        subst h
        exact ⟨hP1, by rw [hlp]; exact hc.toShape⟩
      · refine ih _ _ _ _ (hK.addCand (hK.setObj hP1 _) _) ?_ ?_ h
        swap
        · intro k' hk'
          have hsm := addCand_same (p1.setObj (clearObj p1.lp.obj (candVec p1.lp.base c)))
            ((c' :: rest).dropWhile (changed (p1.setObj (clearObj p1.lp.obj (candVec p1.lp.base c))) saved))
          rw [hsm.2.2.2.2.2] at hk'
          obtain ⟨a, ha, h4⟩ := ht k' (by rw [← hlp]; exact hk')
          exact ⟨a, by rw [hsm.2.1]; exact tryOne_log_mono hp ha, h4⟩
        refine candSt_add (st := p1.setObj _) ?_ ?_ ?_ _
          (fun c' hc' => hc.mem c' (List.mem_cons_of_mem _ ((List.dropWhile_suffix _).subset hc')))
        · exact hc.toShape.of_base (by simp [TSt.setObj, hlp])
        · simp [TSt.setObj, hlp, hc.eq]
        · have ho := hc.obj
          simp only at ho
          simp only [TSt.setObj, hlp, ho, hc.toShape.cand]
          exact clear_add _ _

theorem restore_keeps (hK : Keeps W L P) {st : TSt} (hP : P st) (hs : Shape L st.lp) :
    P st.restore ∧ AtRest L st.restore.lp :=
  ⟨hK.setEq (hK.setObj hP _) _,
    ⟨hs.of_base rfl, by simp [TSt.restore, TSt.setEq, TSt.setObj, hs.cols], rfl⟩⟩

theorem candidates_in {st : TSt} (hs : Shape L st.lp) {x : List ℚ} {bs : List ℕ} {c : PCand}
    (h : c ∈ candidates st x bs) : CandIn L c := by
  unfold candidates at h
  rw [List.mem_flatMap] at h
  obtain ⟨v, -, h⟩ := h
  split at h
  · rename_i hv
    rw [hs.cols] at hv
    unfold colCands at h
    rw [List.mem_append] at h
    rcases h with h | h
    · split at h
      · rw [List.mem_singleton] at h; subst h; exact hv
      · simp at h
    · split at h
      · rw [List.mem_singleton] at h; subst h; exact hv
      · simp at h
  · unfold rowCands at h
    split at h
    · rename_i hz
      rw [List.mem_singleton] at h
      subst h
      by_contra hlt
      have hnone : st.lp.base.rows[v - st.lp.cols]? = none := by
        rw [hs.rows]; exact List.getElem?_eq_none (not_lt.1 hlt)
      have hz' : isZero (0 : ℚ) = true := by decide +kernel
      simp only [BuiltLP.act, BuiltLP.vec, BuiltLP.rhs, List.getD_eq_getElem?_getD, hnone,
        Option.getD_none, sdot, List.map_nil, List.sum_nil, sub_zero, hz', Bool.not_true,
        Bool.false_eq_true] at hz
    · simp at h

theorem findMore_keeps (hK : Keeps W L P) {heur : ObjType} {row : ℕ}
    (hint : ∀ p, OnPoint L row p → Intended W L heur p) {maxObj : ℤ} {x : List ℚ} {r : Ret}
    {st st' : TSt} (hP : P st) (hr : AtRest L st.lp) (ht : TightBefore L heur (st.setEq (some row)))
    (h : findMore W heur row maxObj x r st = .ok st') : P st' ∧ AtRest L st'.lp := by
  unfold findMore at h
  simp only at h
  generalize hcs : W.order _ _ = cs at h
  have hc : CandSt L row cs (addCand (st.setEq (some row)) cs).lp :=
    candSt_add (st := st.setEq (some row)) (hr.toShape.of_base rfl) rfl hr.obj cs
      (fun c hc => candidates_in (st := st.setEq (some row)) (hr.toShape.of_base rfl)
        ((hK.ord _ _).mem_iff.1 (hcs ▸ hc)))
  have hPc : P (addCand (st.setEq (some row)) cs) := hK.addCand (hK.setEq hP _) _
  split at h
  · simp only [Res.ok.injEq] at h
    subst h
    exact restore_keeps hK hPc hc.toShape
  · obtain ⟨s, hs, h⟩ := Res.bind_ok h
    simp only [Res.ok.injEq] at h
    subst h
    obtain ⟨h1, h2⟩ := candLoop_keeps hK hint _ _ _ _ _ hPc hc (fun k hk => by
      have hsm := addCand_same (st.setEq (some row)) cs
      rw [hsm.2.2.2.2.2] at hk
      rw [hsm.2.1]
      exact ht k hk) hs
    exact restore_keeps hK h1 h2

theorem findCuts_keeps (hK : Keeps W L P) {heur : ObjType} {row : ℕ}
    (hint : ∀ p, OnPoint L row p → Intended W L heur p) {maxObj : ℤ}
    {st st' : TSt} (hP : P st) (hb : Below W st) (hr : AtRest L st.lp)
    (h : findCuts W heur row maxObj st = .ok st') : P st' ∧ AtRest L st'.lp := by
  unfold findCuts at h
  simp only at h
  obtain ⟨p, hp, h⟩ := Res.bind_ok h
  obtain ⟨p1, p2⟩ := p
  have hi : Intended W L heur (st.setObj (addObj st.lp.obj (st.lp.base.vec row))).lp := by
    refine hint _ (.inl ⟨hr.eq, ?_⟩)
    simp [TSt.setObj, hr.obj, hr.toShape.vec]
  obtain ⟨hP1, hlp, hcur⟩ := tryOne_keeps hK (hK.setObj hP _) (hb.setObj _)
    (hr.toShape.setObj _) hi (tightBefore_none hr.eq) hp
  have hrest : AtRest L (p1.setObj (clearObj p1.lp.obj (st.lp.base.vec row))).lp := by
    refine ⟨hr.toShape.of_base ?_, ?_, ?_⟩
    · simp [TSt.setObj, hlp]
    · simp only [TSt.setObj, hlp, hr.obj, hr.toShape.vec]
      exact clear_add _ _
    · simp [TSt.setObj, hlp, hr.eq]
  have hP2 := hK.setObj hP1 (clearObj p1.lp.obj (st.lp.base.vec row))
  simp only at h
  unfold findCont at h
  split at h
  · simp only [Res.ok.injEq] at h
    subst h
    exact ⟨hK.ticked hP2, hrest⟩
  split at h
  · simp only [Res.ok.injEq] at h
    subst h
    exact ⟨hK.ticked hP2, hrest⟩
  rename_i x hx
  split at h
  · simp only [Res.ok.injEq] at h
    subst h
    exact ⟨hK.ticked hP2, hrest⟩
  · rename_i htight
    refine findMore_keeps hK hint (hK.ticked hP2) hrest ?_ h
    intro k hk
    have hk : row = k := by simpa [TSt.setEq] using hk
    subst hk
    obtain ⟨a, ha, h1, h2, h3⟩ := tryOne_last hp
    refine ⟨a, ha, h1, by rw [h2]; exact hr.eq, ?_, x, ?_, ?_⟩
    · rw [h2]; simp [TSt.setObj, hr.obj, hr.toShape.vec]
    · rw [h3, ← hcur]; exact hx
    · simp only [Bool.or_eq_true, not_or, Bool.not_eq_true, Bool.not_eq_false'] at htight
      have h5 := htight.1
      unfold rowTight BuiltLP.act at h5
      rw [hrest.toShape.vec, hrest.toShape.rhs] at h5
      exact h5

/-! ## The post-Gomory point -/

theorem gomoryLoop_keeps (hK : Keeps W L P) :
    ∀ (k j : ℕ) (st st' : TSt), P st → Shape L st.lp → st.lp.eqRow = none →
      gomoryLoop W k j st = .ok st' → P st' ∧ Shape L st'.lp ∧ st'.lp.eqRow = none := by
  intro k
  induction k with
  | zero =>
    intro j st st' hP hs he h
    simp only [gomoryLoop, Res.ok.injEq] at h
    subst h
    exact ⟨hP, hs, he⟩
  | succ k ih =>
    intro j st st' hP hs he h
    rw [gomoryLoop] at h
    split at h
    · simp only [Res.ok.injEq] at h
      subst h
      exact ⟨hK.ticked hP, hs, he⟩
    rename_i hlim
    simp only [Bool.or_eq_true, not_or, Bool.not_eq_true] at hlim
    have hb : Below W st := ⟨hlim.1, _, hlim.2⟩
    split at h
    · simp only [Res.ok.injEq] at h
      subst h
      exact ⟨hK.ticked hP, hs, he⟩
    · cases h
    · simp only [Res.ok.injEq] at h
      subst h
      exact ⟨hK.ticked hP, hs, he⟩
    · rename_i obj hobj
      simp only at h
      split at h
      · simp only [Res.ok.injEq] at h
        subst h
        exact ⟨hK.same _ _ hP rfl rfl rfl rfl rfl, hs.of_base rfl, he⟩
      · obtain ⟨p, hp, h⟩ := Res.bind_ok h
        obtain ⟨p1, p2⟩ := p
        have hlp := attempt_lp hp
        have hP1 : P p1 := by
          refine hK.att _ _ _ _ ?_ ?_ ?_ ?_ hp
          · exact hK.same _ _ hP rfl rfl rfl rfl rfl
          · exact hb.of_eq rfl rfl rfl
          · exact hs.of_base rfl
          · exact ⟨⟨he, .inr ⟨j, hobj⟩⟩, tightBefore_none he⟩
        simp only at h
        have hs1 : Shape L p1.lp := hs.of_base (by rw [hlp]; rfl)
        have he1 : p1.lp.eqRow = none := by rw [hlp]; exact he
        split at h
        · simp only [Res.ok.injEq] at h
          subst h
          exact ⟨hP1, hs1, he1⟩
        · exact ih _ _ _ hP1 hs1 he1 h

theorem iterate_keeps (hK : Keeps W L P) {st st' : TSt} (hP : P st) (hb : Below W st)
    (hr : AtRest L st.lp) (h : iterate W st = .ok st') :
    P st' ∧ Shape L st'.lp ∧ st'.lp.eqRow = none := by
  unfold iterate at h
  split at h
  · simp only [Res.ok.injEq] at h
    subst h
    exact ⟨hP, hr.toShape, hr.eq⟩
  split at h
  · simp only [Res.ok.injEq] at h
    subst h
    exact ⟨hP, hr.toShape, hr.eq⟩
  · cases h
  · rename_i obj hobj
    obtain ⟨p, hp, h⟩ := Res.bind_ok h
    obtain ⟨p1, p2⟩ := p
    have hlp := attempt_lp hp
    have hP1 : P p1 := by
      refine hK.att _ _ _ _ (hK.setObj hP _) (hb.setObj _) (hr.toShape.setObj _) ?_ hp
      exact ⟨⟨hr.eq, .inl hobj⟩, tightBefore_none hr.eq⟩
    have hs1 : Shape L p1.lp := hr.toShape.of_base (by rw [hlp]; rfl)
    have he1 : p1.lp.eqRow = none := by rw [hlp]; exact hr.eq
    simp only at h
    split at h
    · simp only [Res.ok.injEq] at h
      subst h
      exact ⟨hP1, hs1, he1⟩
    split at h
    · simp only [Res.ok.injEq] at h
      subst h
      exact ⟨hP1, hs1, he1⟩
    · exact gomoryLoop_keeps hK _ _ _ _ hP1 hs1 he1 h

/-! ## The phases -/

/-- What holds after a phase: the invariant, the LP at rest, and, if the function goes on, neither limit
is reached. -/
def PhaseOk (W : TWorld) (L : BuiltLP) (P : TSt → Prop) (q : TSt × Bool) : Prop :=
  P q.1 ∧ AtRest L q.1.lp ∧ (q.2 = false → Below W q.1)

theorem abandonTest_ok (hK : Keeps W L P) {st : TSt} {q : TSt × Bool} (hP : P st)
    (hr : AtRest L st.lp) (h : abandonTest W st = .ok q) : PhaseOk W L P q := by
  simp only [abandonTest, Res.ok.injEq] at h
  subst h
  refine ⟨hK.ticked hP, hr, fun h => ?_⟩
  exact (limits_below (by simp at h ⊢; exact h)).ticked

theorem Phase.next_ok {p : Phase} {f : TSt → Phase} {q : TSt × Bool} (h : Phase.next p f = .ok q)
    (hp : ∀ q, p = .ok q → PhaseOk W L P q)
    (hf : ∀ st q, PhaseOk W L P (st, false) → f st = .ok q → P q.1 ∧ AtRest L q.1.lp) :
    P q.1 ∧ AtRest L q.1.lp := by
  unfold Phase.next at h
  obtain ⟨q1, hq1, h⟩ := Res.bind_ok h
  have h1 := hp q1 hq1
  split at h
  · simp only [Res.ok.injEq] at h
    exact h ▸ ⟨h1.1, h1.2.1⟩
  · rename_i hb
    refine hf q1.1 q ?_ h
    have : q1.2 = false := by simpa using hb
    exact ⟨h1.1, h1.2.1, fun _ => h1.2.2 this⟩

theorem phaseAllOnes_ok (hK : Keeps W L P) {st : TSt} {q : TSt × Bool} (hP : P st) (hb : Below W st)
    (hr : AtRest L st.lp) (h : phaseAllOnes W st = .ok q) : PhaseOk W L P q := by
  unfold phaseAllOnes at h
  split at h
  · obtain ⟨p, hp, h⟩ := Res.bind_ok h
    obtain ⟨p1, p2⟩ := p
    have hi : Intended W L .ALL_ONES (st.setObj (constObj st.lp.cols 1)).lp :=
      ⟨hr.eq, by simp [TSt.setObj, hr.toShape.cols]⟩
    obtain ⟨hP1, hlp, -⟩ := tryOne_keeps hK (hK.setObj hP _) (hb.setObj _)
      (hr.toShape.setObj _) hi (tightBefore_none hr.eq) hp
    have hs : Shape L p1.lp := hr.toShape.of_base (by rw [hlp]; rfl)
    refine abandonTest_ok hK ?_ ?_ h
    · exact hK.same _ _ hP1 rfl rfl rfl rfl rfl
    exact ⟨hs.of_base rfl, by simp [TSt.setObj, hs.cols], by simp [TSt.setObj, hlp, hr.eq]⟩
  · simp only [Res.ok.injEq] at h
    subst h
    exact ⟨hP, hr, fun _ => hb⟩

theorem phaseGomory_ok (hK : Keeps W L P) {st : TSt} {q : TSt × Bool} (hP : P st) (hb : Below W st)
    (hr : AtRest L st.lp) (h : phaseGomory W st = .ok q) : PhaseOk W L P q := by
  unfold phaseGomory at h
  split at h
  · obtain ⟨s, hs, h⟩ := Res.bind_ok h
    obtain ⟨h1, h2, h3⟩ := iterate_keeps hK hP hb hr hs
    refine abandonTest_ok hK (hK.setObj h1 _) ?_ h
    exact ⟨h2.of_base rfl, by simp [TSt.setObj, h2.cols], h3⟩
  · simp only [Res.ok.injEq] at h
    subst h
    exact ⟨hP, hr, fun _ => hb⟩

theorem phaseDisjLB_ok (hK : Keeps W L P) {first : ℕ} (hf : (pointRows L).head? = some first)
    {maxObj : ℤ} {st : TSt} {q : TSt × Bool} (hP : P st) (hb : Below W st)
    (hr : AtRest L st.lp) (h : phaseDisjLB W first maxObj st = .ok q) : PhaseOk W L P q := by
  unfold phaseDisjLB at h
  split at h
  · obtain ⟨s, hs, h⟩ := Res.bind_ok h
    obtain ⟨h1, h2⟩ := findCuts_keeps hK (heur := .DISJ_LB) (fun p hp => ⟨first, hf, hp⟩) hP hb hr hs
    exact abandonTest_ok hK h1 h2 h
  · simp only [Res.ok.injEq] at h
    subst h
    exact ⟨hP, hr, fun _ => hb⟩

theorem pointsLoop_keeps (hK : Keeps W L P) {maxObj : ℤ} :
    ∀ (ks : List ℕ) (tried : ℕ) (st : TSt) (q : TSt × Bool × ℕ),
      (∀ k ∈ ks, k ∈ middlePoints (pointRows L)) → P st → AtRest L st.lp →
      pointsLoop W maxObj ks tried st = .ok q → P q.1 ∧ AtRest L q.1.lp := by
  intro ks
  induction ks with
  | nil =>
    intro tried st q _ hP hr h
    simp only [pointsLoop, Res.ok.injEq] at h
    subst h
    exact ⟨hP, hr⟩
  | cons k ks ih =>
    intro tried st q hks hP hr h
    rw [pointsLoop] at h
    split at h
    · simp only [Res.ok.injEq] at h
      subst h
      exact ⟨hK.ticked hP, hr⟩
    rename_i hlim
    split at h
    · simp only [Res.ok.injEq] at h
      subst h
      exact ⟨hK.ticked hP, hr⟩
    split at h
    · exact ih _ _ _ (fun k hk => hks k (by simp [hk])) (hK.ticked hP) hr h
    · obtain ⟨s, hs, h⟩ := Res.bind_ok h
      obtain ⟨h1, h2⟩ := findCuts_keeps hK (heur := .TIGHT_POINTS)
        (fun p hp => ⟨k, hks k (by simp), hp⟩) (hK.ticked hP) (limits_below hlim).ticked hr hs
      exact ih _ _ _ (fun k hk => hks k (by simp [hk])) h1 h2 h

theorem phasePoints_ok (hK : Keeps W L P) {maxObj : ℤ} {st : TSt} {q : TSt × Bool × ℕ} (hP : P st)
    (hr : AtRest L st.lp) (h : phasePoints W (pointRows L) maxObj st = .ok q) :
    PhaseOk W L P (q.1, q.2.1) := by
  unfold phasePoints at h
  obtain ⟨q1, hq1, h⟩ := Res.bind_ok h
  have h1 : P q1.1 ∧ AtRest L q1.1.lp := by
    split at hq1
    · exact pointsLoop_keeps hK _ _ _ _ (fun _ h => h) hP hr hq1
    · simp only [Res.ok.injEq] at hq1
      subst hq1
      exact ⟨hP, hr⟩
  split at h
  · rename_i hb
    simp only [Res.ok.injEq] at h
    subst h
    exact ⟨h1.1, h1.2, fun h => absurd h (by simp [hb])⟩
  · obtain ⟨p, hp, h⟩ := Res.bind_ok h
    simp only [Res.ok.injEq] at h
    subst h
    exact abandonTest_ok hK h1.1 h1.2 hp

theorem raiseLower_shape {p : TSt} (j : ℕ) (h : Shape L p.lp) : Shape L (raiseLower j p).lp := by
  unfold raiseLower
  split
  · exact h
  · exact ⟨h.nz, h.rows, h.ub, by simp [h.lb]⟩

theorem raiseLower_obj {p : TSt} (j : ℕ) :
    (raiseLower j p).lp.obj = p.lp.obj ∧ (raiseLower j p).lp.eqRow = p.lp.eqRow := by
  unfold raiseLower
  split <;> simp

theorem raiseLower_of_none {p : TSt} (j : ℕ) (h : p.cur = none) : raiseLower j p = p := by
  unfold raiseLower; rw [h]

theorem tryUnit_keeps (hK : Keeps W L P) {j : ℕ} (hj : j ∈ W.unitOrder) {st st' : TSt} (hP : P st)
    (hb : Below W st) (hr : AtRest L st.lp) (h : tryUnit W j st = .ok st') :
    P st' ∧ AtRest L st'.lp := by
  unfold tryUnit at h
  obtain ⟨p, hp, h⟩ := Res.bind_ok h
  obtain ⟨p1, p2⟩ := p
  have hi : Intended W L .UNIT_VECTORS (st.setObj (st.lp.obj.set j 1)).lp :=
    ⟨hr.eq, j, hj, by simp [TSt.setObj, hr.obj]⟩
  obtain ⟨hP1, hlp, hcur⟩ := tryOne_keeps hK (hK.setObj hP _) (hb.setObj _)
    (hr.toShape.setObj _) hi (tightBefore_none hr.eq) hp
  simp only [Res.ok.injEq] at h
  subst h
  have hs1 : Shape L p1.lp := hr.toShape.of_base (by rw [hlp]; rfl)
  have hobj1 : p1.lp.obj = (constObj L.nz.length 0).set j 1 := by
    rw [hlp]; simp [TSt.setObj, hr.obj]
  refine ⟨hK.setObj ?_ _, ⟨?_, ?_, ?_⟩⟩
  · cases hx : p1.cur with
    | none =>
      have : raiseLower j { p1 with rc := p2 } = { p1 with rc := p2 } := raiseLower_of_none _ hx
      simp only [hx] at this
      rw [this]
      exact hK.same _ _ hP1 rfl rfl rfl rfl rfl
    | some x =>
      rw [hcur] at hx
      have hsol : W.solve st.n { p1.lp with obj := (constObj L.nz.length 0).set j 1 } = .optimal x := by
        have he : ({ p1.lp with obj := (constObj L.nz.length 0).set j 1 } : PLP)
            = (st.setObj (st.lp.obj.set j 1)).lp := by
          rw [hlp]; simp [TSt.setObj, hr.obj]
        rw [he]
        have hn : (st.setObj (st.lp.obj.set j 1)).n = st.n := rfl
        rw [hn] at hx
        generalize W.solve st.n _ = s at hx ⊢
        cases s <;> simp_all [Solve.sol?]
      -- the state before the bound is raised, with the objective put back to zero
      have hP0 : P ({ p1 with rc := p2 }.setObj (constObj L.nz.length 0)) :=
        hK.same _ _ hP1 rfl rfl rfl rfl rfl
      have hrest : AtRest L ({ p1 with rc := p2 }.setObj (constObj L.nz.length 0)).lp :=
        ⟨hs1.of_base rfl, rfl, by simp only [TSt.setObj]; rw [hlp]; exact hr.eq⟩
      have := hK.low _ x j st.n hP0 hrest hj (by simpa [TSt.setObj] using hsol)
      have hx1 : p1.cur = some x := by rw [hcur]; exact hx
      refine hK.same _ _ this ?_ ?_ ?_ ?_ ?_ <;>
        simp [raiseLower, TSt.setObj, hx1, hobj1, newLower]
  · exact (raiseLower_shape j (p := { p1 with rc := p2 }) hs1).of_base rfl
  · simp only [TSt.setObj]
    rw [(raiseLower_obj j).1, hobj1]
    exact set_set_zero _ _ _
  · simp only [TSt.setObj]
    rw [(raiseLower_obj j).2]
    show p1.lp.eqRow = none
    rw [hlp]; exact hr.eq

theorem unitsLoop_keeps (hK : Keeps W L P) {max : ℤ} :
    ∀ (js : List ℕ) (tried : ℕ) (st : TSt) (q : TSt × Bool),
      (∀ j ∈ js, j ∈ W.unitOrder) → P st → AtRest L st.lp →
      unitsLoop W max js tried st = .ok q → P q.1 ∧ AtRest L q.1.lp := by
  intro js
  induction js with
  | nil =>
    intro tried st q _ hP hr h
    simp only [unitsLoop, Res.ok.injEq] at h
    subst h
    exact ⟨hP, hr⟩
  | cons j js ih =>
    intro tried st q hjs hP hr h
    rw [unitsLoop] at h
    split at h
    · simp only [Res.ok.injEq] at h
      subst h
      exact ⟨hP, hr⟩
    split at h
    · simp only [Res.ok.injEq] at h
      subst h
      exact ⟨hK.ticked hP, hr⟩
    rename_i hlim
    split at h
    · exact ih _ _ _ (fun k hk => hjs k (by simp [hk])) (hK.ticked hP) hr h
    · obtain ⟨s, hs, h⟩ := Res.bind_ok h
      obtain ⟨h1, h2⟩ := tryUnit_keeps hK (hjs j (by simp)) (hK.ticked hP) (limits_below hlim).ticked
        hr hs
      exact ih _ _ _ (fun k hk => hjs k (by simp [hk])) h1 h2 h

theorem phaseUnits_ok (hK : Keeps W L P) {max : ℤ} {st : TSt} {q : TSt × Bool} (hP : P st)
    (hr : AtRest L st.lp) (h : phaseUnits W max st = .ok q) : P q.1 ∧ AtRest L q.1.lp ∧
      (q.2 = false → Below W q.1) := by
  unfold phaseUnits Phase.next at h
  obtain ⟨q1, hq1, h⟩ := Res.bind_ok h
  have h1 : P q1.1 ∧ AtRest L q1.1.lp := by
    split at hq1
    · exact unitsLoop_keeps hK _ _ _ _ (fun _ h => h) hP hr hq1
    · simp only [Res.ok.injEq] at hq1
      subst hq1
      exact ⟨hP, hr⟩
  split at h
  · rename_i hb
    simp only [Res.ok.injEq] at h
    subst h
    exact ⟨h1.1, h1.2, fun h => absurd h (by simp [hb])⟩
  · exact abandonTest_ok hK h1.1 h1.2 h

theorem tryRay_keeps (hK : Keeps W L P) {heur : ObjType} {mark : Bool} {k : ℕ}
    (hint : ∀ p : PLP, p.eqRow = none → p.obj = addObj (constObj L.nz.length 0) (L.vec k) →
      Intended W L heur p) {st st' : TSt} (hP : P st)
    (hb : Below W st) (hr : AtRest L st.lp) (h : tryRay W heur mark k st = .ok st') :
    P st' ∧ AtRest L st'.lp := by
  unfold tryRay at h
  obtain ⟨p, hp, h⟩ := Res.bind_ok h
  obtain ⟨p1, p2⟩ := p
  have hi : Intended W L heur (st.setObj (addObj st.lp.obj (st.lp.base.vec k))).lp :=
    hint _ hr.eq (by simp [TSt.setObj, hr.obj, hr.toShape.vec])
  obtain ⟨hP1, hlp, -⟩ := tryOne_keeps hK (hK.setObj hP _) (hb.setObj _)
    (hr.toShape.setObj _) hi (tightBefore_none hr.eq) hp
  simp only [Res.ok.injEq] at h
  subst h
  have hs1 : Shape L p1.lp := hr.toShape.of_base (by rw [hlp]; rfl)
  refine ⟨hK.same _ _ hP1 rfl rfl rfl rfl rfl, ⟨hs1.of_base rfl, ?_, ?_⟩⟩
  · simp only [TSt.setObj]
    rw [hlp]
    simp only [TSt.setObj, hr.obj, hr.toShape.vec]
    exact clear_add _ _
  · simp only [TSt.setObj]
    rw [hlp]
    exact hr.eq

theorem raysLoop_keeps (hK : Keeps W L P) {max : ℤ} :
    ∀ (ks : List ℕ) (tried : ℕ) (st : TSt) (q : TSt × Bool × ℕ),
      (∀ k ∈ ks, k ∈ rayRows L) → P st → AtRest L st.lp →
      raysLoop W max ks tried st = .ok q → P q.1 ∧ AtRest L q.1.lp := by
  intro ks
  induction ks with
  | nil =>
    intro tried st q _ hP hr h
    simp only [raysLoop, Res.ok.injEq] at h
    subst h
    exact ⟨hP, hr⟩
  | cons k ks ih =>
    intro tried st q hks hP hr h
    rw [raysLoop] at h
    split at h
    · simp only [Res.ok.injEq] at h
      subst h
      exact ⟨hP, hr⟩
    split at h
    · simp only [Res.ok.injEq] at h
      subst h
      exact ⟨hK.ticked hP, hr⟩
    rename_i hlim
    split at h
    · exact ih _ _ _ (fun k hk => hks k (by simp [hk])) (hK.ticked hP) hr h
    · obtain ⟨s, hs, h⟩ := Res.bind_ok h
      obtain ⟨h1, h2⟩ := tryRay_keeps hK (heur := .TIGHT_RAYS)
        (fun p h1 h2 => ⟨h1, k, hks k (by simp), h2⟩) (hK.ticked hP) (limits_below hlim).ticked hr hs
      exact ih _ _ _ (fun k hk => hks k (by simp [hk])) h1 h2 h

theorem phaseRays_ok (hK : Keeps W L P) {max : ℤ} {st : TSt} {q : TSt × Bool × ℕ} (hP : P st)
    (hr : AtRest L st.lp) (h : phaseRays W (rayRows L) max st = .ok q) :
    PhaseOk W L P (q.1, q.2.1) := by
  unfold phaseRays at h
  obtain ⟨q1, hq1, h⟩ := Res.bind_ok h
  have h1 : P q1.1 ∧ AtRest L q1.1.lp := by
    split at hq1
    · exact raysLoop_keeps hK _ _ _ _ (fun _ h => h) hP hr hq1
    · simp only [Res.ok.injEq] at hq1
      subst hq1
      exact ⟨hP, hr⟩
  split at h
  · rename_i hb
    simp only [Res.ok.injEq] at h
    subst h
    exact ⟨h1.1, h1.2, fun h => absurd h (by simp [hb])⟩
  · obtain ⟨p, hp, h⟩ := Res.bind_ok h
    simp only [Res.ok.injEq] at h
    subst h
    exact abandonTest_ok hK h1.1 h1.2 hp

theorem points2Loop_keeps (hK : Keeps W L P) {first : ℕ} (hf : (pointRows L).head? = some first)
    {maxObj : ℤ} :
    ∀ (ks : List ℕ) (tried : ℕ) (st : TSt) (q : TSt × Bool),
      (∀ k ∈ ks, k ∈ pointRows L) → P st → AtRest L st.lp →
      points2Loop W first maxObj ks tried st = .ok q → P q.1 ∧ AtRest L q.1.lp := by
  intro ks
  induction ks with
  | nil =>
    intro tried st q _ hP hr h
    simp only [points2Loop, Res.ok.injEq] at h
    subst h
    exact ⟨hP, hr⟩
  | cons k ks ih =>
    intro tried st q hks hP hr h
    have hks' : ∀ k ∈ ks, k ∈ pointRows L := fun k hk => hks k (by simp [hk])
    rw [points2Loop] at h
    split at h
    · simp only [Res.ok.injEq] at h
      subst h
      exact ⟨hK.ticked hP, hr⟩
    rename_i hlim
    split at h
    · simp only [Res.ok.injEq] at h
      subst h
      exact ⟨hK.ticked hP, hr⟩
    split at h
    · exact ih _ _ _ hks' (hK.ticked hP) hr h
    split at h
    · exact ih _ _ _ hks' (hK.ticked hP) hr h
    · rename_i hne
      obtain ⟨s, hs, h⟩ := Res.bind_ok h
      obtain ⟨h1, h2⟩ := findCuts_keeps hK (heur := .TIGHT_POINTS2)
        (fun p hp => ⟨k, hks k (by simp), by rw [hf]; simpa using fun h => hne h.symm, hp⟩)
        (hK.ticked hP) (limits_below hlim).ticked hr hs
      exact ih _ _ _ hks' h1 h2 h

theorem phasePoints2_ok (hK : Keeps W L P) {first : ℕ} (hf : (pointRows L).head? = some first)
    {maxObj : ℤ} {tried : ℕ} {st : TSt} {q : TSt × Bool} (hP : P st)
    (hr : AtRest L st.lp) (h : phasePoints2 W (pointRows L) first maxObj tried st = .ok q) :
    PhaseOk W L P q := by
  unfold phasePoints2 Phase.next at h
  obtain ⟨q1, hq1, h⟩ := Res.bind_ok h
  have h1 : P q1.1 ∧ AtRest L q1.1.lp := by
    split at hq1
    · exact points2Loop_keeps hK hf _ _ _ _ (fun _ h => h) hP hr hq1
    · simp only [Res.ok.injEq] at hq1
      subst hq1
      exact ⟨hP, hr⟩
  split at h
  · rename_i hb
    simp only [Res.ok.injEq] at h
    subst h
    exact ⟨h1.1, h1.2, fun h => absurd h (by simp [hb])⟩
  · exact abandonTest_ok hK h1.1 h1.2 h

theorem rays2Loop_keeps (hK : Keeps W L P) {max : ℤ} :
    ∀ (ks : List ℕ) (tried : ℕ) (st : TSt) (q : TSt × Bool),
      (∀ k ∈ ks, k ∈ rayRows L) → P st → AtRest L st.lp →
      rays2Loop W max ks tried st = .ok q → P q.1 ∧ AtRest L q.1.lp := by
  intro ks
  induction ks with
  | nil =>
    intro tried st q _ hP hr h
    simp only [rays2Loop, Res.ok.injEq] at h
    subst h
    exact ⟨hP, hr⟩
  | cons k ks ih =>
    intro tried st q hks hP hr h
    rw [rays2Loop] at h
    split at h
    · simp only [Res.ok.injEq] at h
      subst h
      exact ⟨hK.ticked hP, hr⟩
    rename_i hlim
    split at h
    · simp only [Res.ok.injEq] at h
      subst h
      exact ⟨hK.ticked hP, hr⟩
    split at h
    · exact ih _ _ _ (fun k hk => hks k (by simp [hk])) (hK.ticked hP) hr h
    · obtain ⟨s, hs, h⟩ := Res.bind_ok h
      obtain ⟨h1, h2⟩ := tryRay_keeps hK (heur := .TIGHT_RAYS2)
        (fun p h1 h2 => ⟨h1, k, hks k (by simp), h2⟩) (hK.ticked hP) (limits_below hlim).ticked hr hs
      exact ih _ _ _ (fun k hk => hks k (by simp [hk])) h1 h2 h

/-- **The induction over the program.** A property kept by all single steps holds at the end, and at the
end the objective is zero and no row is an equation. -/
theorem targetCuts_keeps (hK : Keeps W L P) {cur : Option (List ℚ)} {g : Gen} {st : TSt}
    (h0 : ∀ st : TSt, st.g = g → st.log = [] → st.pCuts = 0 → st.pFails = 0 → st.lp.base = L → P st)
    (h : targetCuts W L cur g = .ok st) : P st ∧ AtRest L st.lp := by
  unfold targetCuts at h
  simp only at h
  have hrest : AtRest L ⟨L, none, constObj L.nz.length 0⟩ := ⟨⟨rfl, rfl, rfl, rfl⟩, rfl, rfl⟩
  split at h
  · simp only [Res.ok.injEq] at h
    subst h
    exact ⟨h0 _ rfl rfl rfl rfl rfl, hrest⟩
  rename_i hlim
  simp only [Bool.or_eq_true, not_or, Bool.not_eq_true] at hlim
  obtain ⟨q, hq, h⟩ := Res.bind_ok h
  simp only [Res.ok.injEq] at h
  subst h
  refine Phase.next_ok hq (fun q hq => phaseAllOnes_ok hK ?_ ?_ hrest hq) ?_
  · exact h0 _ rfl rfl rfl rfl rfl
  · exact ⟨hlim.1, 0, rfl⟩
  intro st1 q1 h1 hq1
  refine Phase.next_ok hq1 (fun q hq => phaseGomory_ok hK h1.1 (h1.2.2 rfl) h1.2.1 hq) ?_
  intro st2 q2 h2 hq2
  have hP2 : P (resetSolver W st2) := hK.same _ _ h2.1 rfl rfl rfl rfl rfl
  have hb2 : Below W (resetSolver W st2) := (h2.2.2 rfl).of_eq rfl rfl rfl
  have hr2 : AtRest L (resetSolver W st2).lp := h2.2.1
  unfold phasesPoints at hq2
  split at hq2
  · cases hq2
  rename_i first ps hps
  have hf : (pointRows L).head? = some first := by rw [hps]; rfl
  refine Phase.next_ok hq2 (fun q hq => phaseDisjLB_ok hK hf hP2 hb2 hr2 hq) ?_
  intro st3 q3 h3 hq3
  obtain ⟨q4, hq4, hq3⟩ := Res.bind_ok hq3
  rw [← hps] at hq4
  have h4 := phasePoints_ok hK h3.1 h3.2.1 hq4
  split at hq3
  · rename_i hb
    simp only [Res.ok.injEq] at hq3
    subst hq3
    exact ⟨h4.1, h4.2.1⟩
  unfold phasesLate at hq3
  refine Phase.next_ok hq3 (fun q hq => phaseUnits_ok hK h4.1 h4.2.1 hq) ?_
  intro st5 q5 h5 hq5
  obtain ⟨q6, hq6, hq5⟩ := Res.bind_ok hq5
  have h6 := phaseRays_ok hK h5.1 h5.2.1 hq6
  split at hq5
  · simp only [Res.ok.injEq] at hq5
    subst hq5
    exact ⟨h6.1, h6.2.1⟩
  refine Phase.next_ok hq5 (fun q hq => phasePoints2_ok hK hf h6.1 h6.2.1 hq) ?_
  intro st7 q7 h7 hq7
  unfold phaseRays2 at hq7
  split at hq7
  · exact rays2Loop_keeps hK _ _ _ _ (fun _ h => h) h7.1 h7.2.1 hq7
  · simp only [Res.ok.injEq] at hq7
    subst hq7
    exact ⟨h7.1, h7.2.1⟩

end Traversal
end VPC
