import Verif.Props.GenLimits
import Verif.Props.RowDiff

/-!
# C71, C72, C73: the pool of cuts

C71: a solution of the point-ray LP that is the same as before is not turned into a cut again.
C72: the collected VPCs are pairwise different and, if a minimal orthogonality is asked for, no cut is
added that is nearly parallel to a collected one.
C73: a cut stronger than a collected parallel one is not lost.
-/
namespace VPC

/-! ## Specification -/

/-- Cut `a` is a positive multiple of cut `b`, apart from the right-hand side. -/
def Parallel (a b : RowCut) : Prop := ∃ r : ℚ, 0 < r ∧ a.row = b.row.map fun e => (e.1, r * e.2)

/-- A proper row: sorted, not empty, no coefficient negligible. -/
structure ProperRow (EPS : ℚ) (c : RowCut) : Prop where
  sorted : Sorted c.row
  ne : c.row ≠ []
  big : ∀ e ∈ c.row, EPS ≤ |e.2|

/-- Two cuts were compared, one way or the other, and found different. -/
def FoundDifferent (EPS : ℚ) (a b : GCut) : Prop :=
  isRowDifferent a.cut.row a.cut.lb b.cut.row b.cut.lb EPS = 2 ∨
  isRowDifferent b.cut.row b.cut.lb a.cut.row a.cut.lb EPS = 2

/-- Proper cuts that were found different are not parallel. -/
theorem not_parallel_of_different {EPS : ℚ} (he : 0 < EPS) {a b : GCut} (ha : ProperRow EPS a.cut)
    (hb : ProperRow EPS b.cut) (h : FoundDifferent EPS a b) : ¬ Parallel a.cut b.cut := by
  rintro ⟨r, hr, hrow⟩
  have hbig : ∀ e ∈ b.cut.row, EPS ≤ |e.2| ∧ EPS ≤ |r * e.2| := fun e hm =>
    ⟨hb.big e hm, ha.big (e.1, r * e.2) (by rw [hrow]; exact List.mem_map.2 ⟨e, hm, rfl⟩)⟩
  rcases h with h | h
  · have := (isRowDifferent_parallel b.cut.row r a.cut.lb b.cut.lb EPS he hr hb.sorted hb.ne hbig).1
    rw [← hrow] at this
    exact this h
  · have hinv : b.cut.row = a.cut.row.map fun e => (e.1, r⁻¹ * e.2) := by
      rw [hrow, List.map_map]
      have : ((fun e : ℕ × ℚ => (e.1, r⁻¹ * e.2)) ∘ fun e => (e.1, r * e.2)) = id := by
        funext e
        simp only [Function.comp, id]
        rw [inv_mul_cancel_left₀ (ne_of_gt hr)]
      rw [this, List.map_id]
    have hbig' : ∀ e ∈ a.cut.row, EPS ≤ |e.2| ∧ EPS ≤ |r⁻¹ * e.2| := fun e hm =>
      ⟨ha.big e hm, hb.big (e.1, r⁻¹ * e.2) (by rw [hinv]; exact List.mem_map.2 ⟨e, hm, rfl⟩)⟩
    have := (isRowDifferent_parallel a.cut.row r⁻¹ b.cut.lb a.cut.lb EPS he (inv_pos.2 hr) ha.sorted
      ha.ne hbig').1
    rw [← hinv] at this
    exact this h

/-! ## One objective -/

theorem howDupLoop_min (ortho : SVec → SVec → ℚ) (MO EPS : ℚ) (tmp : RowCut) (cs : List RowCut) (i : ℕ)
    (mi : Option ℕ) (mo : ℚ) (hMO : 0 < MO)
    (h : (howDupLoop ortho MO EPS tmp i cs mi mo).dupIndex = none) :
    (howDupLoop ortho MO EPS tmp i cs mi mo).minOrtho ≤ mo ∧
    ∀ c ∈ cs, (howDupLoop ortho MO EPS tmp i cs mi mo).minOrtho ≤ ortho tmp.row c.row := by
  induction cs generalizing i mi mo with
  | nil => simp [howDupLoop]
  | cons c cs ih =>
    unfold howDupLoop at h ⊢
    simp only [hMO, decide_true, Bool.true_and, decide_eq_true_eq, gt_iff_lt] at h ⊢
    split at h
    · simp at h
    · rename_i hd
      rw [if_neg hd]
      obtain ⟨h1, h2⟩ := ih _ _ _ h
      have hm : (if ortho tmp.row c.row < mo then ortho tmp.row c.row else mo) ≤ mo ∧
          (if ortho tmp.row c.row < mo then ortho tmp.row c.row else mo) ≤ ortho tmp.row c.row := by
        split
        · rename_i hlt; exact ⟨le_of_lt hlt, le_refl _⟩
        · rename_i hlt; exact ⟨le_refl _, not_lt.1 hlt⟩
      refine ⟨h1.trans hm.1, fun c' hc' => ?_⟩
      rcases List.mem_cons.1 hc' with rfl | hc'
      · exact h1.trans hm.2
      · exact h2 c' hc'

/-- What a single objective can do to the pool: nothing; add one cut, different from all and at least
`MIN_ORTHO` away from all; or replace one cut that may be replaced, by a cut different from all and
sparser or more effective than the one it replaces. -/
inductive PoolStep (e : GenEnv) (g : Gen) : List GCut → Prop
  | same : PoolStep e g g.cuts
  | added (c : GCut) (hd : ∀ d ∈ g.cuts, isRowDifferent d.cut.row d.cut.lb c.cut.row c.cut.lb e.EPS = 2)
      (ho : 0 < e.MIN_ORTHO → ∀ d ∈ g.cuts, e.MIN_ORTHO ≤ e.ortho c.cut.row d.cut.row) :
      PoolStep e g (g.cuts ++ [c])
  | replaced (c : GCut) (k : ℕ) (hk : k < g.cuts.length)
      (hs : (if g.canReplace then 0 else g.initNumCuts) ≤ k)
      (hd : ∀ d ∈ g.cuts, isRowDifferent d.cut.row d.cut.lb c.cut.row c.cut.lb e.EPS = 2)
      (hb : c.cut.row.length < (g.cuts[k]).cut.row.length ∨ (g.cuts[k]).eff < c.eff) :
      PoolStep e g (g.cuts.set k c)

theorem exitGenCut_cuts {g : Gen} {s : Solve} {r : Ret} {heur : ObjType} {p : Gen × Ret}
    (h : exitGenCut g s r heur = some p) : p.1.cuts = g.cuts := by
  cases r with
  | fail f =>
    simp only [exitGenCut, Bool.false_and, Bool.false_eq_true, if_false, Option.some.injEq] at h
    subst h; rfl
  | num n =>
    cases s <;> cases n <;>
      simp [exitGenCut, resolvePRLP, Solve.isOptimal] at h <;> subst h <;> rfl

theorem poolStep_tick {e : GenEnv} {g : Gen} {heur : ObjType} {l : List GCut}
    (h : PoolStep e (g.tick heur) l) : PoolStep e g l := by
  cases h with
  | same => exact .same
  | added c hd ho => exact .added c hd ho
  | replaced c k hk hs hd hb => exact .replaced c k hk hs hd hb

theorem helper_pool (e : GenEnv) (g : Gen) (sol : List ℚ) (heur : ObjType) :
    PoolStep e g (genCutHelper e g sol heur).1.cuts := by
  unfold genCutHelper
  split
  · exact .same
  · dsimp only
    split
    · exact .same
    · set cut := (cleanCut e.norm e.clean e.solver
        (setCutFromNBCoefficients e.lp e.nz sol e.beta e.nbVar e.EPS)).1 with hcut
      set dup := howDuplicate e.ortho (g.cuts.map (·.cut)) cut 0 e.MIN_ORTHO e.EPS with hdup
      have hdiff : dup.dupIndex = none → ∀ d ∈ g.cuts,
          isRowDifferent d.cut.row d.cut.lb cut.row cut.lb e.EPS = 2 := by
        intro hn d hd
        have h1 := ((howDuplicate_first e.ortho (g.cuts.map (·.cut)) cut 0 e.MIN_ORTHO e.EPS).1 hn).2
        obtain ⟨k, hk, rfl⟩ := List.getElem_of_mem hd
        have := h1 k (by simpa using hk) (Nat.zero_le _)
        simpa using this
      split
      · rename_i k hk
        split at hk
        · rename_i ho
          have hn : dup.dupIndex = none := by
            simp only [Bool.and_eq_true, Option.isNone_iff_eq_none] at ho
            exact ho.1
          rw [Option.filter_eq_some_iff] at hk
          obtain ⟨hk1, hk2⟩ := hk
          have hlt := howDuplicate_minOrtho_lt _ _ _ _ _ _ hk1
          rw [List.length_map] at hlt
          have hge : (if g.canReplace then 0 else g.initNumCuts) ≤ k := of_decide_eq_true hk2
          split
          · rename_i hb
            refine .replaced _ k hlt hge (hdiff hn) ?_
            rw [List.getD_eq_getElem?_getD, List.getElem?_eq_getElem hlt] at hb
            simpa using hb
          · exact .same
        · exact absurd hk (by simp)
      · split
        · rename_i ha
          simp only [Bool.and_eq_true, Option.isNone_iff_eq_none, Bool.not_eq_true',
            Bool.and_eq_false_iff] at ha
          obtain ⟨hn, ha⟩ := ha
          refine .added _ (hdiff hn) fun hMO d hd => ?_
          rcases ha with ha | ha
          · rw [hn] at ha; simp at ha
          · have hmin := (howDupLoop_min e.ortho e.MIN_ORTHO e.EPS cut
              ((g.cuts.map fun c : GCut => c.cut).drop 0) 0 none 2 hMO hn).2 d.cut (by simpa using ⟨d, hd, rfl⟩)
            have : ¬ dup.minOrtho < e.MIN_ORTHO := by simpa using ha
            exact (not_lt.1 this).trans hmin
        · split <;> exact .same

/-- **C72.** One objective. -/
theorem genCut_pool {e : GenEnv} {g : Gen} {old : Option (List ℚ)} {s : Solve} {heur : ObjType}
    {p : Gen × Ret} (h : genCut e g old s heur = some p) : PoolStep e g p.1.cuts := by
  unfold genCut at h
  dsimp only at h
  split at h
  · rw [exitGenCut_cuts h]; exact .same
  · split at h
    · split at h
      · rw [exitGenCut_cuts h]; exact .same
      · rw [exitGenCut_cuts h]
        exact poolStep_tick (helper_pool e (g.tick heur) _ heur)
    · rw [exitGenCut_cuts h]; exact .same
    · split at h
      · rw [exitGenCut_cuts h]; exact .same
      · rw [exitGenCut_cuts h]; exact .same


/-! ## Histories -/

/-- Operations after the root changes, with the row tolerance `EPS`. -/
def Op.After (EPS : ℚ) : Op → Prop
  | .note _ => True
  | .rootCut _ _ => False
  | .nextDisj _ => True
  | .tryObj e _ _ _ => e.EPS = EPS

theorem pairwise_set {R : GCut → GCut → Prop} (hsym : ∀ a b, R a b → R b a) {l : List GCut} {k : ℕ}
    {c : GCut} (h : l.Pairwise R) (hc : ∀ d ∈ l, R d c) : (l.set k c).Pairwise R := by
  induction l generalizing k with
  | nil => simp
  | cons a l ih =>
    obtain ⟨h1, h2⟩ := List.pairwise_cons.1 h
    cases k with
    | zero =>
      simp only [List.set_cons_zero]
      exact List.pairwise_cons.2 ⟨fun d hd => hsym _ _ (hc d (by simp [hd])), h2⟩
    | succ k =>
      simp only [List.set_cons_succ]
      refine List.pairwise_cons.2 ⟨fun d hd => ?_, ih h2 fun d hd => hc d (by simp [hd])⟩
      rcases List.mem_or_eq_of_mem_set hd with hd | rfl
      · exact h1 d hd
      · exact hc a (by simp)

/-- **C72 (partial: the cuts present when the first objective is tried, i.e. given cuts and cuts from
root changes, must be pairwise different themselves; see `root_duplicates`).** For every history of
objectives and LP answers, the cuts in the pool are pairwise different. -/
theorem pool_distinct_partial {EPS : ℚ} {g g' : Gen} {ops : List Op} (hops : ∀ o ∈ ops, o.After EPS)
    (hp : g.cuts.Pairwise (FoundDifferent EPS)) (h : g.run ops = some g') :
    g'.cuts.Pairwise (FoundDifferent EPS) := by
  induction ops generalizing g with
  | nil => rw [run_nil] at h; simp only [Option.some.injEq] at h; exact h ▸ hp
  | cons o ops ih =>
    rw [run_cons] at h
    cases hs : g.step o with
    | none => rw [hs] at h; simp at h
    | some g1 =>
      rw [hs] at h
      refine ih (fun o' ho' => hops o' (by simp [ho'])) ?_ h
      have ho := hops o (by simp)
      cases o with
      | note n => simp only [Gen.step, Option.some.injEq] at hs; subst hs; exact hp
      | rootCut e c => exact ho.elim
      | nextDisj d => simp only [Gen.step, Option.some.injEq] at hs; subst hs; exact hp
      | tryObj e old s heur =>
        simp only [Gen.step, Option.map_eq_some_iff] at hs
        obtain ⟨p, hp', rfl⟩ := hs
        have hE : e.EPS = EPS := ho
        have hst := genCut_pool hp'
        generalize p.1.cuts = l at hst
        cases hst with
        | same => exact hp
        | added c hd _ =>
          rw [List.pairwise_append]
          refine ⟨hp, by simp, fun a ha b hb => ?_⟩
          rw [List.mem_singleton] at hb
          subst hb
          exact Or.inl (hE ▸ hd a ha)
        | replaced c k hk hs hd hb =>
          exact pairwise_set (fun a b h => h.symm) hp fun d hd' => Or.inl (hE ▸ hd d hd')

/-- **C72**, in terms of the cuts: no two proper cuts of the pool are parallel. -/
theorem pool_not_parallel_partial {EPS : ℚ} (he : 0 < EPS) {g g' : Gen} {ops : List Op}
    (hops : ∀ o ∈ ops, o.After EPS) (hp : g.cuts.Pairwise (FoundDifferent EPS))
    (h : g.run ops = some g') {i j : ℕ} (hi : i < g'.cuts.length) (hj : j < g'.cuts.length)
    (hne : i ≠ j) (hpi : ProperRow EPS (g'.cuts[i]).cut) (hpj : ProperRow EPS (g'.cuts[j]).cut) :
    ¬ Parallel (g'.cuts[i]).cut (g'.cuts[j]).cut := by
  have hd := pool_distinct_partial hops hp h
  rcases Nat.lt_or_gt_of_ne hne with hlt | hlt
  · exact not_parallel_of_different he hpi hpj (List.pairwise_iff_getElem.1 hd i j hi hj hlt)
  · exact not_parallel_of_different he hpi hpj (List.pairwise_iff_getElem.1 hd j i hj hi hlt).symm

/-- **C72**: without replacement of near-parallel cuts (every new cut was added), every cut in the pool is
at least `MIN_ORTHO` away from every earlier one. -/
theorem pool_ortho_step {e : GenEnv} {g : Gen} {old : Option (List ℚ)} {s : Solve} {heur : ObjType}
    {p : Gen × Ret} (h : genCut e g old s heur = some p) (hl : g.cuts.length < p.1.cuts.length)
    (hMO : 0 < e.MIN_ORTHO) : ∃ c, p.1.cuts = g.cuts ++ [c] ∧
      ∀ d ∈ g.cuts, e.MIN_ORTHO ≤ e.ortho c.cut.row d.cut.row := by
  have hst := genCut_pool h
  generalize p.1.cuts = l at hst hl
  cases hst with
  | same => exact absurd hl (lt_irrefl _)
  | added c hd ho => exact ⟨c, rfl, ho hMO⟩
  | replaced c k hk hs hd hb => simp at hl

/-- The number of cuts never decreases, and a replaced cut was sparser or more effective. -/
theorem pool_replace_better {e : GenEnv} {g : Gen} {old : Option (List ℚ)} {s : Solve} {heur : ObjType}
    {p : Gen × Ret} (h : genCut e g old s heur = some p) {i : ℕ} (hi : i < g.cuts.length) :
    ∃ hi' : i < p.1.cuts.length, p.1.cuts[i] = g.cuts[i] ∨
      ((if g.canReplace then 0 else g.initNumCuts) ≤ i ∧
        ((p.1.cuts[i]).cut.row.length < (g.cuts[i]).cut.row.length ∨
          (g.cuts[i]).eff < (p.1.cuts[i]).eff)) := by
  have hst := genCut_pool h
  generalize p.1.cuts = l at hst
  cases hst with
  | same => exact ⟨hi, Or.inl rfl⟩
  | added c hd ho => exact ⟨by simp; omega, Or.inl (by rw [List.getElem_append_left hi])⟩
  | replaced c k hk hs hd hb =>
    refine ⟨by simpa using hi, ?_⟩
    by_cases hik : k = i
    · subst hik
      right
      simp only [List.getElem_set_self]
      exact ⟨hs, hb⟩
    · left; rw [List.getElem_set_ne hik]

/-! ## Concrete runs -/

/-- Exact norm of an integer vector whose squared norm is the square of a number below 100. -/
def intNorm (v : SVec) : ℚ :=
  ((List.range 100).find? fun n => decide ((n : ℚ) * n = (v.map fun e : ℕ × ℚ => e.2 * e.2).sum)).getD 0

/-- `getOrthogonality` with exact norms, src/cut/CutHelper.cpp:406-440. -/
def intOrtho (a b : SVec) : ℚ :=
  1 - (a.map fun e : ℕ × ℚ => e.2 * scoef b e.1).sum / (intNorm a * intNorm b)

/-- The demonstration environment with true norms and orthogonality, and minimal orthogonality 0.03. -/
def poolEnv : GenEnv :=
  { demoEnv with beta := 100, MIN_ORTHO := 3/100, norm := intNorm, ortho := intOrtho }

/-- Non-vacuity of `pool_distinct_partial`: two cuts are added, a third one is a multiple of the first
and rejected. -/
example : ((demoGen 5 false false false [] [] []).run
      [.tryObj poolEnv none (.optimal [30, 40]) .ALL_ONES,
       .tryObj poolEnv none (.optimal [40, 30]) .DISJ_LB,
       .tryObj poolEnv none (.optimal [60, 80]) .DISJ_LB]).map
      (fun g => (g.cuts.map (·.cut), g.numFails .DUPLICATE_VPC))
    = some ([⟨[(0, 30), (1, 40)], 100⟩, ⟨[(0, 40), (1, 30)], 100⟩], 1) := by decide +kernel

/-- **C72 fails** for orthogonality if cuts are replaced: the third cut is nearly parallel to both cuts in
the pool, replaces the nearer one only, and stays nearly parallel (0.0138 < 0.03) to the other. -/
theorem replacement_leaves_parallel :
    ((demoGen 5 false false false [] [] []).run
      [.tryObj poolEnv none (.optimal [30, 40]) .ALL_ONES,
       .tryObj poolEnv none (.optimal [40, 30]) .DISJ_LB,
       .tryObj poolEnv none (.optimal [20, 21]) .DISJ_LB]).map (fun g => g.cuts.map (·.cut))
    = some [⟨[(0, 20), (1, 21)], 100⟩, ⟨[(0, 40), (1, 30)], 100⟩] ∧
    intOrtho [(0, 20), (1, 21)] [(0, 40), (1, 30)] < poolEnv.MIN_ORTHO := by
  constructor <;> decide +kernel

/-- **C72 fails** for the cuts made from root changes: they are added without any comparison. -/
theorem root_duplicates :
    ((demoGen 5 false false false [] [] []).run
      [.rootCut poolEnv ⟨[(0, 1)], 3⟩, .rootCut poolEnv ⟨[(0, 1)], 3⟩]).map
        (fun g => g.cuts.map (·.cut))
    = some [⟨[(0, 1)], 3⟩, ⟨[(0, 1)], 3⟩] := by decide +kernel

/-- **C73 fails**: a new cut that is strictly stronger than a parallel cut in the pool is counted as a
duplicate and thrown away, even if cuts may be replaced. -/
theorem stronger_duplicate_lost :
    ((demoGen 5 false true false [] [] []).run
      [.tryObj poolEnv none (.optimal [30, 40]) .ALL_ONES,
       .tryObj poolEnv none (.optimal [3, 4]) .DISJ_LB]).map
      (fun g => (g.cuts.map (·.cut), g.numFails .DUPLICATE_VPC))
    = some ([⟨[(0, 30), (1, 40)], 100⟩], 1) ∧
    (∀ x : Vec, (⟨[(0, 3), (1, 4)], 100⟩ : RowCut).Sat x → (⟨[(0, 30), (1, 40)], 100⟩ : RowCut).Sat x) ∧
    ∃ x : Vec, (⟨[(0, 30), (1, 40)], 100⟩ : RowCut).Sat x ∧ ¬ (⟨[(0, 3), (1, 4)], 100⟩ : RowCut).Sat x := by
  refine ⟨by decide +kernel, fun x h => ?_, fun _ => 2, ?_, ?_⟩
  · simp only [RowCut.Sat, sdot_cons, sdot_nil] at h ⊢; linarith
  · simp only [RowCut.Sat, sdot_cons, sdot_nil]; norm_num
  · simp only [RowCut.Sat, sdot_cons, sdot_nil]; norm_num

/-- **C73, for every pool**: whatever is found to be a duplicate — also if it is stronger than the cut it
duplicates — leaves the pool as it was. -/
theorem duplicate_leaves_pool (e : GenEnv) (g : Gen) (sol : List ℚ) (heur : ObjType) {d : GCut}
    (hd : d ∈ g.cuts)
    (hdup : let c := (cleanCut e.norm e.clean e.solver
      (setCutFromNBCoefficients e.lp e.nz sol e.beta e.nbVar e.EPS)).1
      isRowDifferent d.cut.row d.cut.lb c.row c.lb e.EPS ≠ 2) :
    (genCutHelper e g sol heur).1.cuts = g.cuts := by
  unfold genCutHelper
  split
  · rfl
  · dsimp only at hdup ⊢
    split
    · rfl
    · have hs : (howDuplicate e.ortho (g.cuts.map (·.cut)) (cleanCut e.norm e.clean e.solver
          (setCutFromNBCoefficients e.lp e.nz sol e.beta e.nbVar e.EPS)).1 0 e.MIN_ORTHO e.EPS).dupIndex
          ≠ none := by
        intro hn
        have h1 := ((howDuplicate_first e.ortho (g.cuts.map (·.cut)) _ 0 e.MIN_ORTHO e.EPS).1 hn).2
        obtain ⟨k, hk, rfl⟩ := List.getElem_of_mem hd
        have := h1 k (by simpa using hk) (Nat.zero_le _)
        exact hdup (by simpa using this)
      have hs' : (howDuplicate e.ortho (g.cuts.map (·.cut)) (cleanCut e.norm e.clean e.solver
          (setCutFromNBCoefficients e.lp e.nz sol e.beta e.nbVar e.EPS)).1 0 e.MIN_ORTHO e.EPS).dupIndex.isNone
          = false := by
        rw [Bool.eq_false_iff]; intro hc; exact hs (Option.isNone_iff_eq_none.1 hc)
      simp only [hs', Bool.false_and, Bool.false_eq_true, if_false]
      split <;> rfl

/-! ## C71: repeated solutions -/

theorem foldl_max_ge (l : List ℚ) (a : ℚ) : a ≤ l.foldl max a ∧ ∀ x ∈ l, x ≤ l.foldl max a := by
  induction l generalizing a with
  | nil => simp
  | cons b l ih =>
    simp only [List.foldl_cons]
    obtain ⟨h1, h2⟩ := ih (max a b)
    refine ⟨(le_max_left a b).trans h1, fun x hx => ?_⟩
    rcases List.mem_cons.1 hx with rfl | hx
    · exact (le_max_right a x).trans h1
    · exact h2 x hx

theorem foldl_max_lt (l : List ℚ) (a b : ℚ) (ha : a < b) (h : ∀ x ∈ l, x < b) : l.foldl max a < b := by
  induction l generalizing a with
  | nil => exact ha
  | cons c l ih => exact ih (max a c) (max_lt ha (h c (by simp))) fun x hx => h x (by simp [hx])

/-- The test says exactly that all coordinates agree up to `EPS`. -/
theorem sameSolution_iff {EPS : ℚ} (he : 0 < EPS) (sol old : List ℚ) (hne : old ≠ [])
    (hl : sol.length = old.length) :
    sameSolution EPS sol (some old) = true ↔ ∀ i < old.length, |sol.getD i 0 - old.getD i 0| < EPS := by
  have hs : sameSolution EPS sol (some old) =
      isZero ((List.zipWith (fun a b => |a - b|) sol old).foldl max 0) EPS := by
    cases old with
    | nil => exact absurd rfl hne
    | cons a l => rfl
  rw [hs]
  unfold isZero
  rw [isVal_iff, sub_zero, abs_of_nonneg (foldl_max_ge _ 0).1]
  constructor
  · intro h i hi
    refine lt_of_le_of_lt ((foldl_max_ge _ 0).2 _ ?_) h
    rw [List.mem_iff_getElem]
    refine ⟨i, by simp [hl]; exact hi, ?_⟩
    rw [List.getElem_zipWith]
    simp [List.getD_eq_getElem?_getD, List.getElem?_eq_getElem hi,
      List.getElem?_eq_getElem (show i < sol.length by omega)]
  · intro h
    refine foldl_max_lt _ 0 EPS he fun x hx => ?_
    obtain ⟨i, hi, rfl⟩ := List.getElem_of_mem hx
    have hi' : i < old.length := by simp only [List.length_zipWith] at hi; omega
    have := h i hi'
    rw [List.getElem_zipWith]
    simpa [List.getD_eq_getElem?_getD, List.getElem?_eq_getElem hi',
      List.getElem?_eq_getElem (show i < sol.length by omega)] using this

/-- **C71.** Below the cut limit, an optimal solution equal to the previous one up to `EPS` in every
coordinate is reported as a duplicate and leaves the pool alone. -/
theorem repeated_solution_no_cut {e : GenEnv} (he : 0 < e.EPS) {g : Gen} {old sol : List ℚ}
    {heur : ObjType} (hne : old ≠ []) (hl : sol.length = old.length)
    (hlim : g.reachedCutLimit = false)
    (hsame : ∀ i < old.length, |sol.getD i 0 - old.getD i 0| < e.EPS) :
    ∃ g', genCut e g (some old) (.optimal sol) heur = some (g', .fail .DUPLICATE_VPC) ∧
      g'.cuts = g.cuts := by
  have hs := (sameSolution_iff he sol old hne hl).2 hsame
  unfold genCut
  simp only
  rw [if_neg (by rw [show ({ g with numObj := g.numObj + 1, numObjFromHeur := bump g.numObjFromHeur heur 1 }
    : Gen).reachedCutLimit = g.reachedCutLimit from rfl, hlim]; simp), if_pos hs]
  exact ⟨_, rfl, rfl⟩

/-- **C71.** Below the cut limit, an optimal solution that differs from the previous one in some
coordinate by `EPS` or more (or that has no predecessor) is turned into a cut and treated on its
merits. -/
theorem new_solution_tried {e : GenEnv} (he : 0 < e.EPS) {g : Gen} {sol : List ℚ} {old : Option (List ℚ)}
    {heur : ObjType} (hlim : g.reachedCutLimit = false)
    (hnew : old = none ∨ old = some [] ∨ ∃ o, old = some o ∧ sol.length = o.length ∧
      ∃ i < o.length, e.EPS ≤ |sol.getD i 0 - o.getD i 0|) :
    ∃ g', genCut e g old (.optimal sol) heur = some (g', (genCutHelper e (g.tick heur) sol heur).2) ∧
      g'.cuts = (genCutHelper e (g.tick heur) sol heur).1.cuts := by
  have hs : sameSolution e.EPS sol old = false := by
    rcases hnew with rfl | rfl | ⟨o, rfl, hl, i, hi, hd⟩
    · rfl
    · rfl
    · rw [Bool.eq_false_iff]; intro hc
      have hne : o ≠ [] := by rintro rfl; simp at hi
      exact absurd ((sameSolution_iff he sol o hne hl).1 hc i hi) (not_lt.2 hd)
  have hg : genCut e g old (.optimal sol) heur =
      exitGenCut (genCutHelper e (g.tick heur) sol heur).1 (.optimal sol)
        (genCutHelper e (g.tick heur) sol heur).2 heur := by
    unfold genCut
    simp only
    rw [if_neg (by rw [show ({ g with numObj := g.numObj + 1, numObjFromHeur := bump g.numObjFromHeur heur 1 }
      : Gen).reachedCutLimit = g.reachedCutLimit from rfl, hlim]; simp), if_neg (by simp [hs])]
    rfl
  rw [hg]
  obtain ⟨p, hp, -⟩ := genCutHelper_eff e g sol heur
  rw [hp]
  refine ⟨p.1, ?_, exitGenCut_cuts hp⟩
  have : p.2 = (genCutHelper e (g.tick heur) sol heur).2 := by
    revert hp
    generalize (genCutHelper e (g.tick heur) sol heur).2 = r
    intro hp
    cases r with
    | fail f =>
      simp only [exitGenCut, Bool.false_and, Bool.false_eq_true, if_false, Option.some.injEq] at hp
      subst hp; rfl
    | num n =>
      cases n <;> simp [exitGenCut, resolvePRLP, Solve.isOptimal] at hp <;> subst hp <;> rfl
  rw [← this]

/-- Non-vacuity: the same solution twice gives one cut, a different one a second cut. -/
example : ((demoGen 5 false false false [] [] []).run
      [.tryObj poolEnv none (.optimal [30, 40]) .ALL_ONES,
       .tryObj poolEnv (some [30, 40]) (.optimal [30, 40]) .DISJ_LB,
       .tryObj poolEnv (some [30, 40]) (.optimal [40, 30]) .DISJ_LB]).map
      (fun g => (g.cuts.map (·.cut), g.numFails .DUPLICATE_VPC))
    = some ([⟨[(0, 30), (1, 40)], 100⟩, ⟨[(0, 40), (1, 30)], 100⟩], 1) := by decide +kernel

end VPC
