import Verif.Props.ChooseCodes
import Verif.Props.BetterBranch
import Verif.Props.SavedObj
import Verif.Props.CpxData
import Verif.Props.BBTests
import Verif.Props.GenReasons
import Verif.Props.Clean
import Verif.Props.ObjCopy
import Verif.Props.UserCuts
import Verif.Props.Names
import Verif.Props.TargetTight
import Verif.Props.NBPack
import Verif.Props.Prep
import Verif.Props.CutInfo
import Verif.Model.BB
import Verif.Model.SetupList
import Verif.Props.Bounds
import Verif.Props.Stats

/-!
# Theorems added after testing the model with automatic changes
-/
namespace VPC

/-- **C118**: all numbers of infeasibilities that fit an `int` are covered, up to the largest but one. -/
theorem better_before_any_int (cs : List BrCand) (hne : cs ≠ []) (h : ∀ c ∈ cs, c.infeas ≤ 2147483646) :
    ∃ (j : ℕ) (c : BrCand), cs[j]? = some c ∧ (betterAll true cs).1.best = some j ∧
      (∀ d ∈ cs, c.infeas ≤ d.infeas) ∧ (betterAll true cs).2 = c.announced c.fewer :=
  better_before_solution_partial cs hne fun c hc => by
    have := h c hc
    have e : coinIntMax = 2147483647 := by decide
    omega

example : (∀ c ∈ [tieA, tieB], c.infeas ≤ 2147483646) ∧ [tieA, tieB] ≠ [] := by decide +kernel

/-- C118, the boundary: a candidate with `INT_MAX` infeasibilities on both sides is not taken although it is
the only one. -/
theorem better_before_int_max :
    (betterAll true [⟨1, 2147483647, 1, 2147483647, 0⟩]).1.best = none ∧
    (betterAll true [⟨1, 2147483646, 1, 2147483646, 0⟩]).1.best = some 0 := by decide +kernel

/-- **C89 (direction when nothing is compared).** If no candidate needs strong branching, the first object
of the list is chosen with direction down (all methods but the second-best ones 3, 4 and
their negations -4, -5). -/
theorem choose_first_down {m : ℤ} {lst : List LItem} {left onList : ℕ} {cutoff obj : ℚ} {s0 : ChSt}
    (it : LItem) (rest : List LItem) (hl : lst = it :: rest) (ht : todoOf (lst.take left) = [])
    (hm : m ≠ 3 ∧ m ≠ 4 ∧ m ≠ -4 ∧ m ≠ -5) :
    (chooseVariable m lst left onList cutoff obj s0).1.idx = it.obj ∧
    (chooseVariable m lst left onList cutoff obj s0).1.way = 0 := by
  have hne : lst ≠ [] := by rw [hl]; simp
  have hsec : ¬ ((if m < 0 then -1 * (m + 1) else m) = 3 ∨ (if m < 0 then -1 * (m + 1) else m) = 4) := by
    obtain ⟨h1, h2, h3, h4⟩ := hm
    split <;> omega
  unfold chooseVariable
  rw [if_neg hne]
  dsimp only
  rw [if_neg (by simpa using ht), chooseFinish_idx, chooseFinish_way]
  generalize (if m < 0 then -1 * (m + 1) else m) = method at hsec ⊢
  simp only [show ∀ q : Prop, ((method = 3 ∨ method = 4) ∧ q) = False from
    fun q => eq_false fun h => hsec h.1, if_false]
  subst hl
  by_cases ho : onList > 1 <;> by_cases h6 : m = 6 <;> simp [takeFirst, ho, h6]

example : todoOf ([.trusted { obj := 5, col := 1, down := 2, up := 1 }] : List LItem) = [] := rfl

/-- **C30**: the estimates compared: an infeasible side counts twice the distance to the cutoff, and twice the
absolute objective value if there is none (from `10^50` on). -/
theorem infeasible_side_estimate (cutoff obj : ℚ) (r : SBOut) :
    (r.upInf = true → cutoff < 10 ^ 50 → (r.toCand cutoff obj).up = 2 * (cutoff - obj)) ∧
    (r.upInf = true → 10 ^ 50 ≤ cutoff → (r.toCand cutoff obj).up = 2 * |obj|) ∧
    (r.downInf = true → cutoff < 10 ^ 50 → (r.toCand cutoff obj).down = 2 * (cutoff - obj)) ∧
    (r.downInf = true → 10 ^ 50 ≤ cutoff → (r.toCand cutoff obj).down = 2 * |obj|) ∧
    (r.upInf = false → (r.toCand cutoff obj).up = r.cand.up) ∧
    (r.downInf = false → (r.toCand cutoff obj).down = r.cand.down) ∧
    (r.toCand cutoff obj).obj = r.cand.obj := by
  refine ⟨?_, ?_, ?_, ?_, ?_, ?_, rfl⟩
  · intro h hc; simp only [SBOut.toCand, h, if_true, expensive, if_pos hc]
  · intro h hc; simp only [SBOut.toCand, h, if_true, expensive, if_neg (not_lt.mpr hc)]
  · intro h hc; simp only [SBOut.toCand, h, if_true, expensive, if_pos hc]
  · intro h hc; simp only [SBOut.toCand, h, if_true, expensive, if_neg (not_lt.mpr hc)]
  · intro h; simp [SBOut.toCand, h]
  · intro h; simp [SBOut.toCand, h]

/-- **C70 (root, with common inequalities).** The LP value of the root is then not compared with the
recorded one: the changes are accepted whatever the two values are. -/
theorem rootObj_unchecked {DIFFEPS : ℚ} {limit : ℕ → Bool} {bad : RowCut → Bool}
    {opt : Relax → Option ℚ} {D : Disj} {P : Relax} (hi : D.commonIneqs ≠ [])
    (hopt : ∀ V, (opt V).isSome = true) (hb : ∃ r, rootBounds limit bad D.common ⟨P, []⟩ = .ok r) :
    ∃ r, rootChanges DIFFEPS limit bad opt D P = .ok r := by
  obtain ⟨r, hr⟩ := hb
  unfold rootChanges
  rw [hr]
  simp only [Res.bind]
  split
  · exact ⟨_, rfl⟩
  · split
    · exact ⟨_, rfl⟩
    · rw [if_neg (fun h => hi h.2)]
      obtain ⟨v, hv⟩ := Option.isSome_iff_exists.mp (hopt (rootIneqs limit bad D.commonIneqs r.2).2.V)
      rw [hv]
      simp [rootObjExits, hi]

example : rootChanges (1/1000) (fun _ => false) (fun _ => false) (fun _ => some 3)
    { Disj.new with commonIneqs := [⟨[(0, 1)], 3⟩], rootObj := 33 } ⟨[some 0], [some 5], []⟩ ≠ .exit := by
  decide +kernel

/-- **C125**: the constant and the sense of the objective handed over are those of the CPLEX problem. -/
theorem cpx_objective_constant (p : CpxProb) (d : CpxOut) (h : (convertCpx p).2 = some d) :
    d.objoffset = p.offset ∧ d.objsense = p.objsense := by
  unfold convertCpx at h
  split at h
  · simp at h
  · simp only [Option.some.injEq] at h
    subst h
    exact ⟨rfl, rfl⟩

example : ∃ p : CpxProb, (convertCpx p).2.isSome = true ∧ p.offset = 7 :=
  ⟨⟨[{ entries := [(0, 1)], lb := 0, ub := 1, obj := 3, ctype := 'C' }], [('L', 1)], true, 1, 7⟩, by decide +kernel, rfl⟩

/-- **C84**: the product of the seed and the number of the run overflows a 64-bit integer exactly when it
does not fit; in all other cases a seed is set or the program ends. -/
theorem runSeed_undef_iff (s : ℤ) (k : ℕ) :
    runSeed s k = .undef ↔ s * (k + 1) < -2 ^ 63 ∨ 2 ^ 63 ≤ s * (k + 1) := by
  unfold runSeed
  by_cases h : s * (k + 1) < -2 ^ 63 ∨ 2 ^ 63 ≤ s * (k + 1)
  · rw [if_pos h]; exact ⟨fun _ => h, fun _ => rfl⟩
  · rw [if_neg h]
    refine ⟨fun hu => ?_, fun hu => absurd hu h⟩
    split at hu <;> simp at hu

example : runSeed (-2 ^ 63) 1 = .undef ∧ runSeed (2 ^ 62) 1 = .undef ∧ runSeed 7 1 = .ok 14 := by
  decide +kernel

/-- **C90**: a round that ends before a disjunction is chosen reports "no disjunction" exactly when no variable is
fractional, and the cut limit otherwise. -/
theorem early_reason {g g1 : Gen} {given : List GCut} {nf nf0 : ℕ} {r : ExitReason}
    (h : g.startRound given nf nf0 = .early g1 r) :
    (r = .NO_DISJUNCTION ↔ nf0 = 0) ∧ (r = .CUT_LIMIT ↔ nf0 ≠ 0) := by
  unfold Gen.startRound at h
  dsimp only at h
  split at h
  · cases h
  · split at h
    · cases h
      cases nf0 <;> simp
    · cases h

example : (∃ g1, (demoGen (-2) false false false [] [] []).startRound [] 0 0 = .early g1 .NO_DISJUNCTION) ∧
    ∃ g1, (demoGen 0 false false false [] [] []).startRound [] 0 3 = .early g1 .CUT_LIMIT :=
  ⟨⟨_, rfl⟩, ⟨_, rfl⟩⟩

/-- **C06 (bounds from the LP).** The minimum of a column over the LP becomes its lower bound exactly when it
exceeds the bound of the original problem by at least the tolerance; an infinite bound is always replaced. -/
theorem clean_lower_from_lp {P : Relax} {env : CleanEnv} {col : ℕ} {s : CleanSt} {y : Vec}
    (hy : env.opt env.sense 1 col s.bs = some y) :
    (P.loAt col = none → (cleanTightLB P env col s).bs = s.bs.setLo col (y col)) ∧
    (∀ l, P.loAt col = some l → l + defEps ≤ y col → (cleanTightLB P env col s).bs = s.bs.setLo col (y col)) ∧
    (∀ l, P.loAt col = some l → y col < l + defEps → cleanTightLB P env col s = s) := by
  refine ⟨fun h => ?_, fun l h hl => ?_, fun l h hl => ?_⟩ <;>
    simp only [cleanTightLB, hy, h, gtLo]
  · simp
  · rw [if_pos (greaterThanVal_iff.mpr (by linarith))]
  · rw [if_neg (fun hc => by have := greaterThanVal_iff.mp hc; linarith)]

/-- **C06 (bounds from the LP).** The same for the maximum and the upper bound. -/
theorem clean_upper_from_lp {P : Relax} {env : CleanEnv} {col : ℕ} {s : CleanSt} {y : Vec}
    (hy : env.opt env.sense (-1) col s.bs = some y) :
    (P.hiAt col = none → (cleanTightUB P env col s).bs = s.bs.setHi col (y col)) ∧
    (∀ u, P.hiAt col = some u → y col ≤ u - defEps → (cleanTightUB P env col s).bs = s.bs.setHi col (y col)) ∧
    (∀ u, P.hiAt col = some u → u - defEps < y col → cleanTightUB P env col s = s) := by
  refine ⟨fun h => ?_, fun l h hl => ?_, fun l h hl => ?_⟩ <;>
    simp only [cleanTightUB, hy, h, ltHi]
  · simp
  · rw [if_pos (lessThanVal_iff.mpr (by linarith))]
  · rw [if_neg (fun hc => by have := lessThanVal_iff.mp hc; linarith)]

example : (cleanEx 1).opt (cleanEx 1).sense 1 0 cleanP = some (fun _ => 1 / 2) ∧
    (cleanEx 1).opt (cleanEx 1).sense (-1) 0 cleanP = some (fun _ => 3) := by
  constructor <;> simp [cleanEx, boxOpt, cleanP, Relax.loAt, Relax.hiAt] <;> norm_num

/-- **C11 (one-sided cuts).** A bound or inequality common to all terms is either not stored at all, or appended
to the collection as given and with effectiveness 0 (the value a new cut has), whatever its violation; nothing that
was there before changes. -/
theorem one_sided_record (e : GenEnv) (g : Gen) (c : RowCut) :
    rootCut e g c = g ∨
      ((rootCut e g c).cuts = g.cuts ++ [⟨c, 0⟩] ∧ (rootCut e g c).cutType = g.cutType ++ [.ONE_SIDED_CUT] ∧
        (rootCut e g c).objType = g.objType ++ [.ONE_SIDED] ∧ (rootCut e g c).disjID = g.disjID ++ [g.currDisj]) := by
  unfold rootCut
  split
  · exact .inl rfl
  · split
    · exact .inl rfl
    · exact .inr ⟨rfl, rfl, rfl, rfl⟩

example : (rootCut demoEnv (demoGen 10 false false false [] [] []) ⟨[(0, 1)], 1⟩).cuts = [⟨⟨[(0, 1)], 1⟩, 0⟩] := by
  decide +kernel

/-- **C126 (class of an object).** An object counts as a tree-based disjunction exactly when it has the members of
one; a split has none of them. -/
theorem isTree_iff (e : Extra) : (e.isTree = true ↔ ∃ r d, e = .tree r d) ∧ (e.isTree = false ↔ ∃ v, e = .split v) := by
  cases e <;> simp [Extra.isTree]

/-- **C126 (assignment between classes).** A split is never assigned to a tree-based disjunction, nor the other way
round: such a program is an error for every state of the two objects. -/
theorem assign_class_mismatch {β π : Type} (s : ValWorld β π) (i j : ℕ) {v o : DisjV β π} (hij : i ≠ j)
    (hj : s.disj j = some v) (hi : s.disj i = some o) :
    ((∃ x r d, v.extra = .split x ∧ o.extra = .tree r d) ∨ (∃ x r d, o.extra = .split x ∧ v.extra = .tree r d)) →
      s.step (.assign i j) = none := by
  rintro (⟨x, r, d, h1, h2⟩ | ⟨x, r, d, h1, h2⟩) <;>
    simp [ValWorld.step, hj, hi, hij, h1, h2, Extra.isTree]

/-- **C112 (rows without bounds).** A row with neither bound has right-hand side 0; one with both has the upper
one. -/
theorem osiRow_rhs_cases (r : SVec) :
    (OsiRow.mk r none none).rhs = 0 ∧ (∀ u l, (OsiRow.mk r l (some u)).rhs = u) ∧
      ∀ l, (OsiRow.mk r (some l) none).rhs = l :=
  ⟨rfl, fun _ _ => rfl, fun _ => rfl⟩

example : ∃ s : ValWorld ℕ ℕ, (∃ o v, s.disj 0 = some o ∧ s.disj 1 = some v ∧ o.extra = .tree {} {} ∧ v.extra = .split (-1)) ∧
    s.step (.assign 0 1) = none :=
  ⟨(ValWorld.init.put 0 ⟨Disj.new, [], 0, none, .tree {} {}, []⟩).put 1 ⟨Disj.new, [], 0, none, .split (-1), []⟩,
    ⟨_, _, rfl, rfl, rfl, rfl⟩, by simp [ValWorld.step, ValWorld.put, Function.update, Extra.isTree]⟩

/-- **C83 (rows).** Whenever a run gets a problem, its rows are a permutation of the rows of the problem; only
the columns can be lost. -/
theorem rows_permuted {p : Mip} {c : BBCfg} {w : BBWorld} (hw : w.Shuffles) {runs run : ℕ} {q : Mip}
    (hq : runProblem c w p runs run = .ok q) :
    q = p ∨ ∃ rp cp, rp.Perm (List.range p.m) ∧ cp.Perm (List.range p.n ++ List.replicate (p.m - p.n) 0) ∧
      q = permuted p rp cp := by
  unfold runProblem at hq
  split at hq
  · right
    unfold initPerms at hq
    split at hq
    · exact absurd hq (by simp [Res.bind])
    · simp only [Res.bind, Res.ok.injEq] at hq
      exact ⟨_, _, (hw run _).1, (hw run _).2, hq.symm⟩
  · left; cases hq; rfl

example : runProblem PermEx.cfg PermEx.wd PermEx2.p 2 1 = .ok (permuted PermEx2.p [1, 2, 0] [1, 0, 0]) := rfl

/-- **C116 (factor of a variable).** The factor is left out exactly when it is less than `1e-7` away from 1 or -1. -/
theorem factorText_empty_iff (fmt : ℚ → List Char) (c : ℚ) :
    factorText fmt c = .ok [] ↔ |(|c| - 1)| < 1 / 10 ^ 7 := by
  have e : defEps = 1 / 10 ^ 7 := by norm_num [defEps]
  rw [← e]
  unfold factorText
  constructor
  · intro h
    by_contra hc
    rw [if_neg hc] at h
    obtain ⟨t, -, ht⟩ := Res.bind_ok h
    have := congrArg (fun r => match r with | Res.ok (l : List Char) => l.length | _ => 0) ht
    simp at this
  · intro h; rw [if_pos h]

/-- **C105 (passes of the loop).** After a pass that gave a cut, the next one works with the next point: if the LP
of that point cannot be solved, the program ends. -/
theorem gomoryLoop_next {W : TWorld} {k j : ℕ} {st : TSt} {obj : List ℚ} {p : TSt × Ret} {n : ℕ}
    (h0 : (st.g.reachedCutLimit || reachedFailureLimit st.g.cutLimit (W.time st.tick) W.prlpTimeLimit st.pCuts
      st.pFails) = false)
    (hj : W.gomoryStep j = .point obj)
    (hr : resolvePRLP (W.solve (st.ticked.setObj obj).n (st.ticked.setObj obj).lp) = none)
    (ha : attempt W .ITER_BILINEAR
      { st.ticked.setObj obj with
        n := (st.ticked.setObj obj).n + 1
        cur := (W.solve (st.ticked.setObj obj).n (st.ticked.setObj obj).lp).sol? } = .ok p)
    (hp : p.2 = .num n)
    (h1 : (p.1.g.reachedCutLimit || reachedFailureLimit p.1.g.cutLimit (W.time p.1.tick) W.prlpTimeLimit p.1.pCuts
      p.1.pFails) = false) :
    (W.gomoryStep (j + 1) = .notSolved → gomoryLoop W (k + 2) j st = .exit) ∧
    (W.gomoryStep (j + 1) = .stationary → gomoryLoop W (k + 2) j st = .ok p.1.ticked) := by
  constructor <;> intro h2 <;> rw [gomoryLoop, h0, hj] <;> simp only [Bool.false_eq_true, if_false, hr, ha, Res.bind, hp] <;>
    rw [gomoryLoop, h1, h2] <;> simp

/-- C38: the largest of a starting value and the exponents of a list. -/
theorem expo_max_spec (expo : ℚ → ℤ) : ∀ (l : SVec) (m : ℤ),
    m ≤ l.foldl (fun m e => max m (expo e.2)) m ∧ (∀ e ∈ l, expo e.2 ≤ l.foldl (fun m e => max m (expo e.2)) m) ∧
      (l.foldl (fun m e => max m (expo e.2)) m = m ∨ ∃ e ∈ l, l.foldl (fun m e => max m (expo e.2)) m = expo e.2) := by
  intro l
  induction l with
  | nil => intro m; exact ⟨le_refl _, by simp, .inl rfl⟩
  | cons a l ih =>
    intro m
    obtain ⟨h1, h2, h3⟩ := ih (max m (expo a.2))
    rw [List.foldl_cons]
    refine ⟨(le_max_left _ _).trans h1, ?_, ?_⟩
    · intro e he
      rcases List.mem_cons.1 he with rfl | he
      · exact (le_max_right _ _).trans h1
      · exact h2 e he
    · rcases h3 with h3 | ⟨e, he, h3⟩
      · rcases le_total m (expo a.2) with h | h
        · right; exact ⟨a, List.mem_cons_self .., by rw [h3, max_eq_right h]⟩
        · left; rw [h3, max_eq_left h]
      · exact .inr ⟨e, List.mem_cons_of_mem _ he, h3⟩

/-- C38: the smallest of a starting value and the exponents of a list. -/
theorem expo_min_spec (expo : ℚ → ℤ) : ∀ (l : SVec) (m : ℤ),
    l.foldl (fun m e => min m (expo e.2)) m ≤ m ∧ (∀ e ∈ l, l.foldl (fun m e => min m (expo e.2)) m ≤ expo e.2) ∧
      (l.foldl (fun m e => min m (expo e.2)) m = m ∨ ∃ e ∈ l, l.foldl (fun m e => min m (expo e.2)) m = expo e.2) := by
  intro l
  induction l with
  | nil => intro m; exact ⟨le_refl _, by simp, .inl rfl⟩
  | cons a l ih =>
    intro m
    obtain ⟨h1, h2, h3⟩ := ih (min m (expo a.2))
    rw [List.foldl_cons]
    refine ⟨h1.trans (min_le_left _ _), ?_, ?_⟩
    · intro e he
      rcases List.mem_cons.1 he with rfl | he
      · exact h1.trans (min_le_right _ _)
      · exact h2 e he
    · rcases h3 with h3 | ⟨e, he, h3⟩
      · rcases le_total m (expo a.2) with h | h
        · left; rw [h3, min_eq_left h]
        · right; exact ⟨a, List.mem_cons_self .., by rw [h3, min_eq_right h]⟩
      · exact .inr ⟨e, List.mem_cons_of_mem _ he, h3⟩

/-- **C38 (size of the scaling).** A ray whose listed entries already give the objective slope is scaled by a power
of ten determined by the smallest and the largest exponent (at least 1) of its entries of size at least `RAYEPS`. -/
theorem packRay_scale (sortDecr : SVec → SVec) (expo : ℚ → ℤ) (EPS RAYEPS ov : ℚ) (rc : Vec) (vals : List ℚ)
    (h : (lessThanVal ((bigEntries RAYEPS vals).map fun e => e.2 * rc e.1).sum 0 EPS ||
      !(isVal ((bigEntries RAYEPS vals).map fun e => e.2 * rc e.1).sum ov EPS)) = false) :
    ∃ mn mx : ℤ, (packRay sortDecr expo EPS RAYEPS ov rc vals).2 = 10 ^ scaleExp false mn mx ∧
      (∀ (i : ℕ) (v : ℚ), vals[i]? = some v → RAYEPS ≤ |v| → mn ≤ expo v ∧ expo v ≤ mx) ∧ 1 ≤ mx ∧ mn ≤ 1000 ∧
      (mx = 1 ∨ ∃ (i : ℕ) (v : ℚ), vals[i]? = some v ∧ RAYEPS ≤ |v| ∧ mx = expo v) ∧
      (mn = 1000 ∨ ∃ (i : ℕ) (v : ℚ), vals[i]? = some v ∧ RAYEPS ≤ |v| ∧ mn = expo v) := by
  obtain ⟨a1, a2, a3⟩ := expo_max_spec expo (bigEntries RAYEPS vals) 1
  obtain ⟨b1, b2, b3⟩ := expo_min_spec expo (bigEntries RAYEPS vals) 1000
  refine ⟨(bigEntries RAYEPS vals).foldl (fun m e => min m (expo e.2)) 1000,
    (bigEntries RAYEPS vals).foldl (fun m e => max m (expo e.2)) 1, ?_, fun i v hv hr => ?_, a1, b1, ?_, ?_⟩
  · unfold packRay
    dsimp only
    rw [show ((vals.zipIdx.filter fun e => !(isZero e.1 RAYEPS)).map fun e => (e.2, e.1)) = bigEntries RAYEPS vals from rfl,
      h]
    rfl
  · have hm : ((i, v) : ℕ × ℚ) ∈ bigEntries RAYEPS vals := mem_bigEntries.2 ⟨hv, hr⟩
    exact ⟨b2 _ hm, a2 _ hm⟩
  · rcases a3 with h3 | ⟨e, he, h3⟩
    · exact .inl h3
    · exact .inr ⟨e.1, e.2, (mem_bigEntries.1 he).1, (mem_bigEntries.1 he).2, h3⟩
  · rcases b3 with h3 | ⟨e, he, h3⟩
    · exact .inl h3
    · exact .inr ⟨e.1, e.2, (mem_bigEntries.1 he).1, (mem_bigEntries.1 he).2, h3⟩

/-- **C38 (effect of the scaling).** If the mean of the smallest and the largest exponent is below -1/4, the scaling
moves it to between -1/4 and 3/4; otherwise, with all exponents positive, it makes the smallest one 0; otherwise the
ray is not scaled. -/
theorem scaleExp_centres (mn mx : ℤ) (tiny : Bool) :
    ((1 / 2 * ((mn : ℚ) + mx) < -(1 / 4)) → -(1 / 4) < 1 / 2 * ((mn : ℚ) + mx) + scaleExp tiny mn mx ∧
      1 / 2 * ((mn : ℚ) + mx) + scaleExp tiny mn mx ≤ 3 / 4) ∧
    (-(1 / 4) ≤ 1 / 2 * ((mn : ℚ) + mx) →
      (tiny = false ∧ 0 < mn → mn + scaleExp tiny mn mx = 0) ∧ (¬ (tiny = false ∧ 0 < mn) → scaleExp tiny mn mx = 0)) := by
  constructor
  · intro h
    unfold scaleExp
    dsimp only
    rw [if_pos h]
    unfold truncQ
    rw [if_neg (by linarith)]
    have h1 := Int.le_ceil (1 / 2 * ((mn : ℚ) + mx) + 1 / 4)
    have h2 := Int.ceil_lt_add_one (1 / 2 * ((mn : ℚ) + mx) + 1 / 4)
    push_cast
    constructor <;> linarith
  · intro h
    unfold scaleExp
    dsimp only
    rw [if_neg (by linarith)]
    constructor
    · rintro ⟨rfl, h2⟩
      rw [if_pos (by simp [h2])]
      ring
    · intro hn
      rw [if_neg]
      intro hc
      simp only [Bool.and_eq_true, Bool.not_eq_true', gt_iff_lt, decide_eq_true_eq] at hc
      exact hn hc

example : scaleExp false (-4) 1 = 2 ∧ scaleExp false 2 4 = -2 ∧ scaleExp true 2 4 = 0 := by
  refine ⟨by decide +kernel, by decide +kernel, by decide +kernel⟩

/-- **C51 (range of `long`).** The decimal text of an integer is accepted by `parseLong` exactly if the integer is
from -2^63 to 2^63 - 1. -/
theorem parseLong_accepts_iff (n : ℤ) :
    (parseLong (decimal n)).1 = true ↔ -9223372036854775808 ≤ n ∧ n ≤ 9223372036854775807 := by
  constructor
  · intro h
    by_contra hn
    have hs : strtol (decimal n) = (if 0 ≤ n then longMax else longMin, false, [], true) := by
      unfold decimal strtol
      obtain ⟨c, cs, hc⟩ : ∃ c cs, Nat.toDigits 10 n.natAbs = c :: cs :=
        List.exists_cons_of_ne_nil (toDigits_ne_nil _)
      have hcd : c.isDigit = true := Nat.isDigit_of_mem_toDigits (b := 10) (n := n.natAbs)
        (by omega) (by omega) (by rw [hc]; exact List.mem_cons_self)
      split
      · rename_i hneg
        have hd : List.dropWhile isCSpace ('-' :: Nat.toDigits 10 n.natAbs) =
            '-' :: Nat.toDigits 10 n.natAbs := by
          rw [List.dropWhile_cons_of_neg]; decide
        have hs : stripSign ('-' :: Nat.toDigits 10 n.natAbs) = (true, Nat.toDigits 10 n.natAbs) := by
          simp [stripSign]
        rw [hd, hs]
        simp only [takeWhile_digits, dropWhile_digits, digitsVal_toDigits, toDigits_ne_nil, if_false,
          if_true]
        have : -(n.natAbs : Int) = n := by omega
        rw [this, if_neg (by simp only [longMax]; omega), if_pos (by simp only [longMin]; omega), if_neg (by omega)]
      · rename_i hneg
        have hd : List.dropWhile isCSpace (Nat.toDigits 10 n.natAbs) = Nat.toDigits 10 n.natAbs := by
          rw [hc, List.dropWhile_cons_of_neg]; rw [digit_not_space hcd]; decide
        have hs : stripSign (Nat.toDigits 10 n.natAbs) = (false, Nat.toDigits 10 n.natAbs) := by
          rw [hc]; simp [stripSign, (digit_ne_sign hcd).1, (digit_ne_sign hcd).2]
        rw [hd, hs]
        simp only [takeWhile_digits, dropWhile_digits, digitsVal_toDigits, toDigits_ne_nil, if_false]
        have : (n.natAbs : Int) = n := by omega
        simp only [this, Bool.false_eq_true, if_false]
        rw [if_pos (by simp only [longMax]; omega), if_pos (by omega)]
    unfold parseLong at h
    rw [hs] at h
    by_cases h0 : 0 ≤ n <;> simp [h0] at h
  · rintro ⟨h1, h2⟩
    rw [parseLong_decimal n (by simp only [longMin]; omega) (by simp only [longMax]; omega)]

example : (parseLong (decimal 9223372036854775807)).1 = true ∧ (parseLong (decimal 9223372036854775808)).1 = false := by
  refine ⟨(parseLong_accepts_iff _).2 (by omega), ?_⟩
  rw [← Bool.not_eq_true, parseLong_accepts_iff]
  omega

/-- **C11.** The exit in `exitGenCut` is taken exactly if a positive number of cuts is reported although the solver is
not optimal. -/
theorem exitGenCut_exit_iff (g : Gen) (s : Solve) (r : Ret) (heur : ObjType) :
    exitGenCut g s r heur = none ↔ (∃ n, r = .num (n + 1)) ∧ ¬ ∃ sol, s = .optimal sol := by
  unfold exitGenCut
  cases r with
  | fail f => simp
  | num n => cases n <;> cases s <;> simp [Solve.isOptimal]

example (g : Gen) : exitGenCut g .other (.num 1) .DUMMY_OBJ = none :=
  (exitGenCut_exit_iff g .other (.num 1) .DUMMY_OBJ).2 ⟨⟨0, rfl⟩, by simp⟩

/-! ### A limit that is reached ends the function -/

/-- **C102.** If a limit is reached when the loop over unit vectors comes to its next element, no objective is tried and
the function is left: by the loop itself, or by the test right after it (in the same state). -/
theorem units_abandon (W : TWorld) (max : ℤ) (js : List ℕ) (tried : ℕ) (st : TSt) (hl : limits W st = true) :
    ∃ q, unitsLoop W max js tried st = .ok q ∧ (q = (st.ticked, true) ∨ q = (st, false)) := by
  cases js with
  | nil => exact ⟨_, rfl, .inr rfl⟩
  | cons j js =>
    unfold unitsLoop
    split
    · exact ⟨_, rfl, .inr rfl⟩
    · rw [hl, Bool.or_true, if_pos rfl]; exact ⟨_, rfl, .inl rfl⟩

/-- The same for the loop over rays. -/
theorem rays_abandon (W : TWorld) (max : ℤ) (ks : List ℕ) (tried : ℕ) (st : TSt) (hl : limits W st = true) :
    ∃ q, raysLoop W max ks tried st = .ok q ∧ (q = (st.ticked, true, tried) ∨ q = (st, false, tried)) := by
  cases ks with
  | nil => exact ⟨_, rfl, .inr rfl⟩
  | cons j js =>
    unfold raysLoop
    split
    · exact ⟨_, rfl, .inr rfl⟩
    · rw [hl, Bool.or_true, if_pos rfl]; exact ⟨_, rfl, .inl rfl⟩

/-- The same for the loop over points. -/
theorem points_abandon (W : TWorld) (m : ℤ) (ks : List ℕ) (tried : ℕ) (st : TSt) (hl : limits W st = true) :
    ∃ q, pointsLoop W m ks tried st = .ok q ∧ (q = (st.ticked, true, tried) ∨ q = (st, false, tried)) := by
  cases ks with
  | nil => exact ⟨_, rfl, .inr rfl⟩
  | cons j js =>
    unfold pointsLoop
    rw [hl, Bool.or_true, if_pos rfl]; exact ⟨_, rfl, .inl rfl⟩

/-- The same for the second loop over points. -/
theorem points2_abandon (W : TWorld) (f : ℕ) (m : ℤ) (ks : List ℕ) (tried : ℕ) (st : TSt) (hl : limits W st = true) :
    ∃ q, points2Loop W f m ks tried st = .ok q ∧ (q = (st.ticked, true) ∨ q = (st, false)) := by
  cases ks with
  | nil => exact ⟨_, rfl, .inr rfl⟩
  | cons j js =>
    unfold points2Loop
    rw [hl, Bool.or_true, if_pos rfl]; exact ⟨_, rfl, .inl rfl⟩

/-- The same for the second loop over rays. -/
theorem rays2_abandon (W : TWorld) (max : ℤ) (ks : List ℕ) (tried : ℕ) (st : TSt) (hl : limits W st = true) :
    ∃ q, rays2Loop W max ks tried st = .ok q ∧ (q = (st.ticked, true) ∨ q = (st, false)) := by
  cases ks with
  | nil => exact ⟨_, rfl, .inr rfl⟩
  | cons j js =>
    unfold rays2Loop
    rw [hl, Bool.or_true, if_pos rfl]; exact ⟨_, rfl, .inl rfl⟩

/-- **C102.** If a limit is reached when the heuristics after the points begin, none of them tries anything: the function ends
there, whatever the clock says later. -/
theorem late_abandon (W : TWorld) (L : BuiltLP) (first : ℕ) (m : ℤ) (tried : ℕ) (st : TSt) (hl : limits W st = true) :
    phasesLate W L first m tried st = .ok (st.ticked, true) := by
  unfold phasesLate
  have h : phaseUnits W (maxUnits W L) st = .ok (st.ticked, true) := by
    unfold phaseUnits Phase.next
    split
    · obtain ⟨q, hq, h | h⟩ := units_abandon W (maxUnits W L) W.unitOrder 0 st hl
      · rw [hq, h]; rfl
      · rw [hq, h]; simp [Res.bind, abandonTest, hl]
    · simp [Res.bind, abandonTest, hl]
  rw [h]
  rfl

/-- **C102.** The same where the heuristics for points begin, if the one for the lowest point is off. -/
theorem points_phase_abandon (W : TWorld) (ps : List ℕ) (m : ℤ) (st : TSt) (hl : limits W st = true) :
    ∃ n, phasePoints W ps m st = .ok (st.ticked, true, n) := by
  unfold phasePoints
  split
  · obtain ⟨q, hq, h | h⟩ := points_abandon W m (middlePoints ps) 0 st hl
    · rw [hq, h]; exact ⟨_, rfl⟩
    · rw [hq, h]; simp [Res.bind, abandonTest, hl]
  · simp [Res.bind, abandonTest, hl]

/-- A state in which a limit is reached: the time is up. -/
example (st : TSt) : limits { Tri.tW with timeUp := fun _ => true } st = true := by simp [limits]

/-- **C51 (by name).** Setting by name reports success exactly if some parameter of any of the three kinds has a
name that is its own canonical form. -/
theorem setByName_flag (env : CliEnv) (p q : Params) (nm v : String) (b : Bool)
    (h : p.setByName env nm v = some (q, b)) :
    b = true ↔ (∃ i ∈ IntId.all, upperNoUnderscore (p.ints i).name = (p.ints i).name) ∨
      (∃ i ∈ DblId.all, upperNoUnderscore (p.dbls i).name = (p.dbls i).name) ∨
      (∃ i ∈ StrId.all, upperNoUnderscore (p.strs i).1 = (p.strs i).1) := by
  have key : ∀ {α : Type} {l : List α} {f : α → Bool} {i : α}, l.find? f = some i → i ∈ l ∧ f i = true :=
    fun h => ⟨List.mem_of_find?_eq_some h, List.find?_some h⟩
  have none' : ∀ {α : Type} {l : List α} {f : α → Bool}, l.find? f = none → ¬ ∃ i ∈ l, f i = true := by
    rintro α l f h ⟨i, hi, hf⟩
    exact (List.find?_eq_none.1 h) i hi hf
  unfold Params.setByName at h
  split at h
  · rename_i i hi
    obtain ⟨x, -, hx⟩ := Option.map_eq_some_iff.1 h
    have hb : b = true := by simpa using (congrArg Prod.snd hx).symm
    have := key hi
    simp only [hb, true_iff]
    exact Or.inl ⟨i, this.1, by simpa using this.2⟩
  · rename_i h1
    have n1 := none' h1
    split at h
    · rename_i i hi
      obtain ⟨x, -, hx⟩ := Option.map_eq_some_iff.1 h
      have hb : b = true := by simpa using (congrArg Prod.snd hx).symm
      have := key hi
      simp only [hb, true_iff]
      exact Or.inr (Or.inl ⟨i, this.1, by simpa using this.2⟩)
    · rename_i h2
      have n2 := none' h2
      split at h
      · rename_i i hi
        have hb : b = true := by
          have := congrArg Prod.snd (Option.some.inj h)
          simpa using this.symm
        have := key hi
        simp only [hb, true_iff]
        exact Or.inr (Or.inr ⟨i, this.1, by simpa using this.2⟩)
      · rename_i h3
        have n3 := none' h3
        have hb : b = false := by
          have := congrArg Prod.snd (Option.some.inj h)
          simpa using this.symm
        simp only [hb, Bool.false_eq_true, false_iff]
        simp only [beq_iff_eq] at n1 n2 n3
        rintro (h | h | h)
        · exact n1 h
        · exact n2 h
        · exact n3 h

/-- **C98/C99.** Lists of different length count as unchanged: a presolved instance with other numbers of rows and columns
counts no changes of sides and bounds. -/
theorem presolveDiff_other (I J : Inst) (hr : I.relax.rows.length ≠ J.relax.rows.length)
    (hl : I.relax.lo.length ≠ J.relax.lo.length) (hh : I.relax.hi.length ≠ J.relax.hi.length) :
    presolveDiff I J = 0 := by
  simp [presolveDiff, countDiff, hr, hl, hh]

example : presolveDiff ⟨⟨[some 0], [some 4], [⟨[(0, 1)], some 1, some 3⟩]⟩, [1], 0, 1, fun _ => true⟩ .empty = 0 :=
  presolveDiff_other _ _ (by decide) (by decide) (by decide)

/-- **C05.** The bounds recorded for a node are those of the child that is still to be explored: an up-branch
gets the value rounded up as lower bound and keeps the upper one, every other direction gets the value rounded down as upper
bound and keeps the lower one. -/
theorem nodeStat_child (n : CNode) (id orig : ℕ) (parent : ℤ) (ch : List BChange) :
    (0 < n.way → (nodeStat n id orig parent ch).lb = (⌈n.value⌉ : ℤ) ∧ (nodeStat n id orig parent ch).ub = n.prevUB) ∧
    (n.way ≤ 0 → (nodeStat n id orig parent ch).lb = n.prevLB ∧ (nodeStat n id orig parent ch).ub = (⌊n.value⌋ : ℤ)) := by
  unfold nodeStat
  refine ⟨fun h => ⟨if_pos h, if_pos h⟩, fun h => ⟨if_neg (by omega), if_neg (by omega)⟩⟩

/-- **C105.** Resetting the solver is one solve: later answers are those of later solves, and the solution left is
zero. -/
theorem resetSolver_solve (W : TWorld) (st : TSt) :
    (resetSolver W st).n = st.n + 1 ∧ (resetSolver W st).lp = st.lp ∧
      ∀ x, (resetSolver W st).cur = some x → ∀ i, x.getD i 0 = 0 := by
  refine ⟨rfl, rfl, fun x hx i => ?_⟩
  unfold resetSolver at hx
  simp only [Option.map_eq_some_iff] at hx
  obtain ⟨_, -, rfl⟩ := hx
  simp [constObj, List.getD_replicate]

/-- A node on `x₂ = 5/2` in `[0, 7]`, up-branch first. -/
def twoSided : CNode := ⟨1, 1, some 0, 0, 2, 5/2, true, false, 0, 7, 1, [], []⟩

example : 0 < twoSided.way ∧ (nodeStat twoSided 1 1 0 []).lb = 3 ∧ (nodeStat twoSided 1 1 0 []).ub = 7 := by
  decide +kernel

example : { twoSided with firstUp := false }.way ≤ 0 ∧ (nodeStat { twoSided with firstUp := false } 1 1 0 []).lb = 0 ∧
    (nodeStat { twoSided with firstUp := false } 1 1 0 []).ub = 2 := by decide +kernel

/-- **C18.** The value of a string parameter is the one last set; setting one leaves the values of the others; before,
all of them are empty. -/
theorem getS_setS (p : Params) (i j : StrId) (v : String) :
    ((p.setS i v).getS j = if j = i then v else p.getS j) ∧ Params.default.getS j = "" := by
  refine ⟨?_, by cases j <;> rfl⟩
  by_cases h : j = i <;> simp [Params.getS, Params.setS, h]

/-- **C77.** The types of the cuts are copied if every record has a type for each of its cuts in both lists; otherwise
memory is read that was never written. -/
theorem copyTypes_ok_iff (rs : List CutInfo) :
    ((∃ t, copyTypes rs = .ok t) ↔ ∀ r ∈ rs, r.numCuts ≤ r.cutType.length ∧ r.numCuts ≤ r.objType.length) ∧
      ((∃ r ∈ rs, r.cutType.length < r.numCuts ∨ r.objType.length < r.numCuts) → copyTypes rs = .undef) := by
  induction rs with
  | nil => exact ⟨⟨by simp, fun _ => ⟨_, rfl⟩⟩, by rintro ⟨r, hr, -⟩; cases hr⟩
  | cons r rs ih =>
    by_cases h : r.numCuts ≤ r.cutType.length ∧ r.numCuts ≤ r.objType.length
    · simp only [copyTypes, if_pos h]
      refine ⟨⟨?_, fun ha => ?_⟩, ?_⟩
      · rintro ⟨t, ht⟩
        cases hc : copyTypes rs with
        | ok u =>
          intro r' hr'
          rcases List.mem_cons.1 hr' with rfl | hr'
          · exact h
          · exact ih.1.1 ⟨u, hc⟩ r' hr'
        | undef => rw [hc] at ht; simp [Res.bind] at ht
        | exit => rw [hc] at ht; simp [Res.bind] at ht
      · obtain ⟨t, ht⟩ := ih.1.2 fun r' hr' => ha r' (List.mem_cons_of_mem _ hr')
        exact ⟨_, by rw [ht]; rfl⟩
      · rintro ⟨r', hr', hb⟩
        rcases List.mem_cons.1 hr' with rfl | hr'
        · omega
        · rw [ih.2 ⟨r', hr', hb⟩]; rfl
    · simp only [copyTypes, if_neg h]
      refine ⟨⟨(by rintro ⟨t, ht⟩; cases ht), fun ha => absurd (ha r (List.mem_cons_self ..)) h⟩, fun _ => trivial⟩

example : copyTypes [{ numCuts := 1, cutType := [.VPC], objType := [.USER] }] = .ok ([.VPC], [.USER]) ∧
    copyTypes [{ numCuts := 1, cutType := [.VPC], objType := [] }] = .undef := by
  refine ⟨rfl, (copyTypes_ok_iff _).2 ⟨_, List.mem_cons_self .., .inr ?_⟩⟩
  decide

/-- **C21.** Only a number of values of 0 makes the update divide by zero; with one value, the average is the value. -/
theorem updateStats_none_iff {K : Type} [Field K] [LinearOrder K] (s : Stats K) (v : K) (size : ℤ) :
    (updateStatsBeforeFinalize s v size = none ↔ size = 0) ∧
      (∀ lo hi, (updateStatsBeforeFinalize (initializeStats lo hi) v 1).map (·.avg) = some v) ∧
      (size < 0 → (updateStatsBeforeFinalize s v size).map (fun t => (t.avg, t.num)) = some (s.total + v, s.num + 1)) := by
  refine ⟨?_, fun lo hi => ?_, fun h => ?_⟩
  · unfold updateStatsBeforeFinalize; split <;> simp_all
  · simp [updateStatsBeforeFinalize, updateStat, initializeStats, zeroStats]
  · unfold updateStatsBeforeFinalize
    rw [if_neg (by omega), if_neg (by omega)]
    simp [updateStat]

example : updateStatsBeforeFinalize (initializeStats (0 : ℚ) 9) 5 0 = none ∧
    (updateStatsBeforeFinalize (initializeStats (0 : ℚ) 9) 5 1).map (·.avg) = some 5 :=
  ⟨((updateStats_none_iff _ _ _).1).2 rfl, (updateStats_none_iff zeroStats 5 1).2.1 0 9⟩

/-- **C56.** The LP is solved again at least once, and not a second time if it is then solved without infeasibility. -/
theorem resolveLoop_once {σ : Type} (I : SolverImpl σ) (max : ℕ) (infeas : ℚ) (s : σ) (hm : 0 < max) :
    1 ≤ (resolveLoop I max 0 infeas s).2 ∧
      (isZero (I.sumPrimal (I.resolve (I.timed s)) + I.sumDual (I.resolve (I.timed s))) = true →
        resolveLoop I max 0 infeas s = (I.resolve (I.timed s), 1)) := by
  have mono : ∀ (c : ℕ) (i : ℚ) (t : σ), c ≤ (resolveLoop I max c i t).2 := by
    intro c i t
    fun_induction resolveLoop I max c i t with
    | case1 c i t h curr hc ih => omega
    | case2 => exact le_refl _
    | case3 => exact le_refl _
  have first : resolveLoop I max 0 infeas s =
      resolveLoop I max 1 (I.sumPrimal s + I.sumDual s) (I.resolve (I.timed s)) := by
    conv_lhs => rw [resolveLoop]
    simp [hm]
  refine ⟨by rw [first]; exact mono _ _ _, fun hz => ?_⟩
  rw [first, resolveLoop]
  simp [hz]

example : resolveLoop freeSolver 2 0 5 [] = ([], 1) :=
  (resolveLoop_once freeSolver 2 5 [] (by norm_num)).2 (by decide +kernel)

/-- **C108.** The estimate of a variable with few trials is scaled up: with `num` trials below the number `trusted` it is
(trusted + 1)/(num + 1) times what it is if every number is trusted; otherwise it is that. -/
theorem sideEstimate_few (est total mult : ℚ) (num : ℕ) (trusted : ℤ) :
    ((num : ℤ) < trusted →
      sideEstimate est total num mult trusted * (num + 1) = sideEstimate est total num mult 0 * (trusted + 1)) ∧
    (trusted ≤ num → sideEstimate est total num mult trusted = sideEstimate est total num mult 0) ∧
    sideEstimate est total 0 mult 0 = est * mult := by
  refine ⟨fun h => ?_, fun h => ?_, ?_⟩
  · have hn : (num : ℚ) + 1 ≠ 0 := by positivity
    unfold sideEstimate
    dsimp only
    generalize (if num ≠ 0 then est * (total + 1 / 10 ^ 30) / num else est * mult) = e
    rw [if_pos h, if_neg (by omega)]
    field_simp
  · unfold sideEstimate
    dsimp only
    generalize (if num ≠ 0 then est * (total + 1 / 10 ^ 30) / num else est * mult) = e
    rw [if_neg (by omega), if_neg (by omega)]
  · simp [sideEstimate]

example : sideEstimate 2 0 0 3 4 = 30 := by
  have h := (sideEstimate_few 2 0 3 0 4).1 (by norm_num)
  rw [(sideEstimate_few 2 0 3 0 0).2.2] at h
  norm_num at h
  exact h

/-- **C63.** A custom round uses every split disjunction once, in order: the objective values collected are those of the
disjunctions `0, 1, …`. -/
theorem customRound_objs {c : MainCfg} {w : RoundWorld} {terms : ℤ} {round : ℕ} {reason : ExitReason} {p : VpcPart}
    (h : customRound c w terms round reason = .ok p) : p.objs = (List.range (w.gen 0).numSplits).map w.objs := by
  have key : ∀ (limit : ℤ) (k d : ℕ) (g : Gen) (p p' : VpcPart), customLoop c w terms round limit k d g p = .ok p' →
      p'.objs = p.objs ++ (List.range' d k).map w.objs := by
    intro limit k
    induction k with
    | zero => intro d g p p' h; simp only [customLoop, Res.ok.injEq] at h; subst h; simp
    | succ k ih =>
      intro d g p p' h
      unfold customLoop at h
      obtain ⟨o, -, h⟩ := Res.bind_ok h
      rw [ih _ _ _ _ h]
      simp [List.range'_succ]
  unfold customRound at h
  dsimp only at h
  split at h
  · rename_i h0
    simp only [Res.ok.injEq] at h
    subst h
    simp [h0]
  · rw [key _ _ _ _ _ _ h, List.range_eq_range']
    simp

example : ∃ p, customRound ⟨0, .CUSTOM, [], 1, false, 5⟩
    ⟨[], fun _ => { quietGen with numSplits := 2 }, fun d => (d, d + 1), false, true, false⟩ 2 0 .UNKNOWN = .ok p ∧
    p.objs = [(0, 1), (1, 2)] := by
  have e : (customRound ⟨0, .CUSTOM, [], 1, false, 5⟩
    ⟨[], fun _ => { quietGen with numSplits := 2 }, fun d => (d, d + 1), false, true, false⟩ 2 0 .UNKNOWN).bind
      (fun p => Res.ok p.objs) = .ok [(0, 1), (1, 2)] := by decide +kernel
  obtain ⟨p, hp, e⟩ := Res.bind_ok e
  simp only [Res.ok.injEq] at e
  exact ⟨p, hp, e⟩

end VPC
