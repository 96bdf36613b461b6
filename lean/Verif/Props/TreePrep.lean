import Verif.Model.TreePrep
import Verif.Props.Options
import Verif.Props.TargetTight
import Mathlib.Data.Nat.Sqrt

/-!
# C117: the digits of the strategy select the components; C45 for trees
-/
namespace VPC

/-! ## C117: specification -/

/-- Documented meaning of the ones digit (src/disjunction/PartialBBDisjunction.cpp:368-370), as far as
Cbc has such a comparison; `none` for digits without meaning. -/
def docCompare : ℤ → Option NodeCmp
  | 0 => some .default
  | 1 => some .bfs
  | 2 => some .depth
  | 3 => some .estimate
  | 4 => some .objective
  | _ => none

/-- Documented meaning of the tens digit (src/disjunction/PartialBBDisjunction.cpp:352-355): the
outer `none` for digits without meaning, the inner one for "none". -/
def docBranch : ℤ → Option (Option BrDec)
  | 0 => some (some .default)
  | 1 => some (some .dynamic)
  | 2 => some (some .strong)
  | 3 => some none
  | _ => none

/-- Documented number of candidates (include/VPCParameters.hpp:62): `-1`: as many as columns, `-2`:
the square root of that, rounded up, otherwise the number itself; `none` for the numbers without
meaning. -/
def docStrong (param : ℤ) (cols k : ℕ) : Prop :=
  (param = -1 ∧ k = cols) ∨
  (param = -2 ∧ cols ≤ k * k ∧ ∀ j, cols ≤ j * j → k ≤ j) ∨
  (0 ≤ param ∧ (k : ℤ) = param)

/-- C117: for a strategy `±(100 h + 10 t + o)` whose digits are documented and whose branching
decision is not switched off, and a documented number of candidates, the search is run with the node
comparison, branching decision and choice method of the digits, the number of candidates asked for (in
both the model and the chooser), pseudocosts never trusted, and without presolve, cuts and time limit
of its own. The full claim also has the digits 5 (reversed objective) and 3 with a choice method, which do
not do what they say: `compare_five`, `branch_three`. -/
theorem tree_settings_partial (h t o numStrong : ℤ) (neg : Bool) (cols k : ℕ) (cmp : NodeCmp)
    (br : BrDec) (hh : 0 ≤ h ∧ h ≤ 9) (ht : 0 ≤ t ∧ t ≤ 9) (ho : 0 ≤ o ∧ o ≤ 9)
    (hc : docCompare o = some cmp) (hb : docBranch t = some (some br))
    (hs : docStrong numStrong cols k) :
    treeSettingsOf (if neg then -(100 * h + 10 * t + o) else 100 * h + 10 * t + o) numStrong cols =
      some { branch := some br, compare := cmp, strong := some (k : ℤ), trust := some intMax,
             chooser := some ⟨if neg then -h else h, some (k : ℤ), some intMax⟩,
             presolve := 0, maxSeconds := dblMax, cutPassesRoot := 0, cutPasses := 0, whenCuts := 0,
             hotStartIterations := 100 } := by
  have hn : numStrongOf numStrong cols = (k : ℤ) := by
    unfold numStrongOf
    rcases hs with ⟨rfl, rfl⟩ | ⟨rfl, hk, hm⟩ | ⟨hp, hk⟩
    · rw [if_pos rfl]
    · rw [if_neg (show ¬((-2 : ℤ) = -1) by decide), if_pos rfl]
      have := ceilSqrt_spec cols
      have := this.2 k hk
      have := hm (ceilSqrt cols) (ceilSqrt_spec cols).1
      omega
    · rw [if_neg (by omega), if_neg (by omega), hk]
  have hbr : branchOf t = some br := by
    unfold docBranch at hb
    split at hb <;> simp_all [branchOf]
  have hcm : compareOf o = cmp := by
    unfold docCompare at hc
    split at hc <;> simp_all [compareOf]
  unfold treeSettingsOf
  rw [strategy_decodes h t o neg hh ht ho]
  simp only [Option.map_some, treeSettings, hn, hbr, hcm, setIfNonneg]
  rw [if_pos (show (k : ℤ) ≥ 0 by omega), if_pos (by decide)]

example : docCompare 4 = some .objective ∧ docBranch 2 = some (some .strong) ∧
    docStrong (-2) 10 4 := by
  refine ⟨rfl, rfl, Or.inr (Or.inl ⟨rfl, by norm_num, fun j hj => ?_⟩)⟩
  by_contra hlt
  have : j * j ≤ 3 * 3 := Nat.mul_self_le_mul_self (by omega)
  omega

example : (treeSettingsOf (-724) (-1) 30).map (fun s => (s.compare, s.branch, s.chooser)) =
    some (.objective, some .strong, some ⟨-7, some 30, some intMax⟩) := by decide +kernel

/-- The ones digit 5 is documented as "objective_reverse" but gives the default comparison, as do all
larger digits. -/
theorem compare_five (h t o numStrong : ℤ) (neg : Bool) (cols : ℕ) (hh : 0 ≤ h ∧ h ≤ 9)
    (ht : 0 ≤ t ∧ t ≤ 9) (ho : 5 ≤ o ∧ o ≤ 9) :
    (treeSettingsOf (if neg then -(100 * h + 10 * t + o) else 100 * h + 10 * t + o)
      numStrong cols).map TreeSet.compare = some .default := by
  unfold treeSettingsOf
  rw [strategy_decodes h t o neg hh ht ⟨by omega, ho.2⟩]
  simp only [Option.map_some, treeSettings, compareOf]
  rw [if_neg (by omega), if_neg (by omega), if_neg (by omega), if_neg (by omega)]

/-- With the tens digit 3 no chooser is installed: the hundreds digit has no effect at all. -/
theorem branch_three (h h' o numStrong : ℤ) (neg neg' : Bool) (cols : ℕ) (hh : 0 ≤ h ∧ h ≤ 9)
    (hh' : 0 ≤ h' ∧ h' ≤ 9) (ho : 0 ≤ o ∧ o ≤ 9) :
    treeSettingsOf (if neg then -(100 * h + 10 * 3 + o) else 100 * h + 10 * 3 + o) numStrong cols =
    treeSettingsOf (if neg' then -(100 * h' + 10 * 3 + o) else 100 * h' + 10 * 3 + o)
      numStrong cols := by
  unfold treeSettingsOf
  rw [strategy_decodes h 3 o neg hh (by decide) ho, strategy_decodes h' 3 o neg' hh' (by decide) ho]
  rfl

/-- Tens digits above 3 behave like 0. -/
theorem branch_big (h t o numStrong : ℤ) (neg : Bool) (cols : ℕ) (hh : 0 ≤ h ∧ h ≤ 9)
    (ht : 4 ≤ t ∧ t ≤ 9) (ho : 0 ≤ o ∧ o ≤ 9) :
    treeSettingsOf (if neg then -(100 * h + 10 * t + o) else 100 * h + 10 * t + o) numStrong cols =
    treeSettingsOf (if neg then -(100 * h + 10 * 0 + o) else 100 * h + 10 * 0 + o)
      numStrong cols := by
  unfold treeSettingsOf
  rw [strategy_decodes h t o neg hh ⟨by omega, ht.2⟩ ho,
    strategy_decodes h 0 o neg hh (by decide) ho]
  have : branchOf t = branchOf 0 := by
    unfold branchOf
    rw [if_neg (by omega), if_neg (by omega), if_neg (by omega)]
    rfl
  simp only [Option.map_some, treeSettings, this]

/-- A number of candidates below -2 is accepted and leaves Cbc's own number. -/
theorem strong_small (strategy numStrong : ℤ) (cols : ℕ) (s : TreeSet) (hn : numStrong < -2)
    (h : treeSettingsOf strategy numStrong cols = some s) :
    s.strong = none ∧ ∀ c, s.chooser = some c → c.strong = none := by
  have e : numStrongOf numStrong cols = numStrong := by
    unfold numStrongOf
    rw [if_neg (by omega), if_neg (by omega)]
  unfold treeSettingsOf at h
  rw [e] at h
  obtain ⟨t, _, rfl⟩ := Option.map_eq_some_iff.mp h
  have e2 : setIfNonneg numStrong = none := by unfold setIfNonneg; rw [if_neg (by omega)]
  refine ⟨e2, fun c hc => ?_⟩
  simp only [treeSettings] at hc
  obtain ⟨_, _, rfl⟩ := Option.map_eq_some_iff.mp hc
  exact e2

example : ∃ s, treeSettingsOf 4 (-3) 10 = some s := ⟨_, rfl⟩

/-- The smallest `int` is accepted as a strategy but its absolute value is undefined. -/
theorem strategy_min (numStrong : ℤ) (cols : ℕ) : treeSettingsOf intMin numStrong cols = none := by
  unfold treeSettingsOf getCbcStrategies
  rw [if_pos rfl]
  rfl

/-! ## C45 for trees -/

/-- If the search saved its tree at least once, nothing of the earlier contents remains: the outcome is
the same as for a new disjunction. -/
theorem tree_prepare_replaces_partial (k : ℤ) (keep : Bool) (D : Disj) (run : TreeRun) (hk : 2 ≤ k)
    (h : run.saves ≠ []) : prepareTree k keep D run = prepareTree k keep .new run := by
  unfold prepareTree
  rw [if_neg (by omega), if_neg (by omega)]
  cases hs : run.saves.getLast? with
  | none => rw [List.getLast?_eq_none_iff] at hs; exact absurd hs h
  | some s => rfl

/-- If the search ended before the tree was saved, the terms of the earlier preparation stay. -/
theorem tree_prepare_stale (k : ℤ) (keep : Bool) (D D' : Disj) (r : DisjExit) (run : TreeRun)
    (h : run.saves = []) (hp : prepareTree k keep D run = .ok (r, D')) :
    D'.terms = D.terms ∧ D'.numTerms = D.numTerms ∧ D'.common = D.common := by
  unfold prepareTree at hp
  split at hp
  · simp only [Res.ok.injEq, Prod.mk.injEq] at hp
    rw [← hp.2]; exact ⟨rfl, rfl, rfl⟩
  · rw [h] at hp
    simp only [List.getLast?_nil, Option.map_none, Option.getD_none] at hp
    unfold pbbFinish at hp
    generalize (if run.found = true then (1 : ℤ) else 0) = fnd at hp
    split at hp
    · split at hp
      · simp only [Res.ok.injEq, Prod.mk.injEq] at hp
        rw [← hp.2]; exact ⟨rfl, rfl, rfl⟩
      · split at hp
        · simp only [Res.ok.injEq, Prod.mk.injEq] at hp
          rw [← hp.2]; exact ⟨rfl, rfl, rfl⟩
        · simp only [Res.ok.injEq, Prod.mk.injEq] at hp
          rw [← hp.2]; exact ⟨rfl, rfl, rfl⟩
    · split at hp
      · simp at hp
      · simp only [Res.ok.injEq, Prod.mk.injEq] at hp
        rw [← hp.2]; exact ⟨rfl, rfl, rfl⟩

/-- The reason reported then depends on the earlier contents: a search that ended without optimum and
without saving is reported as having too few terms on a new object, but as "unknown" on an object that
holds at least two terms. -/
theorem tree_prepare_stale_reason (k : ℤ) (keep : Bool) (D : Disj) (run : TreeRun) (hk : 2 ≤ k)
    (h : run.saves = []) (hst : run.fin.status = 1) (hopt : run.fin.provenOptimal = false)
    (hD : 2 ≤ D.numTerms) :
    prepareTree k keep .new run = .ok (.TOO_FEW_TERMS, .new) ∧
    prepareTree k keep D run = .ok (.UNKNOWN, D) := by
  unfold prepareTree
  rw [if_neg (by omega), if_neg (by omega), h]
  simp only [List.getLast?_nil, Option.map_none, Option.getD_none]
  unfold pbbFinish
  constructor
  · rw [if_pos (by simp [hst]), if_neg (by simp [hopt]), if_pos (by decide)]
  · rw [if_pos (by simp [hst]), if_neg (by simp [hopt]), if_neg (by omega)]

/-- A first preparation that saves two terms, and a second one that finds the optimum at once. -/
def firstRun : TreeRun where
  saves := [⟨{ numTerms := 2, terms := [{ changes := [⟨0, 1, 3⟩] }, { changes := [⟨0, 0, 4⟩] }] }, 2, 0, 0⟩]
  numLeaf := 2
  found := false
  fin := ⟨5, false, 0, []⟩

def secondRun : TreeRun where
  saves := []
  numLeaf := 0
  found := false
  fin := ⟨0, true, 7, [4]⟩

/-- C45 is false for trees, too: after the second preparation the object still holds the terms of the
first one; prepared on its own it would hold none. -/
theorem tree_prepare_keeps_terms :
    (∃ D, prepareTrees 2 false .new [firstRun, secondRun] = .ok D ∧ D.terms.length = 2) ∧
    (∃ D, prepareTrees 2 false .new [secondRun] = .ok D ∧ D.terms.length = 0) := by
  refine ⟨⟨_, rfl, rfl⟩, ⟨_, rfl, rfl⟩⟩

end VPC
