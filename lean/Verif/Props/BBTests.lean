import Verif.Model.BBTests
import Verif.Props.Params
import Mathlib.Data.List.GetD
import Mathlib.Data.List.Rotate
import Mathlib.Data.List.Nodup
import Mathlib.Order.Bounds.Basic
import Mathlib.Data.Rat.Floor
import Mathlib.Data.List.Perm.Basic
import Mathlib.Algebra.BigOperators.Group.List.Basic
import Mathlib.Tactic.Linarith
import Mathlib.Tactic.Ring

/-!
# Branch-and-bound tests: best and average results, permuted problems, seeds, runs performed (C82-C85)
-/
namespace VPC

/-! ## C82: best and average of the runs -/

/-- The values a field takes over the runs. -/
def valuesOf {α : Type} (g : BBInfo → α) (runs : List BBInfo) : Set α := {v | ∃ r ∈ runs, v = g r}

/-- `b` is the best of the runs, field by field: smallest objective, iterations, nodes, passes and times,
largest bounds. -/
structure BestOf (runs : List BBInfo) (b : BBInfo) : Prop where
  obj : IsLeast (valuesOf (·.obj) runs) b.obj
  bound : IsGreatest (valuesOf (·.bound) runs) b.bound
  iters : IsLeast (valuesOf (·.iters) runs) b.iters
  nodes : IsLeast (valuesOf (·.nodes) runs) b.nodes
  rootPasses : IsLeast (valuesOf (·.rootPasses) runs) b.rootPasses
  firstCutPass : IsGreatest (valuesOf (·.firstCutPass) runs) b.firstCutPass
  lastCutPass : IsGreatest (valuesOf (·.lastCutPass) runs) b.lastCutPass
  rootIters : IsLeast (valuesOf (·.rootIters) runs) b.rootIters
  rootTime : IsLeast (valuesOf (·.rootTime) runs) b.rootTime
  lastSolTime : IsLeast (valuesOf (·.lastSolTime) runs) b.lastSolTime
  time : IsLeast (valuesOf (·.time) runs) b.time

/-- `b` is the average of the runs; counters are rounded down. -/
structure AverageOf (runs : List BBInfo) (b : BBInfo) : Prop where
  obj : b.obj = (runs.map (·.obj)).sum / runs.length
  bound : b.bound = (runs.map (·.bound)).sum / runs.length
  iters : b.iters = ⌊(((runs.map (·.iters)).sum : ℤ) : ℚ) / runs.length⌋
  nodes : b.nodes = ⌊(((runs.map (·.nodes)).sum : ℤ) : ℚ) / runs.length⌋
  rootPasses : b.rootPasses = ⌊(((runs.map (·.rootPasses)).sum : ℤ) : ℚ) / runs.length⌋
  firstCutPass : b.firstCutPass = (runs.map (·.firstCutPass)).sum / runs.length
  lastCutPass : b.lastCutPass = (runs.map (·.lastCutPass)).sum / runs.length
  rootIters : b.rootIters = ⌊(((runs.map (·.rootIters)).sum : ℤ) : ℚ) / runs.length⌋
  rootTime : b.rootTime = (runs.map (·.rootTime)).sum / runs.length
  lastSolTime : b.lastSolTime = (runs.map (·.lastSolTime)).sum / runs.length
  time : b.time = (runs.map (·.time)).sum / runs.length

/-- Counters are not negative. -/
def BBInfo.Counts (r : BBInfo) : Prop := 0 ≤ r.iters ∧ 0 ≤ r.nodes ∧ 0 ≤ r.rootPasses ∧ 0 ≤ r.rootIters

theorem bestMin_eq {α : Type} [LinearOrder α] (a b : α) : bestMin false a b = min a b := by
  unfold bestMin
  rw [if_neg (by simp), min_def]
  by_cases h : a < b
  · rw [if_pos h, if_pos h.le]
  · rw [if_neg h]
    by_cases h' : a ≤ b
    · rw [if_pos h']; exact le_antisymm (not_lt.1 h) h'
    · rw [if_neg h']

theorem bestMax_eq {α : Type} [LinearOrder α] (a b : α) : bestMax false a b = max a b := by
  unfold bestMax
  rw [if_neg (by simp), max_def]
  by_cases h : b < a
  · rw [if_pos h, if_neg (not_le.2 h)]
  · rw [if_neg h, if_pos (not_lt.1 h)]

theorem fold_least {α : Type} [LinearOrder α] (g : BBInfo → α)
    (hu : ∀ b r, g (updateBestBBInfo b r false) = bestMin false (g b) (g r)) :
    ∀ (rs : List BBInfo) (b : BBInfo), g (rs.foldl (fun b r => updateBestBBInfo b r false) b) ≤ g b ∧
      (∀ r ∈ rs, g (rs.foldl (fun b r => updateBestBBInfo b r false) b) ≤ g r) ∧
      (g (rs.foldl (fun b r => updateBestBBInfo b r false) b) = g b ∨
        ∃ r ∈ rs, g (rs.foldl (fun b r => updateBestBBInfo b r false) b) = g r)
  | [], b => by simp
  | r :: rs, b => by
    obtain ⟨h1, h2, h3⟩ := fold_least g hu rs (updateBestBBInfo b r false)
    rw [hu, bestMin_eq] at h1 h3
    simp only [List.foldl_cons]
    refine ⟨h1.trans (min_le_left _ _), fun x hx => ?_, ?_⟩
    · rcases List.mem_cons.1 hx with rfl | hx
      · exact h1.trans (min_le_right _ _)
      · exact h2 x hx
    · rcases h3 with h3 | ⟨x, hx, h3⟩
      · rcases min_choice (g b) (g r) with e | e
        · exact .inl (h3.trans e)
        · exact .inr ⟨r, by simp, h3.trans e⟩
      · exact .inr ⟨x, by simp [hx], h3⟩

theorem fold_greatest {α : Type} [LinearOrder α] (g : BBInfo → α)
    (hu : ∀ b r, g (updateBestBBInfo b r false) = bestMax false (g b) (g r)) :
    ∀ (rs : List BBInfo) (b : BBInfo), g b ≤ g (rs.foldl (fun b r => updateBestBBInfo b r false) b) ∧
      (∀ r ∈ rs, g r ≤ g (rs.foldl (fun b r => updateBestBBInfo b r false) b)) ∧
      (g (rs.foldl (fun b r => updateBestBBInfo b r false) b) = g b ∨
        ∃ r ∈ rs, g (rs.foldl (fun b r => updateBestBBInfo b r false) b) = g r)
  | [], b => by simp
  | r :: rs, b => by
    obtain ⟨h1, h2, h3⟩ := fold_greatest g hu rs (updateBestBBInfo b r false)
    rw [hu, bestMax_eq] at h1 h3
    simp only [List.foldl_cons]
    refine ⟨(le_max_left _ _).trans h1, fun x hx => ?_, ?_⟩
    · rcases List.mem_cons.1 hx with rfl | hx
      · exact (le_max_right _ _).trans h1
      · exact h2 x hx
    · rcases h3 with h3 | ⟨x, hx, h3⟩
      · rcases max_choice (g b) (g r) with e | e
        · exact .inl (h3.trans e)
        · exact .inr ⟨r, by simp, h3.trans e⟩
      · exact .inr ⟨x, by simp [hx], h3⟩

theorem bestOver_least {α : Type} [LinearOrder α] (g : BBInfo → α)
    (hu : ∀ b r, g (updateBestBBInfo b r false) = bestMin false (g b) (g r))
    (h1 : ∀ b r, g (updateBestBBInfo b r true) = bestMin true (g b) (g r))
    (b r : BBInfo) (rs : List BBInfo) :
    IsLeast (valuesOf g (r :: rs)) (g (bestOver b (r :: rs))) := by
  obtain ⟨a1, a2, a3⟩ := fold_least g hu rs (updateBestBBInfo b r true)
  rw [h1] at a1 a3
  simp only [bestMin, if_true] at a1 a3
  refine ⟨?_, ?_⟩
  · rcases a3 with e | ⟨x, hx, e⟩
    · exact ⟨r, by simp, e⟩
    · exact ⟨x, by simp [hx], e⟩
  · rintro v ⟨x, hx, rfl⟩
    rcases List.mem_cons.1 hx with rfl | hx
    · exact a1
    · exact a2 x hx

theorem bestOver_greatest {α : Type} [LinearOrder α] (g : BBInfo → α)
    (hu : ∀ b r, g (updateBestBBInfo b r false) = bestMax false (g b) (g r))
    (h1 : ∀ b r, g (updateBestBBInfo b r true) = bestMax true (g b) (g r))
    (b r : BBInfo) (rs : List BBInfo) :
    IsGreatest (valuesOf g (r :: rs)) (g (bestOver b (r :: rs))) := by
  obtain ⟨a1, a2, a3⟩ := fold_greatest g hu rs (updateBestBBInfo b r true)
  rw [h1] at a1 a3
  simp only [bestMax, if_true] at a1 a3
  refine ⟨?_, ?_⟩
  · rcases a3 with e | ⟨x, hx, e⟩
    · exact ⟨r, by simp, e⟩
    · exact ⟨x, by simp [hx], e⟩
  · rintro v ⟨x, hx, rfl⟩
    rcases List.mem_cons.1 hx with rfl | hx
    · exact a1
    · exact a2 x hx

/-- **C82.** For every nonempty list of runs, the record kept while looping over the runs is the best of
them, whatever it contained before. -/
theorem best_of_runs (b : BBInfo) (runs : List BBInfo) (h : runs ≠ []) : BestOf runs (bestOver b runs) := by
  obtain ⟨r, rs, rfl⟩ := List.exists_cons_of_ne_nil h
  constructor
  · exact bestOver_least (·.obj) (fun _ _ => rfl) (fun _ _ => rfl) b r rs
  · exact bestOver_greatest (·.bound) (fun _ _ => rfl) (fun _ _ => rfl) b r rs
  · exact bestOver_least (·.iters) (fun _ _ => rfl) (fun _ _ => rfl) b r rs
  · exact bestOver_least (·.nodes) (fun _ _ => rfl) (fun _ _ => rfl) b r rs
  · exact bestOver_least (·.rootPasses) (fun _ _ => rfl) (fun _ _ => rfl) b r rs
  · exact bestOver_greatest (·.firstCutPass) (fun _ _ => rfl) (fun _ _ => rfl) b r rs
  · exact bestOver_greatest (·.lastCutPass) (fun _ _ => rfl) (fun _ _ => rfl) b r rs
  · exact bestOver_least (·.rootIters) (fun _ _ => rfl) (fun _ _ => rfl) b r rs
  · exact bestOver_least (·.rootTime) (fun _ _ => rfl) (fun _ _ => rfl) b r rs
  · exact bestOver_least (·.lastSolTime) (fun _ _ => rfl) (fun _ _ => rfl) b r rs
  · exact bestOver_least (·.time) (fun _ _ => rfl) (fun _ _ => rfl) b r rs

theorem fold_sum {α : Type} [AddMonoid α] (g : BBInfo → α) (hu : ∀ a c, g (addBBInfo a c) = g a + g c) :
    ∀ (l : List BBInfo) (a : BBInfo), g (l.foldl addBBInfo a) = g a + (l.map g).sum
  | [], a => by simp
  | c :: l, a => by
    rw [List.foldl_cons, fold_sum g hu l, hu, List.map_cons, List.sum_cons, add_assoc]

theorem tdiv_floor (s : ℤ) (n : ℕ) (h : 0 ≤ s) : s.tdiv n = ⌊(s : ℚ) / n⌋ := by
  rw [Rat.floor_intCast_div_natCast, Int.tdiv_eq_ediv_of_nonneg h]

theorem sum_nonneg_of {g : BBInfo → ℤ} : ∀ {l : List BBInfo}, (∀ r ∈ l, 0 ≤ g r) → 0 ≤ (l.map g).sum
  | [], _ => by simp
  | r :: l, h => by
    rw [List.map_cons, List.sum_cons]
    exact add_nonneg (h r (by simp)) (sum_nonneg_of fun x hx => h x (by simp [hx]))

/-- **C82.** For a new record, the average is the average of the runs. -/
theorem average_of_runs (runs : List BBInfo) (hc : ∀ r ∈ runs, r.Counts) :
    AverageOf runs (averageBBInfo {} runs) := by
  have q : ∀ (g : BBInfo → ℚ), (∀ a c, g (addBBInfo a c) = g a + g c) → g {} = 0 →
      g (runs.foldl addBBInfo {}) = (runs.map g).sum := fun g h h0 => by
    rw [fold_sum g h, h0, zero_add]
  have z : ∀ (g : BBInfo → ℤ), (∀ a c, g (addBBInfo a c) = g a + g c) → g {} = 0 →
      g (runs.foldl addBBInfo {}) = (runs.map g).sum := fun g h h0 => by
    rw [fold_sum g h, h0, zero_add]
  constructor <;> simp only [averageBBInfo, divBBInfo]
  · rw [q (·.obj) (fun _ _ => rfl) rfl]
  · rw [q (·.bound) (fun _ _ => rfl) rfl]
  · rw [z (·.iters) (fun _ _ => rfl) rfl]; exact tdiv_floor _ _ (sum_nonneg_of fun r hr => (hc r hr).1)
  · rw [z (·.nodes) (fun _ _ => rfl) rfl]; exact tdiv_floor _ _ (sum_nonneg_of fun r hr => (hc r hr).2.1)
  · rw [z (·.rootPasses) (fun _ _ => rfl) rfl]
    exact tdiv_floor _ _ (sum_nonneg_of fun r hr => (hc r hr).2.2.1)
  · rw [q (·.firstCutPass) (fun _ _ => rfl) rfl]
  · rw [q (·.lastCutPass) (fun _ _ => rfl) rfl]
  · rw [z (·.rootIters) (fun _ _ => rfl) rfl]
    exact tdiv_floor _ _ (sum_nonneg_of fun r hr => (hc r hr).2.2.2)
  · rw [q (·.rootTime) (fun _ _ => rfl) rfl]
  · rw [q (·.lastSolTime) (fun _ _ => rfl) rfl]
  · rw [q (·.time) (fun _ _ => rfl) rfl]

example : (averageBBInfo {} [{ obj := 1, nodes := 2 }, { obj := 2, nodes := 5 }]) =
    { obj := 3 / 2, nodes := 3 } := by decide +kernel
example : (bestOver {} [{ obj := 1, bound := 1, nodes := 2 }, { obj := 2, bound := 0, nodes := 1 }]) =
    { obj := 1, bound := 1, nodes := 1 } := by decide +kernel

/-- **C82 (negation).** The average of a record that was used before is not the average of the runs: the
old value is added in. -/
theorem average_accumulates (old : BBInfo) (runs : List BBInfo) (h : runs ≠ []) (ho : old.obj ≠ 0) :
    (averageBBInfo old runs).obj ≠ (runs.map (·.obj)).sum / runs.length := by
  simp only [averageBBInfo, divBBInfo]
  rw [fold_sum (·.obj) (fun _ _ => rfl)]
  have hn : (runs.length : ℚ) ≠ 0 := by exact_mod_cast (List.length_pos_iff.2 h).ne'
  intro e
  rw [div_left_inj' hn] at e
  exact ho (by linarith)

example : ({ obj := 1 } : BBInfo).obj ≠ 0 := by norm_num

/-! ## C84: seeds -/

theorem seed_ok (s : ℤ) (h1 : -1 ≤ s) (h2 : s ≤ 2 ^ 31 - 1) :
    ∃ q : IntP, (IntP.mk "RANDOM_SEED" 628 (-1) intMax []).set s = some q ∧ q.val = s :=
  ⟨_, int_set_accepts _ s (.inr ⟨rfl, h1, h2⟩), rfl⟩

theorem seed_low (s : ℤ) (h0 : -2 ^ 31 ≤ s) (h1 : s < -1) :
    (IntP.mk "RANDOM_SEED" 628 (-1) intMax []).set s = none := by
  cases e : (IntP.mk "RANDOM_SEED" 628 (-1) intMax []).set s with
  | none => rfl
  | some q =>
    have := int_set_documented _ q s (by decide) (by decide) (by decide)
      ⟨h0, by unfold intMax; omega⟩ e
    rcases this.2 with ⟨h, -⟩ | ⟨-, h, -⟩
    · exact absurd rfl h
    · dsimp only at h; omega

/-- **C84.** If the product of seed and run number fits in an `int`, run `k` (counted from 0) gets the
seed times `k + 1`, as documented. -/
theorem seed_documented_partial (s : ℤ) (k : ℕ) (h0 : 0 < s) (h1 : s * (k + 1) ≤ 2 ^ 31 - 1) :
    runSeed s k = .ok (s * (k + 1)) := by
  have hp : 0 < s * ((k : ℤ) + 1) := by positivity
  obtain ⟨q, hq, hv⟩ := seed_ok (s * (k + 1)) (by omega) h1
  unfold runSeed
  rw [if_neg (by omega)]
  have hb : Int.bmod (s * (k + 1)) (2 ^ 32) = s * (k + 1) := by
    rw [Int.bmod_eq_of_le] <;> norm_num <;> omega
  rw [hb, hq]
  simp [hv]

/-- **C84.** The seeds of different runs are then different. -/
theorem seeds_distinct_partial (s : ℤ) (i k : ℕ) (h0 : 0 < s) (hi : s * (i + 1) ≤ 2 ^ 31 - 1)
    (hk : s * (k + 1) ≤ 2 ^ 31 - 1) (e : runSeed s i = runSeed s k) : i = k := by
  rw [seed_documented_partial s i h0 hi, seed_documented_partial s k h0 hk] at e
  have e' : s * ((i : ℤ) + 1) = s * (k + 1) := by injection e
  have := Int.eq_of_mul_eq_mul_left h0.ne' e'
  omega

/-- The default seed allows more than three million runs. -/
example : runSeed 628 99 = .ok 62800 := by decide +kernel

/-- **C84 (negation).** Every accepted seed of at least `2^30` makes the second run end the process: the
product wraps to a number below -1, which the parameter object rejects. -/
theorem large_seed_exits (s : ℤ) (h1 : 2 ^ 30 ≤ s) (h2 : s ≤ 2 ^ 31 - 1) : runSeed s 1 = .exit := by
  unfold runSeed
  rw [if_neg (by push_cast; omega)]
  have hb : Int.bmod (s * (1 + 1)) (2 ^ 32) = s * 2 - 2 ^ 32 := by
    rw [Int.bmod_def]; norm_num; split <;> omega
  rw [show ((1 : ℕ) : ℤ) + 1 = 1 + 1 by norm_num, hb, seed_low _ (by omega) (by omega)]

example : runSeed 1500000000 1 = .exit := by decide +kernel

/-- **C84 (negation).** With a seed that is not positive the clock is used; for every clock value (in
nanoseconds) after September 2018, the sixth run is an overflow of `long`. -/
theorem clock_seed_overflows (c : BBCfg) (w : BBWorld) (hs : c.seed ≤ 0)
    (hc : 1537228672809129302 ≤ w.clock) : runSeed (initialSeed c w) 5 = .undef := by
  unfold initialSeed runSeed
  rw [if_neg (by omega : ¬ c.seed > 0)]
  push_cast
  rw [if_pos (by omega)]

/-- **C84 (negation).** And the first run ends the process for every clock value whose low 32 bits are,
as a signed number, below -1. -/
theorem clock_seed_exits (c : BBCfg) (w : BBWorld) (hs : c.seed ≤ 0) (h0 : 0 ≤ w.clock)
    (h1 : w.clock < 2 ^ 63) (hb : Int.bmod w.clock (2 ^ 32) < -1) : runSeed (initialSeed c w) 0 = .exit := by
  unfold initialSeed runSeed
  rw [if_neg (by omega : ¬ c.seed > 0)]
  rw [if_neg (by push_cast; omega), show w.clock * (((0 : ℕ) : ℤ) + 1) = w.clock by simp,
    seed_low _ (by have := Int.le_bmod (x := w.clock) (m := 2 ^ 32) (by norm_num); omega) hb]

example : Int.bmod (1731888000 * 1000000000 + 3 * 2 ^ 30) (2 ^ 32) < -1 := by decide +kernel

/-! ## C83: the permuted problem -/

/-- Activity of row `i`. -/
def Mip.act (p : Mip) (i : ℕ) (x : Vec) : ℚ := ((List.range p.n).map fun j => p.a i j * x j).sum

/-- Objective value (the offset is subtracted, an Osi convention). -/
def Mip.value (p : Mip) (x : Vec) : ℚ := ((List.range p.n).map fun j => p.obj j * x j).sum - p.offset

/-- Feasible for the LP relaxation. -/
def Mip.LpFeas (p : Mip) (x : Vec) : Prop :=
  (∀ j < p.n, geLo (p.clo j) (x j) ∧ leHi (p.chi j) (x j)) ∧
    ∀ i < p.m, geLo (p.rlo i) (p.act i x) ∧ leHi (p.rhi i) (p.act i x)

/-- Feasible for the mixed-integer program. -/
def Mip.Feas (p : Mip) (x : Vec) : Prop := p.LpFeas x ∧ ∀ j < p.n, p.int j = true → ∃ z : ℤ, x j = z

/-- The objective values that are attained. -/
def Mip.values (p : Mip) : Set ℚ := {v | ∃ x, p.Feas x ∧ p.value x = v}

/-- The objective values attained in the LP relaxation. -/
def Mip.lpValues (p : Mip) : Set ℚ := {v | ∃ x, p.LpFeas x ∧ p.value x = v}

theorem perm_sum {cp : List ℕ} {n : ℕ} (h : cp.Perm (List.range n)) (f : ℕ → ℚ) :
    ((List.range n).map fun j => f (cp.getD j 0)).sum = ((List.range n).map f).sum := by
  have hl : cp.length = n := by simpa using h.length_eq
  have : (List.range n).map (fun j => f (cp.getD j 0)) = cp.map f := by
    apply List.ext_getElem
    · simp [hl]
    · intro i h1 h2
      simp only [List.length_map] at h2
      simp [List.getElem?_eq_getElem h2]
  rw [this]
  exact (h.map f).sum_eq

theorem perm_lt {cp : List ℕ} {n : ℕ} (h : cp.Perm (List.range n)) {j : ℕ} (hj : j < n) :
    cp.getD j 0 < n := by
  have hl : cp.length = n := by simpa using h.length_eq
  rw [List.getD_eq_getElem _ _ (by omega)]
  have : cp[j] ∈ List.range n := h.subset (List.getElem_mem _)
  simpa using this

theorem perm_onto {cp : List ℕ} {n : ℕ} (h : cp.Perm (List.range n)) {k : ℕ} (hk : k < n) :
    ∃ j < n, cp.getD j 0 = k := by
  have hl : cp.length = n := by simpa using h.length_eq
  have : k ∈ cp := h.symm.subset (by simpa using hk)
  obtain ⟨j, hj, e⟩ := List.getElem_of_mem this
  exact ⟨j, by omega, by rw [List.getD_eq_getElem _ _ hj]; exact e⟩

theorem perm_inj {cp : List ℕ} {n : ℕ} (h : cp.Perm (List.range n)) {i j : ℕ} (hi : i < n) (hj : j < n)
    (e : cp.getD i 0 = cp.getD j 0) : i = j := by
  have hl : cp.length = n := by simpa using h.length_eq
  have hd : cp.Nodup := h.symm.nodup List.nodup_range
  rw [List.getD_eq_getElem _ _ (by omega), List.getD_eq_getElem _ _ (by omega)] at e
  exact (List.Nodup.getElem_inj_iff hd).1 e

theorem permuted_act {p : Mip} {rp cp : List ℕ} (hc : cp.Perm (List.range p.n)) (i : ℕ) (x : Vec) :
    (permuted p rp cp).act i (fun j => x (cp.getD j 0)) = p.act (rp.getD i 0) x :=
  perm_sum hc fun j => p.a (rp.getD i 0) j * x j

theorem permuted_value {p : Mip} {rp cp : List ℕ} (hc : cp.Perm (List.range p.n)) (x : Vec) :
    (permuted p rp cp).value (fun j => x (cp.getD j 0)) = p.value x := by
  unfold Mip.value
  have := perm_sum hc fun j => p.obj j * x j
  simp only [permuted]
  rw [this]

theorem permuted_lpFeas {p : Mip} {rp cp : List ℕ} (hr : rp.Perm (List.range p.m))
    (hc : cp.Perm (List.range p.n)) (x : Vec) :
    (permuted p rp cp).LpFeas (fun j => x (cp.getD j 0)) ↔ p.LpFeas x := by
  unfold Mip.LpFeas
  constructor
  · rintro ⟨h1, h2⟩
    refine ⟨fun j hj => ?_, fun i hi => ?_⟩
    · obtain ⟨k, hk, rfl⟩ := perm_onto hc hj
      exact h1 k hk
    · obtain ⟨k, hk, rfl⟩ := perm_onto hr hi
      have := h2 k hk
      rwa [permuted_act hc] at this
  · rintro ⟨h1, h2⟩
    refine ⟨fun j hj => h1 _ (perm_lt hc hj), fun i hi => ?_⟩
    rw [permuted_act hc]
    exact h2 _ (perm_lt hr hi)

theorem permuted_int {p : Mip} {rp cp : List ℕ} (hc : cp.Perm (List.range p.n)) {j : ℕ} (hj : j < p.n) :
    (permuted p rp cp).int j = p.int j := by
  obtain ⟨k, hk, e⟩ := perm_onto hc hj
  simp only [permuted]
  rw [Bool.eq_iff_iff, List.any_eq_true]
  constructor
  · rintro ⟨c, -, h⟩
    simp only [Bool.and_eq_true, beq_iff_eq] at h
    rw [← h.1]; exact h.2
  · intro h
    exact ⟨k, by simpa using hk, by simp only [Bool.and_eq_true, beq_iff_eq]; exact ⟨e, by rw [e]; exact h⟩⟩

/-- A point of the permuted problem comes from a point of the problem. -/
theorem unpermute {cp : List ℕ} {n : ℕ} (hc : cp.Perm (List.range n)) (y : Vec) :
    ∃ x : Vec, ∀ j < n, y j = x (cp.getD j 0) := by
  refine ⟨fun k => y (cp.idxOf k), fun j hj => ?_⟩
  have hl : cp.length = n := by simpa using hc.length_eq
  have hd : cp.Nodup := hc.symm.nodup List.nodup_range
  dsimp only
  rw [List.getD_eq_getElem _ _ (by omega), List.Nodup.idxOf_getElem hd]

theorem lpFeas_congr {p : Mip} {x y : Vec} (h : ∀ j < p.n, y j = x j) : p.LpFeas y ↔ p.LpFeas x := by
  have ha : ∀ i, p.act i y = p.act i x := fun i => by
    unfold Mip.act
    congr 1
    exact List.map_congr_left fun j hj => by rw [h j (by simpa using hj)]
  unfold Mip.LpFeas
  constructor
  · rintro ⟨h1, h2⟩
    exact ⟨fun j hj => by rw [← h j hj]; exact h1 j hj, fun i hi => by rw [← ha]; exact h2 i hi⟩
  · rintro ⟨h1, h2⟩
    exact ⟨fun j hj => by rw [h j hj]; exact h1 j hj, fun i hi => by rw [ha]; exact h2 i hi⟩

theorem value_congr {p : Mip} {x y : Vec} (h : ∀ j < p.n, y j = x j) : p.value y = p.value x := by
  unfold Mip.value
  congr 2
  exact List.map_congr_left fun j hj => by rw [h j (by simpa using hj)]

/-- Shuffles are permutations of what they are given. -/
def BBWorld.Shuffles (w : BBWorld) : Prop :=
  ∀ k l, (w.shufRows k l).Perm l ∧ (w.shufCols k l).Perm l

theorem square_perms {p : Mip} (h : p.m = p.n) {c : BBCfg} {w : BBWorld} (hw : w.Shuffles)
    {runs run : ℕ} {q : Mip} (hq : runProblem c w p runs run = .ok q) :
    q = p ∨ ∃ rp cp, rp.Perm (List.range p.m) ∧ cp.Perm (List.range p.n) ∧ q = permuted p rp cp := by
  unfold runProblem at hq
  split at hq
  · right
    unfold initPerms at hq
    rw [if_neg (by omega), h, Nat.sub_self] at hq
    simp only [List.replicate_zero, List.append_nil, Res.bind, Res.ok.injEq] at hq
    exact ⟨_, _, h ▸ (hw run _).1, (hw run _).2, hq.symm⟩
  · left; cases hq; rfl

/-- **C83 (partial: as many rows as columns; for the integer program, all variables integer or all
continuous).** Every run solves a problem with the same attained objective values, for the LP relaxation
and for the integer program. -/
theorem runs_same_problem_partial {p : Mip} (h : p.m = p.n) {c : BBCfg} {w : BBWorld} (hw : w.Shuffles)
    {runs run : ℕ} {q : Mip} (hq : runProblem c w p runs run = .ok q) :
    q.lpValues = p.lpValues ∧
      ((∀ i < p.n, ∀ j < p.n, p.int i = p.int j) → q.values = p.values) := by
  rcases square_perms h hw hq with rfl | ⟨rp, cp, hr, hc, rfl⟩
  · exact ⟨rfl, fun _ => rfl⟩
  have key : ∀ y : Vec, ∃ x : Vec, (∀ j < p.n, y j = x (cp.getD j 0)) ∧
      ((permuted p rp cp).LpFeas y ↔ p.LpFeas x) ∧ (permuted p rp cp).value y = p.value x := by
    intro y
    obtain ⟨x, hx⟩ := unpermute hc y
    refine ⟨x, hx, ?_, ?_⟩
    · rw [← permuted_lpFeas hr hc]; exact lpFeas_congr hx
    · rw [← permuted_value (rp := rp) hc]; exact value_congr hx
  constructor
  · ext v
    constructor
    · rintro ⟨y, h1, h2⟩
      obtain ⟨x, -, a, b⟩ := key y
      exact ⟨x, a.1 h1, b.symm.trans h2⟩
    · rintro ⟨x, h1, h2⟩
      exact ⟨_, (permuted_lpFeas hr hc x).2 h1, (permuted_value hc x).trans h2⟩
  · intro hi
    have hint : ∀ j < p.n, (permuted p rp cp).int j = p.int (cp.getD j 0) := fun j hj => by
      rw [permuted_int hc hj]; exact hi j hj _ (perm_lt hc hj)
    ext v
    constructor
    · rintro ⟨y, ⟨h1, h3⟩, h2⟩
      obtain ⟨x, e, a, b⟩ := key y
      refine ⟨x, ⟨a.1 h1, fun j hj hij => ?_⟩, b.symm.trans h2⟩
      obtain ⟨k, hk, rfl⟩ := perm_onto hc hj
      obtain ⟨z, hz⟩ := h3 k hk ((hint k hk).trans hij)
      exact ⟨z, by rw [← e k hk]; exact hz⟩
    · rintro ⟨x, ⟨h1, h3⟩, h2⟩
      refine ⟨_, ⟨(permuted_lpFeas hr hc x).2 h1, fun j hj hij => ?_⟩, (permuted_value hc x).trans h2⟩
      exact h3 _ (perm_lt hc hj) (by rw [← hint j hj]; exact hij)

/-- **C83.** One run, or runs with Gurobi or CPLEX, use the problem itself. -/
theorem single_run_unchanged (c : BBCfg) (w : BBWorld) (p : Mip) (runs run : ℕ)
    (h : runs ≤ 1 ∨ useBB c.strategy .gurobi = true ∨ useBB c.strategy .cplex = true) :
    runProblem c w p runs run = .ok p := by
  unfold runProblem shouldPermute
  rw [if_neg]
  rcases h with h | h | h
  · simp; omega
  · simp [h]
  · simp [h]

/-- **C83 (negation).** More columns than rows: the second loop writes past the end of the vector. -/
theorem more_columns_undefined (c : BBCfg) (w : BBWorld) (p : Mip) (runs run : ℕ)
    (h : shouldPermute c runs = true) (hn : p.m < p.n) : runProblem c w p runs run = .undef := by
  unfold runProblem initPerms
  rw [if_pos h, if_pos hn]
  rfl

namespace PermEx

/-- Two runs with Cbc, seed 1. -/
def cfg : BBCfg := ⟨2, 0, 1, 2, 0, 1, false, false, true⟩

/-- A world whose shuffles rotate every list by one. -/
def wd : BBWorld := ⟨0, fun _ l => l.rotate 1, fun _ l => l.rotate 1, fun _ _ _ _ => {}⟩

theorem wd_shuffles : wd.Shuffles := fun _ l => ⟨List.rotate_perm l 1, List.rotate_perm l 1⟩

/-- min `-x0`, `x0 ≤ 3/2`, `x0` integer, `x1` continuous. -/
def p : Mip where
  m := 2
  n := 2
  a i j := if i = j then 1 else 0
  rlo _ := none
  rhi i := if i = 0 then some (3 / 2) else none
  clo _ := some 0
  chi _ := some 2
  obj j := if j = 0 then -1 else 0
  int j := decide (j = 0)

/-- What the second run gets. -/
def q : Mip := permuted p [1, 0] [1, 0]

theorem run_q : runProblem cfg wd p 2 1 = .ok q := rfl

end PermEx

/-- **C83 (negation).** The wrong columns are integer: with two rows and two columns, the optimal value of
the problem is -1, but the permuted problem has a solution of value -3/2. -/
theorem wrong_columns_integer :
    runProblem PermEx.cfg PermEx.wd PermEx.p 2 1 = .ok PermEx.q ∧
      (∀ v ∈ PermEx.p.values, -1 ≤ v) ∧ -3 / 2 ∈ PermEx.q.values := by
  refine ⟨PermEx.run_q, ?_, ?_⟩
  · rintro v ⟨x, ⟨⟨-, h2⟩, h3⟩, rfl⟩
    obtain ⟨z, hz⟩ := h3 0 (by decide) (by decide)
    have h := (h2 0 (by decide)).2 (3 / 2) rfl
    simp only [Mip.act, PermEx.p, List.range_succ, List.range_zero, List.nil_append, List.cons_append,
      List.map_cons, List.map_nil, List.sum_cons, List.sum_nil] at h
    norm_num at h
    rw [hz] at h
    have hz1 : z ≤ 1 := by
      by_contra hc
      have : (2 : ℚ) ≤ z := by exact_mod_cast (by omega : 2 ≤ z)
      linarith
    simp only [Mip.value, PermEx.p, List.range_succ, List.range_zero, List.nil_append, List.cons_append,
      List.map_cons, List.map_nil, List.sum_cons, List.sum_nil]
    norm_num
    rw [hz]
    exact_mod_cast hz1
  · refine ⟨fun j => if j = 1 then 3 / 2 else 0, ⟨⟨fun j hj => ?_, fun i hi => ?_⟩, fun j hj h => ?_⟩, ?_⟩
    · have : j = 0 ∨ j = 1 := by have : j < 2 := hj; omega
      rcases this with rfl | rfl <;> constructor <;> intro b e <;> cases e <;> norm_num
    · have : i = 0 ∨ i = 1 := by have : i < 2 := hi; omega
      rcases this with rfl | rfl <;> constructor <;> intro b e <;> cases e
      simp [Mip.act, PermEx.q, permuted, PermEx.p, List.range_succ]
    · have : j = 0 ∨ j = 1 := by have : j < 2 := hj; omega
      rcases this with rfl | rfl
      · exact ⟨0, by simp⟩
      · exact absurd h (by decide)
    · simp [Mip.value, PermEx.q, permuted, PermEx.p, List.range_succ]; norm_num

namespace PermEx2

/-- min `x0 - x1`, `0 ≤ x ≤ 1`, three empty rows. -/
def p : Mip where
  m := 3
  n := 2
  a _ _ := 0
  rlo _ := none
  rhi _ := none
  clo _ := some 0
  chi _ := some 1
  obj j := if j = 0 then 1 else -1
  int _ := false

end PermEx2

/-- **C83 (negation).** With fewer columns than rows the vector for the columns is filled up with zeros,
and a shuffle can put column 0 twice and lose another one: here the optimal value is -1, and every
solution of the permuted problem has value at least 0. -/
theorem column_lost :
    ∃ w : BBWorld, w.Shuffles ∧ ∃ q, runProblem PermEx.cfg w PermEx2.p 2 1 = .ok q ∧
      (-1 ∈ PermEx2.p.values) ∧ ∀ v ∈ q.values, 0 ≤ v := by
  refine ⟨⟨0, fun _ l => l, fun _ l => l.rotate 2, fun _ _ _ _ => {}⟩,
    fun _ l => ⟨List.Perm.refl l, List.rotate_perm l 2⟩, _, rfl, ?_, ?_⟩
  · refine ⟨fun j => if j = 1 then 1 else 0, ⟨⟨fun j hj => ?_, fun i hi => ?_⟩, fun j hj h => ?_⟩, ?_⟩
    · have : j = 0 ∨ j = 1 := by have : j < 2 := hj; omega
      rcases this with rfl | rfl <;> constructor <;> intro b e <;> cases e <;> norm_num
    · exact ⟨fun l e => (by cases e), fun l e => (by cases e)⟩
    · exact absurd h (by simp [PermEx2.p])
    · simp [Mip.value, PermEx2.p, List.range_succ]
  · rintro v ⟨x, ⟨⟨h1, -⟩, -⟩, rfl⟩
    have a := (h1 0 (by decide)).1 0 rfl
    have b := (h1 1 (by decide)).1 0 rfl
    have e : (permuted PermEx2.p [0, 1, 2] [0, 0, 1]).value x = x 0 + x 1 := by
      simp [Mip.value, permuted, PermEx2.p, List.range_succ]
    exact le_of_le_of_eq (add_nonneg a b) e.symm

/-- **C83 (negation).** The cuts are not permuted: the cut `x0 ≥ 1` holds at every solution of value at
most -1 of the problem, but it cuts off all solutions of the permuted problem of that value. -/
theorem cuts_not_permuted :
    (∀ x, PermEx.p.LpFeas x → PermEx.p.value x ≤ -1 → (⟨[(0, 1)], 1⟩ : RowCut).Sat x) ∧
      ∃ y, PermEx.q.LpFeas y ∧ PermEx.q.value y ≤ -1 ∧ ¬(⟨[(0, 1)], 1⟩ : RowCut).Sat y := by
  constructor
  · intro x hx hv
    simp only [Mip.value, PermEx.p, List.range_succ, List.range_zero, List.nil_append, List.cons_append,
      List.map_cons, List.map_nil, List.sum_cons, List.sum_nil] at hv
    norm_num at hv
    simp only [RowCut.Sat, sdot_cons, sdot_nil]
    linarith
  · refine ⟨fun j => if j = 1 then 3 / 2 else 0, ⟨fun j hj => ?_, fun i hi => ?_⟩, ?_, ?_⟩
    · have : j = 0 ∨ j = 1 := by have : j < 2 := hj; omega
      rcases this with rfl | rfl <;> constructor <;> intro b e <;> cases e <;> norm_num
    · have : i = 0 ∨ i = 1 := by have : i < 2 := hi; omega
      rcases this with rfl | rfl <;> constructor <;> intro b e <;> cases e
      simp [Mip.act, PermEx.q, permuted, PermEx.p, List.range_succ]
    · simp [Mip.value, PermEx.q, permuted, PermEx.p, List.range_succ]; norm_num
    · simp [RowCut.Sat]

/-! ## C85: which runs are made and what is reported -/

/-- `s` reports the runs `l`. -/
structure Reported (l : List BBInfo) (s : SummaryBB) : Prop where
  vec : s.vec = l
  first : l.head? = some s.first
  best : BestOf l s.best
  avg : AverageOf l s.avg

/-- **C85.** A mode written with three decimal digits `h t o` is read as these digits. -/
theorem mode_digits (h t o : ℤ) (h1 : 0 ≤ h) (h2 : h ≤ 9) (t1 : 0 ≤ t) (t2 : t ≤ 9) (o1 : 0 ≤ o)
    (o2 : o ≤ 9) : bbDigits (100 * h + 10 * t + o) = (o, t, h) := by
  have e : ∀ k : ℤ, 0 ≤ k → (100 * h + 10 * t + o).tmod k = (100 * h + 10 * t + o) % k := fun k hk =>
    Int.tmod_eq_emod_of_nonneg (by omega)
  unfold bbDigits
  rw [e 10 (by norm_num), e 100 (by norm_num), e 1000 (by norm_num),
    show (100 * h + 10 * t + o) % 10 = o by omega, show (100 * h + 10 * t + o) % 100 = 10 * t + o by omega,
    show (100 * h + 10 * t + o) % 1000 = 100 * h + 10 * t + o by omega,
    Int.tdiv_eq_ediv_of_nonneg (by omega), Int.tdiv_eq_ediv_of_nonneg (by omega)]
  refine Prod.ext rfl (Prod.ext ?_ ?_) <;> dsimp only <;> omega

theorem runAll_ok {α : Type} {f : ℕ → Res α} : ∀ {ks : List ℕ} {l : List α}, runAll f ks = .ok l →
    l.length = ks.length ∧ ∀ (i : ℕ) (k : ℕ), ks[i]? = some k → ∃ a, f k = .ok a ∧ l[i]? = some a
  | [], l, h => by cases h; simp
  | k :: ks, l, h => by
    unfold runAll at h
    obtain ⟨a, h1, h⟩ := Res.bind_ok h
    obtain ⟨l', h2, h⟩ := Res.bind_ok h
    cases h
    obtain ⟨b1, b2⟩ := runAll_ok h2
    refine ⟨by simp [b1], fun i j hj => ?_⟩
    cases i with
    | zero => simp only [List.getElem?_cons_zero, Option.some.injEq] at hj; subst hj; exact ⟨a, h1, by simp⟩
    | succ i => simp only [List.getElem?_cons_succ] at hj ⊢; exact b2 i j hj

theorem summarize_reported {l : List BBInfo} (h : l ≠ []) (hc : ∀ r ∈ l, r.Counts) (n : ℕ) :
    Reported l (summarize {} n l) where
  vec := rfl
  first := by obtain ⟨r, rs, rfl⟩ := List.exists_cons_of_ne_nil h; rfl
  best := best_of_runs _ _ h
  avg := average_of_runs _ hc

/-- Records of a solver have counters that are not negative. -/
def BBWorld.CountsOk (w : BBWorld) : Prop := ∀ s seed p cuts, (w.solve s seed p cuts).Counts

theorem oneSolve_counts {w : BBWorld} (hw : w.CountsOk) (s : Option BBSolver) (seed : ℤ) (p : Mip)
    (cuts : List RowCut) : (oneSolve w s seed p cuts).Counts := by
  unfold oneSolve
  split
  · exact hw _ _ _ _
  · exact ⟨le_refl _, le_refl _, le_refl _, le_refl _⟩

/-- What run `k` solved, without cuts, with the VPCs and with all cuts. -/
structure RunResult (c : BBCfg) (w : BBWorld) (p : Mip) (vpcs all : List RowCut) (runs k : ℕ)
    (t : BBInfo × BBInfo × BBInfo) : Prop where
  results : ∃ seed q, runSeed (initialSeed c w) k = .ok seed ∧ runProblem c w p runs k = .ok q ∧
    t.1 = oneSolve w (pickSolver c) seed q [] ∧ t.2.1 = oneSolve w (pickSolver c) seed q vpcs ∧
    t.2.2 = oneSolve w (pickSolver c) seed q all

/-- **C85.** Let tests be requested (`BB_RUNS ≠ 0`, and some cut was found or no disjunction asked for),
and let the call return. Then exactly `|BB_RUNS|` runs were made; for each of the three configurations
that is switched on, the report is the list of its results in order, with the first one, the best and the
average of them; the other reports are unchanged. -/
theorem bb_report {c : BBCfg} {w : BBWorld} {p : Mip} {vpcs gmics : List RowCut} {haveSol : Bool}
    {t : SummaryBB × SummaryBB × SummaryBB} (hw : w.CountsOk)
    (h : runBBTests c w p vpcs gmics haveSol ({}, {}, {}) = .ok t)
    (hr : c.bbRuns ≠ 0) (hd : c.disjTerms = 0 ∨ vpcs ≠ []) :
    ∃ l : List (BBInfo × BBInfo × BBInfo),
      (let b := bbBranch c.bbMode vpcs.length gmics.length
      ((b.1 = true ∨ b.2.1 = true ∨ b.2.2 = true) → l.length = c.bbRuns.natAbs) ∧
      (∀ k r, l[k]? = some r → RunResult c w p vpcs (allCuts b vpcs gmics) c.bbRuns.natAbs k r) ∧
      (b.1 = true → Reported (l.map (·.1)) t.1) ∧
      (b.2.1 = true → Reported (l.map (·.2.1)) t.2.1 ∧ t.2.1.numCuts = vpcs.length) ∧
      (b.2.2 = true → Reported (l.map (·.2.2)) t.2.2 ∧ t.2.2.numCuts = vpcs.length + gmics.length) ∧
      (b.1 = false → t.1 = {}) ∧ (b.2.1 = false → t.2.1 = {}) ∧ (b.2.2 = false → t.2.2 = {})) := by
  unfold runBBTests at h
  dsimp only at h
  obtain ⟨runs, h1, h⟩ := Res.bind_ok h
  have hruns : runs = c.bbRuns.natAbs := by
    unfold numBBRuns at h1
    split at h1
    · cases h1
    · rw [if_pos (by rcases hd with e | e; exacts [.inl e, .inr (List.length_pos_iff.2 e)])] at h1
      simpa using h1.symm
  have hpos : 0 < runs := by rw [hruns]; exact Int.natAbs_pos.2 hr
  rw [if_neg (by omega)] at h
  split at h
  · rename_i hb
    simp only [Bool.and_eq_true, Bool.not_eq_true'] at hb
    cases h
    exact ⟨[], by simp [hb.1.1, hb.1.2, hb.2]⟩
  · obtain ⟨l, h2, h⟩ := Res.bind_ok h
    obtain ⟨hl, hk⟩ := runAll_ok h2
    simp only [List.length_range] at hl
    have hres : ∀ k r, l[k]? = some r → RunResult c w p vpcs
        (allCuts (bbBranch c.bbMode vpcs.length gmics.length) vpcs gmics) c.bbRuns.natAbs k r := by
      intro k r hkr
      have hlt : k < l.length := by
        by_contra hc
        rw [List.getElem?_eq_none (by omega)] at hkr; cases hkr
      obtain ⟨a, h3, h4⟩ := hk k k (by rw [List.getElem?_eq_getElem (by simp; omega)]; simp)
      rw [hkr] at h4
      cases h4
      unfold testRun at h3
      obtain ⟨seed, e1, h3⟩ := Res.bind_ok h3
      obtain ⟨q, e2, h3⟩ := Res.bind_ok h3
      split at h3
      · cases h3
      · cases h3
        exact ⟨seed, q, e1, hruns ▸ e2, rfl, rfl, rfl⟩
    have hne : l ≠ [] := by intro e; rw [e] at hl; simp at hl; omega
    have hcnt : ∀ r ∈ l, r.1.Counts ∧ r.2.1.Counts ∧ r.2.2.Counts := by
      intro r hm
      obtain ⟨k, hk2, e⟩ := List.getElem_of_mem hm
      obtain ⟨seed, q, -, -, e1, e2, e3⟩ := (hres k r (by rw [List.getElem?_eq_getElem hk2, e])).results
      exact ⟨e1 ▸ oneSolve_counts hw _ _ _ _, e2 ▸ oneSolve_counts hw _ _ _ _,
        e3 ▸ oneSolve_counts hw _ _ _ _⟩
    cases h
    refine ⟨l, fun _ => by rw [hl, hruns], hres, fun hb => ?_, fun hb => ?_, fun hb => ?_, fun hb => ?_,
      fun hb => ?_, fun hb => ?_⟩
    · simp only [bbFinish, hb, if_true]
      exact summarize_reported (by simpa using hne) (by simpa using fun a b c hm => (hcnt _ hm).1) _
    · simp only [bbFinish, hb, if_true]
      exact ⟨summarize_reported (by simpa using hne) (by simpa using fun a b c hm => (hcnt _ hm).2.1) _, rfl⟩
    · simp only [bbFinish, hb, if_true]
      exact ⟨summarize_reported (by simpa using hne) (by simpa using fun a b c hm => (hcnt _ hm).2.2) _, rfl⟩
    · simp [bbFinish, hb]
    · simp [bbFinish, hb]
    · simp [bbFinish, hb]

/-- The hypotheses are met: two runs with Cbc without cuts. -/
example : (match runBBTests PermEx.cfg { PermEx.wd with solve := fun _ s _ _ => { nodes := s } } PermEx.p
      [] [] false ({}, {}, {}) with
    | .ok t => (t.1.vec.length, t.1.first.nodes, t.1.best.nodes, t.1.avg.nodes)
    | _ => (9, 9, 9, 9)) = (2, 1, 1, 1) := by decide +kernel

/-- **C85.** If no cut was found although a disjunction was asked for, or no run is requested, nothing is
run and nothing reported. -/
theorem bb_nothing (c : BBCfg) (w : BBWorld) (p : Mip) (vpcs gmics : List RowCut) (haveSol : Bool)
    (s : SummaryBB × SummaryBB × SummaryBB) (h0 : c.bbRuns ≠ intMin)
    (h : c.bbRuns = 0 ∨ (c.disjTerms ≠ 0 ∧ vpcs = [])) :
    runBBTests c w p vpcs gmics haveSol s = .ok s := by
  have : numBBRuns c vpcs.length = .ok 0 := by
    unfold numBBRuns
    rw [if_neg h0]
    rcases h with h | ⟨h1, h2⟩
    · simp [h]
    · simp [h1, h2]
  unfold runBBTests
  dsimp only
  rw [this]
  simp [Res.bind]

/-- **C85 (negation).** The main program passes no Gomory cuts (src/main.cpp:860-862), so the
configuration with all cuts is never run, whatever `BB_RUNS` and `BB_MODE` say. -/
theorem all_cuts_never_run {c : BBCfg} {w : BBWorld} {p : Mip} {vpcs : List RowCut} {haveSol : Bool}
    {s t : SummaryBB × SummaryBB × SummaryBB} (h : runBBTests c w p vpcs [] haveSol s = .ok t) :
    t.2.2 = s.2.2 := by
  unfold runBBTests at h
  dsimp only at h
  obtain ⟨runs, h1, h⟩ := Res.bind_ok h
  split at h
  · cases h; rfl
  · split at h
    · cases h; rfl
    · obtain ⟨l, h2, h⟩ := Res.bind_ok h
      cases h
      have : (bbBranch c.bbMode vpcs.length ([] : List RowCut).length).2.2 = false := by simp [bbBranch]
      simp only [bbFinish, this, Bool.false_eq_true, if_false]

/-- **C85 (negation).** If the strategy names no solver, or one the program was built without, every
requested run is reported as finished with objective value 0, bound 0 and no nodes. -/
theorem no_solver_reported_as_zero {c : BBCfg} {w : BBWorld} {p : Mip} {vpcs gmics : List RowCut}
    {haveSol : Bool} {t : SummaryBB × SummaryBB × SummaryBB} (hs : pickSolver c = none)
    (h : runBBTests c w p vpcs gmics haveSol ({}, {}, {}) = .ok t) :
    ∀ r ∈ t.1.vec ++ t.2.1.vec ++ t.2.2.vec, r = {} := by
  unfold runBBTests at h
  dsimp only at h
  obtain ⟨runs, h1, h⟩ := Res.bind_ok h
  split at h
  · cases h; simp
  split at h
  · cases h; simp
  obtain ⟨l, h2, h⟩ := Res.bind_ok h
  obtain ⟨hl, hk⟩ := runAll_ok h2
  have hz : ∀ r ∈ l, r.1 = {} ∧ r.2.1 = {} ∧ r.2.2 = {} := by
    intro r hm
    obtain ⟨k, hk2, e⟩ := List.getElem_of_mem hm
    obtain ⟨a, h3, h4⟩ := hk k k (by
      rw [List.getElem?_eq_getElem (by rw [← hl]; exact hk2)]; simp)
    rw [List.getElem?_eq_getElem hk2, e] at h4
    cases h4
    unfold testRun at h3
    obtain ⟨seed, e1, h3⟩ := Res.bind_ok h3
    obtain ⟨q, e2, h3⟩ := Res.bind_ok h3
    split at h3
    · cases h3
    · cases h3
      simp [oneSolve, hs]
  cases h
  intro r hr
  simp only [bbFinish, List.mem_append] at hr
  rcases hr with (hr | hr) | hr
  · split at hr
    · obtain ⟨x, hx, rfl⟩ := List.mem_map.1 hr; exact (hz x hx).1
    · cases hr
  · split at hr
    · obtain ⟨x, hx, rfl⟩ := List.mem_map.1 hr; exact (hz x hx).2.1
    · cases hr
  · split at hr
    · obtain ⟨x, hx, rfl⟩ := List.mem_map.1 hr; exact (hz x hx).2.2
    · cases hr

/-- The default strategy asks for Gurobi: a program built without it reports zeros. -/
example : (match runBBTests { PermEx.cfg with strategy := 536 } PermEx.wd PermEx.p [] [] false ({}, {}, {}) with
    | .ok t => t.1.vec
    | _ => []) = [{}, {}] := by decide +kernel

/-- **C85 (negation).** With Gurobi, checking the cuts before the runs always ends the process when called
by the main program, which passes no solution (the solution is only looked for if there is one). -/
theorem gurobi_check_exits (c : BBCfg) (w : BBWorld) (p : Mip) (vpcs gmics : List RowCut)
    (s : SummaryBB × SummaryBB × SummaryBB) (hg : pickSolver c = some .gurobi)
    (ht : useTemp c.temp .CHECK_CUTS_AGAINST_BB_OPT = true) (hv : vpcs ≠ []) (hr : c.bbRuns ≠ 0)
    (hr' : c.bbRuns ≠ intMin) (hseed : 0 < c.seed) (hseed' : c.seed ≤ 2 ^ 31 - 1)
    (hm : (bbBranch c.bbMode vpcs.length gmics.length).1 = true ∨
      (bbBranch c.bbMode vpcs.length gmics.length).2.1 = true) :
    runBBTests c w p vpcs gmics false s = .exit := by
  have hpos := List.length_pos_iff.2 hv
  have hn : numBBRuns c vpcs.length = .ok c.bbRuns.natAbs := by
    unfold numBBRuns; rw [if_neg hr', if_pos (.inr hpos)]; simp
  have hgu : useBB c.strategy .gurobi = true := by
    unfold pickSolver at hg
    by_contra hc
    rw [if_neg hc] at hg
    split at hg
    · split at hg <;> cases hg
    · split at hg
      · split at hg <;> cases hg
      · cases hg
  unfold runBBTests
  dsimp only
  rw [hn]
  simp only [Res.bind]
  rw [if_neg (by omega), if_neg (by rcases hm with e | e <;> simp [e])]
  have h0 : List.range c.bbRuns.natAbs = 0 :: (List.range c.bbRuns.natAbs).tail := by
    have : 0 < c.bbRuns.natAbs := by omega
    obtain ⟨n, hn⟩ : ∃ n, c.bbRuns.natAbs = n + 1 := ⟨_, (Nat.succ_pred_eq_of_pos this).symm⟩
    rw [hn, List.range_succ_eq_map]; rfl
  rw [h0]
  unfold runAll
  have hi : initialSeed c w = c.seed := by unfold initialSeed; rw [if_pos hseed]
  have hb : testRun c w p vpcs (allCuts (bbBranch c.bbMode vpcs.length gmics.length) vpcs gmics) false
      c.bbRuns.natAbs 0 = .exit := by
    unfold testRun
    rw [hi, seed_documented_partial c.seed 0 hseed (by push_cast; omega),
      single_run_unchanged _ _ _ _ _ (.inr (.inl hgu))]
    simp only [Res.bind]
    rw [if_pos]
    simp [gurobiCheckExits, hg, ht, hpos]
  rw [hb]
  rfl

example : pickSolver ⟨1, 4, 10, 536, 8, 628, true, false, true⟩ = some .gurobi ∧
    (bbBranch 10 1 0).2.1 = true := by decide +kernel

/-- **C85 (negation).** In mode 100 with VPCs and Gomory cuts, the runs "with all cuts" use the Gomory
cuts only, but are reported with the number of all cuts. -/
theorem mode_100_without_vpcs (vpcs gmics : List RowCut) (hg : gmics ≠ []) :
    (bbBranch 100 vpcs.length gmics.length).2.2 = true ∧
      allCuts (bbBranch 100 vpcs.length gmics.length) vpcs gmics = gmics := by
  have : 0 < gmics.length := List.length_pos_iff.2 hg
  have e : bbBranch 100 vpcs.length gmics.length = (false, false, true) := by
    unfold bbBranch
    rw [show bbDigits 100 = (0, 0, 1) by decide]
    simp [this]
  rw [e]
  simp [allCuts]

/-- **C83 (negation), whole call.** Repeated runs with Cbc on a problem with more columns than rows are
undefined behaviour. -/
theorem repeated_runs_undefined (c : BBCfg) (w : BBWorld) (p : Mip) (vpcs gmics : List RowCut)
    (haveSol : Bool) (s : SummaryBB × SummaryBB × SummaryBB) (hr : 2 ≤ c.bbRuns)
    (hd : c.disjTerms = 0 ∨ vpcs ≠ []) (hn : p.m < p.n) (hseed : 0 < c.seed) (hseed' : c.seed ≤ 2 ^ 31 - 1)
    (hg : useBB c.strategy .gurobi = false) (hx : useBB c.strategy .cplex = false)
    (hm : (bbBranch c.bbMode vpcs.length gmics.length).1 = true ∨
      (bbBranch c.bbMode vpcs.length gmics.length).2.1 = true) :
    runBBTests c w p vpcs gmics haveSol s = .undef := by
  have hnum : numBBRuns c vpcs.length = .ok c.bbRuns.natAbs := by
    unfold numBBRuns
    rw [if_neg (by unfold intMin; omega),
      if_pos (by rcases hd with e | e; exacts [.inl e, .inr (List.length_pos_iff.2 e)])]
    simp
  unfold runBBTests
  dsimp only
  rw [hnum]
  simp only [Res.bind]
  rw [if_neg (by omega), if_neg (by rcases hm with e | e <;> simp [e])]
  have h0 : List.range c.bbRuns.natAbs = 0 :: (List.range c.bbRuns.natAbs).tail := by
    have : 0 < c.bbRuns.natAbs := by omega
    obtain ⟨n, hn⟩ : ∃ n, c.bbRuns.natAbs = n + 1 := ⟨_, (Nat.succ_pred_eq_of_pos this).symm⟩
    rw [hn, List.range_succ_eq_map]; rfl
  rw [h0]
  unfold runAll
  have hi : initialSeed c w = c.seed := by unfold initialSeed; rw [if_pos hseed]
  have hb : testRun c w p vpcs (allCuts (bbBranch c.bbMode vpcs.length gmics.length) vpcs gmics) haveSol
      c.bbRuns.natAbs 0 = .undef := by
    unfold testRun
    rw [hi, seed_documented_partial c.seed 0 hseed (by push_cast; omega),
      more_columns_undefined _ _ _ _ _ (by unfold shouldPermute; simp [hg, hx]; omega) hn]
    rfl
  rw [hb]
  rfl

example : useBB 2 .gurobi = false ∧ useBB 2 .cplex = false ∧ (bbBranch 10 1 0).2.1 = true := by
  decide +kernel

end VPC
