import Verif.Model.CutInfo
import Verif.Props.Rounds
import Verif.Props.GenLimits
import Mathlib.Tactic.Ring
import Mathlib.Tactic.FieldSimp
import Mathlib.Tactic.NormNum

/-!
# C77, C78: reported statistics about cuts (src/test/analysis.cpp)
-/
namespace VPC

/-! ## C77: the totals over the rounds -/

/-- Entry `k` of a counter vector. -/
def entry {κ : Type} (v : Option (κ → ℤ)) (k : κ) : ℤ :=
  match v with
  | some f => f k
  | none => 0

theorem entry_some {κ : Type} (f : κ → ℤ) (k : κ) : entry (some f) k = f k := rfl

/-- A record with all its counter vectors and one type and one objective per cut. -/
structure CutInfo.Complete (r : CutInfo) : Prop where
  ofType : r.ofType ≠ none
  cutsHeur : r.cutsHeur ≠ none
  objHeur : r.objHeur ≠ none
  failsHeur : r.failsHeur ≠ none
  fails : r.fails ≠ none
  types : r.cutType.length = r.numCuts
  objs : r.objType.length = r.numCuts

/-- `c` is the sum of the records `rs`, starting at `c0`, as far as numbers go. -/
structure SumOf (c0 : CutInfo) (rs : List CutInfo) (c : CutInfo) : Prop where
  numCuts : c.numCuts = c0.numCuts + (rs.map (·.numCuts)).sum
  objTried : c.objTried = c0.objTried + (rs.map (·.objTried)).sum
  failures : c.failures = c0.failures + (rs.map (·.failures)).sum
  activeGmic : c.activeGmic = c0.activeGmic + (rs.map (·.activeGmic)).sum
  activeVpc : c.activeVpc = c0.activeVpc + (rs.map (·.activeVpc)).sum
  activeAll : c.activeAll = c0.activeAll + (rs.map (·.activeAll)).sum
  ofType : ∀ t, entry c.ofType t = entry c0.ofType t + (rs.map fun r => entry r.ofType t).sum
  cutsHeur : ∀ t, entry c.cutsHeur t = entry c0.cutsHeur t + (rs.map fun r => entry r.cutsHeur t).sum
  objHeur : ∀ t, entry c.objHeur t = entry c0.objHeur t + (rs.map fun r => entry r.objHeur t).sum
  failsHeur : ∀ t, entry c.failsHeur t = entry c0.failsHeur t + (rs.map fun r => entry r.failsHeur t).sum
  activeHeur : ∀ t,
    entry c.activeHeur t = entry c0.activeHeur t + (rs.map fun r => entry r.activeHeur t).sum
  fails : ∀ t, entry c.fails t = entry c0.fails t + (rs.map fun r => entry r.fails t).sum
  rounds : c.rounds = c0.rounds
  full : c.ofType ≠ none ∧ c.cutsHeur ≠ none ∧ c.objHeur ≠ none ∧ c.failsHeur ≠ none ∧
    c.activeHeur ≠ none ∧ c.fails ≠ none
  same : c.minSupport = c0.minSupport ∧ c.maxSupport = c0.maxSupport ∧ c.avgSupport = c0.avgSupport

theorem addCounts_some {κ : Type} {a b : Option (κ → ℤ)} (ha : a ≠ none) (hb : b ≠ none) :
    ∃ c, addCounts a b = .ok c ∧ c ≠ none ∧ ∀ k, entry c k = entry a k + entry b k := by
  match a, b with
  | some f, some h => exact ⟨_, rfl, by simp, fun k => rfl⟩
  | none, _ => exact absurd rfl ha
  | some _, none => exact absurd rfl hb

theorem addActive_some {a b : Option (ObjType → ℤ)} (ha : a ≠ none) :
    ∃ c, addActive a b = .ok c ∧ c ≠ none ∧ ∀ k, entry c k = entry a k + entry b k := by
  match b with
  | none => exact ⟨a, rfl, ha, fun k => by simp [entry]⟩
  | some h => exact addCounts_some ha (by simp)

theorem addRounds_sum : ∀ (rs : List CutInfo) (c0 : CutInfo),
    (c0.ofType ≠ none ∧ c0.cutsHeur ≠ none ∧ c0.objHeur ≠ none ∧ c0.failsHeur ≠ none ∧
      c0.activeHeur ≠ none ∧ c0.fails ≠ none) → (∀ r ∈ rs, r.Complete) →
    ∃ c, addRounds rs c0 = .ok c ∧ SumOf c0 rs c
  | [], c0, h0, _ => ⟨c0, rfl, by constructor <;> simp <;> tauto⟩
  | r :: rs, c0, h0, hr => by
    have hc := hr r (by simp)
    obtain ⟨a, ea, na, sa⟩ := addCounts_some h0.1 hc.ofType
    obtain ⟨b, eb, nb, sb⟩ := addCounts_some h0.2.1 hc.cutsHeur
    obtain ⟨d, ed, nd, sd⟩ := addCounts_some h0.2.2.1 hc.objHeur
    obtain ⟨e, ee, ne, se⟩ := addCounts_some h0.2.2.2.1 hc.failsHeur
    obtain ⟨f, ef, nf, sf⟩ := addActive_some (b := r.activeHeur) h0.2.2.2.2.1
    obtain ⟨g, eg, ng, sg⟩ := addCounts_some h0.2.2.2.2.2 hc.fails
    obtain ⟨c, e1, s1⟩ := addRounds_sum rs
      { c0 with
        numCuts := c0.numCuts + r.numCuts
        activeGmic := c0.activeGmic + r.activeGmic
        activeVpc := c0.activeVpc + r.activeVpc
        activeAll := c0.activeAll + r.activeAll
        objTried := c0.objTried + r.objTried
        failures := c0.failures + r.failures
        ofType := a, cutsHeur := b, objHeur := d, failsHeur := e, activeHeur := f, fails := g }
      ⟨na, nb, nd, ne, nf, ng⟩ (fun r' h' => hr r' (by simp [h']))
    refine ⟨c, ?_, ?_⟩
    · simp only [addRounds, addRound, ea, eb, ed, ee, ef, eg, Res.bind]
      exact e1
    · constructor
      · rw [s1.numCuts]; simp; omega
      · rw [s1.objTried]; simp; ring
      · rw [s1.failures]; simp; ring
      · rw [s1.activeGmic]; simp; ring
      · rw [s1.activeVpc]; simp; ring
      · rw [s1.activeAll]; simp; ring
      · intro t; rw [s1.ofType]; simp [sa]; ring
      · intro t; rw [s1.cutsHeur]; simp [sb]; ring
      · intro t; rw [s1.objHeur]; simp [sd]; ring
      · intro t; rw [s1.failsHeur]; simp [se]; ring
      · intro t; rw [s1.activeHeur]; simp [sf]; ring
      · intro t; rw [s1.fails]; simp [sg]; ring
      · rw [s1.rounds]
      · exact s1.full
      · exact s1.same

theorem copyTypes_flat : ∀ (rs : List CutInfo), (∀ r ∈ rs, r.Complete) →
    copyTypes rs = .ok (rs.flatMap (·.cutType), rs.flatMap (·.objType))
  | [], _ => rfl
  | r :: rs, h => by
    have hc := h r (by simp)
    simp only [copyTypes, hc.types, hc.objs, le_refl, and_self, if_true,
      copyTypes_flat rs (fun r' h' => h r' (by simp [h'])), Res.bind]
    rw [← hc.types, List.take_length, hc.types, ← hc.objs, List.take_length]
    simp

/-- **C77.** Merging any number of complete round records gives their sums: the number of cuts, of
objectives tried, of failures, every counter by type, by objective and by failure; and the list of cut
types and of objectives is that of the rounds one after the other. -/
theorem rounds_merged (ci : CutInfo) (rs : List CutInfo) (h : ∀ r ∈ rs, r.Complete) :
    ∃ c, setCutInfo ci (some rs) = .ok c ∧ c.rounds = rs.length ∧
      c.numCuts = (rs.map (·.numCuts)).sum ∧ c.objTried = (rs.map (·.objTried)).sum ∧
      c.failures = (rs.map (·.failures)).sum ∧
      (∀ t, entry c.ofType t = (rs.map fun r => entry r.ofType t).sum) ∧
      (∀ t, entry c.cutsHeur t = (rs.map fun r => entry r.cutsHeur t).sum) ∧
      (∀ t, entry c.objHeur t = (rs.map fun r => entry r.objHeur t).sum) ∧
      (∀ t, entry c.failsHeur t = (rs.map fun r => entry r.failsHeur t).sum) ∧
      (∀ t, entry c.fails t = (rs.map fun r => entry r.fails t).sum) ∧
      c.cutType = rs.flatMap (·.cutType) ∧ c.objType = rs.flatMap (·.objType) := by
  obtain ⟨c, e, s⟩ := addRounds_sum rs (resetCutInfo ci rs.length) (by simp [resetCutInfo]) h
  refine ⟨_, by simp only [setCutInfo, e, copyTypes_flat rs h, Res.bind]; rfl, ?_⟩
  refine ⟨s.rounds, ?_, ?_, ?_, ?_, ?_, ?_, ?_, ?_, rfl, rfl⟩
  · simpa [resetCutInfo] using s.numCuts
  · simpa [resetCutInfo] using s.objTried
  · simpa [resetCutInfo] using s.failures
  · intro t; simpa [resetCutInfo, entry] using s.ofType t
  · intro t; simpa [resetCutInfo, entry] using s.cutsHeur t
  · intro t; simpa [resetCutInfo, entry] using s.objHeur t
  · intro t; simpa [resetCutInfo, entry] using s.failsHeur t
  · intro t; simpa [resetCutInfo, entry] using s.fails t

theorem bind_ne_exit {α β : Type} {r : Res α} {f : α → Res β} (hr : r ≠ .exit)
    (hf : ∀ a, f a ≠ .exit) : r.bind f ≠ .exit := by
  cases r with
  | ok a => exact hf a
  | exit => exact absurd rfl hr
  | undef => simp [Res.bind]

theorem addCounts_ne_exit {κ : Type} (a b : Option (κ → ℤ)) : addCounts a b ≠ .exit := by
  unfold addCounts; split <;> simp

theorem addActive_ne_exit (a b : Option (ObjType → ℤ)) : addActive a b ≠ .exit := by
  unfold addActive; split
  · simp
  · exact addCounts_ne_exit _ _

theorem addRound_ne_exit (c r : CutInfo) : addRound c r ≠ .exit := by
  unfold addRound
  refine bind_ne_exit (addCounts_ne_exit _ _) fun _ => ?_
  refine bind_ne_exit (addCounts_ne_exit _ _) fun _ => ?_
  refine bind_ne_exit (addCounts_ne_exit _ _) fun _ => ?_
  refine bind_ne_exit (addCounts_ne_exit _ _) fun _ => ?_
  refine bind_ne_exit (addActive_ne_exit _ _) fun _ => ?_
  refine bind_ne_exit (addCounts_ne_exit _ _) fun _ => ?_
  simp

theorem addRounds_incomplete : ∀ (rs : List CutInfo) (c0 : CutInfo),
    (∃ r ∈ rs, r.ofType = none) → addRounds rs c0 = .undef
  | [], _, h => by simp at h
  | r :: rs, c0, h => by
    simp only [addRounds]
    cases e : addRound c0 r with
    | exit => exact absurd e (addRound_ne_exit c0 r)
    | undef => rfl
    | ok c1 =>
      simp only [Res.bind]
      apply addRounds_incomplete
      simp only [List.mem_cons, exists_eq_or_imp] at h
      rcases h with h | h
      · exfalso
        unfold addRound at e
        rw [h] at e
        cases ec : c0.ofType <;> simp [ec, addCounts, Res.bind] at e
      · exact h

/-- **C77 (negation).** A round whose record was never filled — in mode `CUSTOM`, a round for which no
disjunction was found (src/main.cpp:1289-1292) — makes the final merge read outside its vectors, whatever
the other rounds contain. -/
theorem unfilled_round_undefined (ci : CutInfo) (rs : List CutInfo) (h : ({} : CutInfo) ∈ rs) :
    setCutInfo ci (some rs) = .undef := by
  simp [setCutInfo, addRounds_incomplete rs _ ⟨_, h, rfl⟩, Res.bind]

/-- A call of `generateCuts` on a fresh generator and an empty collection leaves correct counters. -/
theorem generate_ledger {c : GenCfg} {w : GenWorld} {L : ℤ} {o : GenOut}
    (h : generateCuts c w (Gen.fresh L) [] = .ok o) : Ledger o.gen ∧ o.gen.initNumCuts = 0 := by
  have hf : ∀ L, Ledger (Gen.fresh L) := fun L => by
    constructor <;> simp [Gen.fresh, sumObj, sumPerObj]
  unfold generateCuts at h
  dsimp only at h
  split at h
  · cases h; exact ⟨{ hf L with cuts := rfl }, rfl⟩
  · split at h
    · cases h; exact ⟨{ hf L with cuts := rfl }, rfl⟩
    · split at h
      · cases h
      · rename_i g' r hs
        cases h
        unfold Gen.startRound at hs
        dsimp only at hs
        split at hs
        · cases hs
        · split at hs
          · cases hs
            exact ⟨by constructor <;> simp [Gen.fresh, Gen.roundState, Gen.setupAsNew, sumObj, sumPerObj], rfl⟩
          · cases hs
      · rename_i g0 hs
        have hb : Books 0 g0 := by
          refine ⟨counters_exact _ g0 g0 [] w.numFrac w.numFrac0 [] hs (Or.inr rfl) rfl, ?_⟩
          exact (startRound_go hs).2.1
        exact (books_stable 0).disj (fun g c d hg => ⟨addCut_ledger hg.1 _ _ _ _, hg.2⟩) hb h

/-- The record of one round: a new record updated once with the generator and the collection of the
round (src/main.cpp:610). -/
def roundRecord (g : Gen) (eps : ℚ) : Res CutInfo :=
  updateCutInfo {} g (some (g.cuts.map (·.cut))) eps

/-- The record of a round with correct counters. -/
theorem roundRecord_ok (g : Gen) (h : Ledger g) (h0 : g.initNumCuts = 0) (eps : ℚ) :
    ∃ r, roundRecord g eps = .ok r ∧ r.Complete ∧ r.numCuts = g.numCuts ∧ r.objTried = g.numObj ∧
      r.failures = g.numFailures ∧ r.cutType = g.cutType ∧ r.objType = g.objType ∧
      r.ofType = some g.numCutsOfType ∧ r.cutsHeur = some g.numCutsFromHeur ∧
      r.objHeur = some g.numObjFromHeur ∧ r.failsHeur = some g.numFailsFromHeur ∧
      r.fails = some g.numFails ∧
      r.avgSupport = fdiv (some (totalSupport eps (g.cuts.map (·.cut)) : ℚ)) (g.numCuts : ℚ) := by
  have hl : (g.cuts.map (·.cut)).length = g.numCuts := by
    rw [List.length_map, h.cuts, h0, Nat.zero_add]
  cases hr : g.repeatedUse <;>
  · refine ⟨_, by
      simp only [roundRecord, updateCutInfo, mergeTypes, hr, mergeHeur, mergeSupport, hl, Res.bind,
        lt_irrefl, false_and, if_false, Nat.sub_self, List.drop_zero]
      rfl, ?_⟩
    · refine ⟨⟨?_, ?_, ?_, ?_, ?_, ?_, ?_⟩, ?_, ?_, ?_, ?_, ?_, ?_, ?_, ?_, ?_, ?_, ?_⟩ <;>
        simp [mergeCounts, newAvg, h.types, h.heurs]

/-- **C77, from the generator to the log.** Let any number of rounds be run, each on a fresh generator
and an empty collection, whatever happens inside. Then the records exist, merging them succeeds, and in
the merged record: the number of cuts is the number of cuts collected; the count of each cut type and of
each objective is the number of entries of that type in the list of types; the objectives tried and the
failures are the sums of their counters. -/
theorem reported_totals (calls : List (GenCfg × GenWorld × ℤ)) (outs : List GenOut) (eps : ℚ)
    (h : List.Forall₂ (fun k o => generateCuts k.1 k.2.1 (Gen.fresh k.2.2) [] = .ok o) calls outs)
    (ci : CutInfo) :
    ∃ rs c, List.Forall₂ (fun o r => roundRecord o.gen eps = .ok r) outs rs ∧
      setCutInfo ci (some rs) = .ok c ∧
      c.numCuts = (outs.flatMap fun o => o.gen.cuts).length ∧
      c.cutType.length = c.numCuts ∧ c.objType.length = c.numCuts ∧
      (∀ t, entry c.ofType t = c.cutType.count t) ∧ (∀ u, entry c.cutsHeur u = c.objType.count u) ∧
      (ObjType.all.map (entry c.objHeur)).sum = c.objTried ∧
      (ObjType.all.map (entry c.failsHeur)).sum = c.failures := by
  have hL : ∀ o ∈ outs, Ledger o.gen ∧ o.gen.initNumCuts = 0 := by
    clear eps ci
    induction h with
    | nil => simp
    | cons h1 _ ih =>
      intro o ho
      rcases List.mem_cons.1 ho with rfl | ho
      · exact generate_ledger h1
      · exact ih o ho
  clear h
  have key : ∃ rs, List.Forall₂ (fun o r => roundRecord o.gen eps = .ok r) outs rs ∧
      (∀ r ∈ rs, r.Complete) ∧ (rs.map (·.numCuts)).sum = (outs.flatMap fun o => o.gen.cuts).length ∧
      (rs.flatMap (·.cutType)).length = (rs.map (·.numCuts)).sum ∧
      (rs.flatMap (·.objType)).length = (rs.map (·.numCuts)).sum ∧
      (∀ t, (rs.map fun r => entry r.ofType t).sum = (rs.flatMap (·.cutType)).count t) ∧
      (∀ t, (rs.map fun r => entry r.cutsHeur t).sum = (rs.flatMap (·.objType)).count t) ∧
      (ObjType.all.map fun t => (rs.map fun r => entry r.objHeur t).sum).sum = (rs.map (·.objTried)).sum ∧
      (ObjType.all.map fun t => (rs.map fun r => entry r.failsHeur t).sum).sum
        = (rs.map (·.failures)).sum := by
    induction outs with
    | nil => exact ⟨[], by simp⟩
    | cons o os ih =>
      obtain ⟨rs, f, hc, a1, a2, a3, a4, a5, a6, a7⟩ := ih fun o' h' => hL o' (by simp [h'])
      obtain ⟨l, l0⟩ := hL o (by simp)
      obtain ⟨r, e, rc, b1, b2, b3, b4, b5, b6, b7, b8, b9, b10, -⟩ := roundRecord_ok o.gen l l0 eps
      refine ⟨r :: rs, .cons e f, ?_, ?_, ?_, ?_, ?_, ?_, ?_, ?_⟩
      · intro r' h'
        rcases List.mem_cons.1 h' with rfl | h'
        · exact rc
        · exact hc r' h'
      · have := l.cuts
        simp only [List.map_cons, List.sum_cons, a1, List.flatMap_cons, List.length_append, b1]
        omega
      · have := rc.types
        simp only [List.map_cons, List.sum_cons, List.flatMap_cons, List.length_append, a2]
        omega
      · have := rc.objs
        simp only [List.map_cons, List.sum_cons, List.flatMap_cons, List.length_append, a3]
        omega
      · intro t
        have := l.ofType t
        simp only [List.map_cons, List.sum_cons, List.flatMap_cons, List.count_append, a4, b6, b4, entry_some,
          this]
        push_cast; ring
      · intro t
        have := l.fromHeur t
        simp only [List.map_cons, List.sum_cons, List.flatMap_cons, List.count_append, a5, b7, b5, entry_some,
          this]
        push_cast; ring
      · have := l.obj
        unfold sumObj at this
        simp only [List.map_cons, List.sum_cons, List.sum_map_add, a6, b8, b2, entry_some]
        rw [← this]
      · have := l.fails
        unfold sumObj at this
        simp only [List.map_cons, List.sum_cons, List.sum_map_add, a7, b9, b3, entry_some]
        rw [← this]
  obtain ⟨rs, f, hc, a1, a2, a3, a4, a5, a6, a7⟩ := key
  obtain ⟨c, e, -, d2, d3, d4, d5, d6, d7, d8, -, d10, d11⟩ := rounds_merged ci rs hc
  refine ⟨rs, c, f, e, by rw [d2, a1], by rw [d10, d2, a2], by rw [d11, d2, a3], ?_, ?_, ?_, ?_⟩
  · intro t; rw [d5, d10, a4]
  · intro t; rw [d6, d11, a5]
  · rw [d3, ← a6]; congr 1; exact List.map_congr_left fun t _ => d7 t
  · rw [d4, ← a7]; congr 1; exact List.map_congr_left fun t _ => d8 t

/-- Two rounds, the first with one cut from an objective, the second with the objective cut: the
hypotheses of `reported_totals` are met with two cuts of different types. -/
example : (match generateCuts pbbCfg ((demoRounds 0).gen 0) (Gen.fresh 10) [],
      generateCuts pbbCfg ((demoRounds 1).gen 0) (Gen.fresh 10) [] with
    | .ok a, .ok b => (match roundRecord a.gen 0, roundRecord b.gen 0 with
      | .ok r, .ok t => (match setCutInfo {} (some [r, t]) with
        | .ok c => (c.numCuts, c.cutType, c.objType, entry c.ofType .OPTIMALITY_CUT, c.objTried)
        | _ => (0, [], [], 0, 0))
      | _, _ => (0, [], [], 0, 0))
    | _, _ => (0, [], [], 0, 0))
    = (2, [.VPC, .OPTIMALITY_CUT], [.ALL_ONES, .OBJ_CUT], 1, 1) := by decide +kernel

/-- A complete record, for `rounds_merged`. -/
example : ({ numCuts := 1, cutType := [.VPC], objType := [.USER], ofType := some fun _ => 1
             cutsHeur := some fun _ => 1, objHeur := some fun _ => 2, failsHeur := some fun _ => 1
             fails := some fun _ => 1 } : CutInfo).Complete := by constructor <;> simp

/-! ## C78: support of the cuts -/

/-- What counts as a nonzero coefficient. -/
def support (eps : ℚ) (c : RowCut) : ℕ := (c.row.filter fun e : ℕ × ℚ => decide (eps ≤ |e.2|)).length

/-- **C78.** The density of a cut is its number of coefficients of absolute value at least the
tolerance. -/
theorem checkCutDensity_eq (eps : ℚ) (c : RowCut) : checkCutDensity eps c = support eps c := by
  unfold checkCutDensity support
  generalize c.row = l
  have h : ∀ l : SVec, l.countP (fun e : ℕ × ℚ => isZero e.2 eps) +
      (l.filter fun e : ℕ × ℚ => decide (eps ≤ |e.2|)).length = l.length := by
    intro l
    induction l with
    | nil => rfl
    | cons a l ih =>
      by_cases h : eps ≤ |a.2|
      · have hz : isZero a.2 eps = false := by simp [isZero, isVal, h]
        simp [List.countP_cons, hz, h]
        omega
      · have hz : isZero a.2 eps = true := by simpa [isZero, isVal] using h
        simp [List.countP_cons, hz, h]
        omega
  have := h l
  omega

/-- Average support of a nonempty list of cuts. -/
def meanSupport (eps : ℚ) (cs : List RowCut) : ℚ := ((cs.map (support eps)).sum : ℚ) / cs.length

theorem totalSupport_eq (eps : ℚ) (cs : List RowCut) :
    totalSupport eps cs = (cs.map (support eps)).sum := by
  unfold totalSupport
  congr 1
  exact List.map_congr_left fun c _ => checkCutDensity_eq eps c

theorem nat_le_sum : ∀ (l : List ℕ) (a : ℕ), a ∈ l → a ≤ l.sum
  | [], _, h => by simp at h
  | b :: l, a, h => by
    rw [List.sum_cons]
    rcases List.mem_cons.1 h with rfl | h
    · omega
    · have := nat_le_sum l a h; omega

theorem totalSupport_append (eps : ℚ) (a b : List RowCut) :
    totalSupport eps (a ++ b) = totalSupport eps a + totalSupport eps b := by simp [totalSupport]

/-- `ci` describes the cuts `cs` as far as their number and average support go. -/
def Describes (eps : ℚ) (ci : CutInfo) (cs : List RowCut) : Prop :=
  ci.numCuts = cs.length ∧ (cs ≠ [] → ci.avgSupport = some (meanSupport eps cs)) ∧
    (cs = [] → ∃ a, ci.avgSupport = some a)

theorem describes_mul {eps : ℚ} {ci : CutInfo} {cs : List RowCut} (h : Describes eps ci cs) :
    ∃ a, ci.avgSupport = some a ∧ a * ci.numCuts = totalSupport eps cs := by
  obtain ⟨h1, h2, h3⟩ := h
  by_cases e : cs = []
  · obtain ⟨a, ha⟩ := h3 e
    subst e
    exact ⟨a, ha, by simp [h1, totalSupport]⟩
  · refine ⟨_, h2 e, ?_⟩
    have : (cs.length : ℚ) ≠ 0 := by
      have := List.length_pos_iff.2 e
      positivity
    rw [h1, meanSupport, div_mul_cancel₀ _ this, totalSupport_eq]

theorem newAvg_eq {eps : ℚ} {ci : CutInfo} {old cs : List RowCut} (h : Describes eps ci old)
    (hne : old ++ cs ≠ []) :
    newAvg ci.avgSupport ci.numCuts (totalSupport eps cs) cs.length
      = some (meanSupport eps (old ++ cs)) := by
  obtain ⟨a, ha, hm⟩ := describes_mul h
  have h0 : ((ci.numCuts + cs.length : ℕ) : ℚ) ≠ 0 := by
    have := List.length_pos_iff.2 hne
    rw [List.length_append, ← h.1] at this
    exact_mod_cast this.ne'
  simp only [newAvg, ha, Option.map_some, fdiv, Option.bind_some, h0, if_false, hm, meanSupport]
  rw [← totalSupport_eq, totalSupport_append, List.length_append, ← h.1]
  push_cast
  rfl

theorem updateCutInfo_fields {ci c : CutInfo} {g : Gen} {cs : List RowCut} {eps : ℚ}
    (h : updateCutInfo ci g (some cs) eps = .ok c) :
    c.numCuts = ci.numCuts + g.numCuts ∧ c.minSupport = ci.minSupport ∧ c.maxSupport = ci.maxSupport ∧
      c.avgSupport = newAvg ci.avgSupport ci.numCuts
        (totalSupport eps (cs.drop (cs.length - g.numCuts))) cs.length := by
  unfold updateCutInfo at h
  dsimp only at h
  obtain ⟨c3, h1, h2⟩ := Res.bind_ok h
  unfold mergeSupport at h2
  dsimp only at h2
  have h3 : c3.numCuts = ci.numCuts + g.numCuts ∧ c3.minSupport = ci.minSupport ∧
      c3.maxSupport = ci.maxSupport ∧ c3.avgSupport = ci.avgSupport := by
    unfold mergeHeur mergeTypes at h1
    cases hr : g.repeatedUse <;> simp only [hr, if_true, if_false, Bool.false_eq_true] at h1 <;>
    · split at h1
      · cases h1; exact ⟨rfl, rfl, rfl, rfl⟩
      · cases h1; exact ⟨rfl, rfl, rfl, rfl⟩
      · cases h1
  split at h2
  · cases h2
  · split at h2
    · cases h2
    · cases h2
      exact ⟨h3.1, h3.2.1, h3.2.2.1, by rw [← h3.2.2.2]⟩

/-- **C78 (partial: the collection must hold exactly the new cuts).** If the record describes the cuts
`old` and is updated with a generator that found exactly the cuts of the collection, it describes all of
them. -/
theorem average_support_partial (eps : ℚ) (ci c : CutInfo) (g : Gen) (old cs : List RowCut)
    (hd : Describes eps ci old) (hn : g.numCuts = cs.length) (hne : old ++ cs ≠ [])
    (h : updateCutInfo ci g (some cs) eps = .ok c) : Describes eps c (old ++ cs) := by
  obtain ⟨h1, -, -, h4⟩ := updateCutInfo_fields h
  refine ⟨by rw [h1, hd.1, hn, List.length_append], fun _ => ?_, fun e => absurd e hne⟩
  rw [h4, hn, Nat.sub_self, List.drop_zero]
  exact newAvg_eq hd hne

/-- **C78 (negation).** If the collection still holds the earlier cuts — which the function allows and
mode `CUSTOM` does (src/main.cpp:1286) — the earlier cuts are counted twice in the denominator: the
reported average is wrong whenever any cut has a nonzero coefficient. -/
theorem average_support_wrong (eps : ℚ) (ci c : CutInfo) (g : Gen) (old new : List RowCut)
    (hd : Describes eps ci old) (ho : old ≠ []) (hn : g.numCuts = new.length)
    (hs : ∃ k ∈ old ++ new, 0 < support eps k)
    (h : updateCutInfo ci g (some (old ++ new)) eps = .ok c) :
    c.avgSupport ≠ some (meanSupport eps (old ++ new)) := by
  obtain ⟨-, -, -, h4⟩ := updateCutInfo_fields h
  obtain ⟨a, ha, hm⟩ := describes_mul hd
  have hdrop : (old ++ new).drop ((old ++ new).length - g.numCuts) = new := by
    rw [hn, List.length_append, Nat.add_sub_cancel, List.drop_left]
  have hol : 0 < old.length := List.length_pos_iff.2 ho
  have hT : 0 < totalSupport eps (old ++ new) := by
    obtain ⟨k, hk, hpos⟩ := hs
    rw [totalSupport_eq]
    exact lt_of_lt_of_le hpos (nat_le_sum _ _ (List.mem_map_of_mem hk))
  have h0 : ((ci.numCuts + (old ++ new).length : ℕ) : ℚ) ≠ 0 := by
    have : 0 < ci.numCuts + (old ++ new).length := by rw [hd.1]; omega
    exact_mod_cast this.ne'
  rw [h4, hdrop, ha]
  simp only [newAvg, Option.map_some, fdiv, Option.bind_some, h0, if_false, hm, meanSupport]
  rw [← totalSupport_eq]
  intro e
  have e' := Option.some.inj e
  have h1 : ((totalSupport eps old : ℚ) + totalSupport eps new) = totalSupport eps (old ++ new) := by
    rw [totalSupport_append]; push_cast; rfl
  have hl : ((old ++ new).length : ℚ) ≠ 0 := by
    have : 0 < (old ++ new).length := by rw [List.length_append]; omega
    exact_mod_cast this.ne'
  rw [h1, div_eq_div_iff h0 hl] at e'
  have hT' : (totalSupport eps (old ++ new) : ℚ) ≠ 0 := by exact_mod_cast hT.ne'
  have := mul_left_cancel₀ hT' e'
  rw [hd.1] at this
  have h2 : (old ++ new).length = old.length + (old ++ new).length := by exact_mod_cast this
  omega

/-- The situation exists: one old cut with two coefficients, one new cut with one. -/
example : ∃ c, updateCutInfo { numCuts := 1, avgSupport := some 2 }
      { Gen.fresh 10 with numCuts := 1 } (some [⟨[(0, 1), (1, 1)], 1⟩, ⟨[(0, 1)], 1⟩]) (1 / 10) = .ok c ∧
    c.avgSupport = some 1 := ⟨_, rfl, by decide +kernel⟩

/-- **C78 (negation).** A round that finds no cut makes the average undefined (0/0), and it stays so for
all later updates of that record. -/
theorem average_support_nan (eps : ℚ) (ci c : CutInfo) (g : Gen) (cs : List RowCut)
    (h : updateCutInfo ci g (some cs) eps = .ok c)
    (hn : ci.avgSupport = none ∨ (ci.numCuts = 0 ∧ cs = [])) : c.avgSupport = none := by
  obtain ⟨-, -, -, h4⟩ := updateCutInfo_fields h
  rw [h4]
  rcases hn with e | ⟨e, e'⟩
  · simp [newAvg, e, fdiv]
  · subst e'
    simp [newAvg, e, fdiv]

example : ∃ c, updateCutInfo {} (Gen.fresh 10) (some []) (1 / 10) = .ok c := ⟨_, rfl⟩

theorem activateHeur_same {ci c : CutInfo} {i : ℕ} {b : Bool} (h : activateHeur ci i b = .ok c) :
    c.minSupport = ci.minSupport ∧ c.maxSupport = ci.maxSupport ∧ c.numCuts = ci.numCuts ∧
      c.activeGmic = ci.activeGmic ∧ c.activeVpc = ci.activeVpc ∧ c.activeAll = ci.activeAll ∧
      c.objType = ci.objType := by
  unfold activateHeur at h
  split at h
  · split at h
    · cases h; simp
    · cases h
  · cases h; simp

theorem activityLoop_same {sg sv sa : LpPoint} : ∀ {cs : List RowCut} {i : ℕ} {ci c : CutInfo},
    activityLoop sg sv sa cs i ci = .ok c → c.minSupport = ci.minSupport ∧ c.maxSupport = ci.maxSupport
  | [], _, _, _, h => by cases h; exact ⟨rfl, rfl⟩
  | k :: cs, i, ci, c, h => by
    unfold activityLoop at h
    obtain ⟨c1, h1, h2⟩ := Res.bind_ok h
    have a := activateHeur_same h1
    have b := activityLoop_same h2
    exact ⟨by rw [b.1, a.1], by rw [b.2, a.2.1]⟩

theorem addRounds_same : ∀ {rs : List CutInfo} {c0 c : CutInfo}, addRounds rs c0 = .ok c →
    c.minSupport = c0.minSupport ∧ c.maxSupport = c0.maxSupport
  | [], _, _, h => by cases h; exact ⟨rfl, rfl⟩
  | r :: rs, c0, c, h => by
    unfold addRounds at h
    obtain ⟨c1, h1, h2⟩ := Res.bind_ok h
    unfold addRound at h1
    obtain ⟨_, -, h1⟩ := Res.bind_ok h1
    obtain ⟨_, -, h1⟩ := Res.bind_ok h1
    obtain ⟨_, -, h1⟩ := Res.bind_ok h1
    obtain ⟨_, -, h1⟩ := Res.bind_ok h1
    obtain ⟨_, -, h1⟩ := Res.bind_ok h1
    obtain ⟨_, -, h1⟩ := Res.bind_ok h1
    cases h1
    exact (addRounds_same h2 :)

/-- **C78 (negation).** The smallest and largest support are never recorded: whatever the rounds
contained and whatever cuts are analysed, the record that is printed says "smallest support 2147483647,
largest support 0"; so the reported maximum is wrong as soon as one cut has a nonzero coefficient. -/
theorem support_extremes_wrong (rs : List CutInfo) (c c' : CutInfo) (sg sv sa : LpPoint)
    (vpcs : List RowCut) (eps : ℚ) (h : setCutInfo {} (some rs) = .ok c)
    (h' : analyzeVpcs sg sv sa c vpcs eps = .ok c') :
    c'.minSupport = 2147483647 ∧ c'.maxSupport = 0 ∧
      ∀ k ∈ vpcs, 0 < support eps k → c'.maxSupport < support eps k := by
  unfold setCutInfo at h
  obtain ⟨c1, h1, h2⟩ := Res.bind_ok h
  obtain ⟨t, -, h3⟩ := Res.bind_ok h2
  cases h3
  have a := addRounds_same h1
  unfold analyzeVpcs at h'
  obtain ⟨c2, h4, h5⟩ := Res.bind_ok h'
  cases h5
  have b := activityLoop_same h4
  have hmin : c2.minSupport = 2147483647 := by rw [b.1]; exact a.1
  have hmax : c2.maxSupport = 0 := by rw [b.2]; exact a.2
  refine ⟨hmin, hmax, fun k _ hk => ?_⟩
  show c2.maxSupport < _
  rw [hmax]
  exact_mod_cast hk

/-! ## C79: active cuts -/

/-- A cut is active at an optimal solution if its activity equals its right-hand side up to the default
tolerance. -/
def Active (s : LpPoint) (c : RowCut) : Prop := ∃ x, s = some x ∧ |sdot c.row x - c.lb| < 1 / 10 ^ 7

theorem active_iff (s : LpPoint) (c : RowCut) : checkCutActivity s c = true ↔ Active s c := by
  unfold checkCutActivity Active
  match s with
  | none => simp
  | some x => simp [isVal, defEps]

instance (s : LpPoint) (c : RowCut) : Decidable (Active s c) :=
  decidable_of_iff _ (active_iff s c)

theorem one_active (s : LpPoint) (c : RowCut) :
    one (checkCutActivity s c) = if Active s c then 1 else 0 := by
  unfold one
  by_cases h : Active s c
  · rw [if_pos ((active_iff s c).2 h), if_pos h]
  · rw [if_neg (fun e => h ((active_iff s c).1 e)), if_neg h]

theorem activateHeur_spec {ci c : CutInfo} {i : ℕ} {b : Bool} {f : ObjType → ℤ}
    (hf : ci.activeHeur = some f) (h : activateHeur ci i b = .ok c) :
    ∃ f', c.activeHeur = some f' ∧
      ∀ u, f' u = f u + if b = true ∧ ci.objType[i]? = some u then 1 else 0 := by
  unfold activateHeur at h
  rw [hf] at h
  cases b with
  | false => simp only [Bool.false_eq_true, if_false, Res.ok.injEq] at h; subst h; exact ⟨f, hf, by simp⟩
  | true =>
    simp only [if_true] at h
    split at h
    · rename_i u f1 e1 e2
      cases e2
      cases h
      refine ⟨_, rfl, fun v => ?_⟩
      by_cases e : v = u
      · subst e; simp [bump, e1]
      · simp [bump, e, e1, Ne.symm e]
    · cases h

theorem activityLoop_spec {sg sv sa : LpPoint} : ∀ {cs : List RowCut} {i : ℕ} {ci c : CutInfo}
    {f : ObjType → ℤ}, ci.activeHeur = some f → activityLoop sg sv sa cs i ci = .ok c →
    c.objType = ci.objType ∧
    c.activeGmic = ci.activeGmic + cs.countP (fun k => decide (Active sg k)) ∧
    c.activeVpc = ci.activeVpc + cs.countP (fun k => decide (Active sv k)) ∧
    c.activeAll = ci.activeAll + cs.countP (fun k => decide (Active sa k)) ∧
    ∃ f', c.activeHeur = some f' ∧ ∀ u, f' u = f u +
      ((cs.zipIdx i).countP fun p => decide (Active sv p.1 ∧ ci.objType[p.2]? = some u) : ℕ)
  | [], _, ci, c, f, hf, h => by cases h; simp [hf]
  | k :: cs, i, ci, c, f, hf, h => by
    unfold activityLoop at h
    obtain ⟨c1, h1, h2⟩ := Res.bind_ok h
    obtain ⟨-, -, -, a4, a5, a6, a7⟩ := activateHeur_same h1
    obtain ⟨f1, e1, g1⟩ := activateHeur_spec (f := f) (by exact hf) h1
    obtain ⟨b1, b2, b3, b4, f', e', g'⟩ := activityLoop_spec (f := f1) (by exact e1) h2
    dsimp only at a4 a5 a6 a7 b1 b2 b3 b4 g1 g'
    refine ⟨by rw [b1, a7], ?_, ?_, ?_, f', e', fun u => ?_⟩
    · rw [b2, a4, one_active, List.countP_cons]; split <;> simp_all <;> ring
    · rw [b3, a5, one_active, List.countP_cons]; split <;> simp_all <;> ring
    · rw [b4, a6, one_active, List.countP_cons]; split <;> simp_all <;> ring
    · rw [g', g1, a7, List.zipIdx_cons, List.countP_cons]
      simp only [active_iff]
      by_cases hh : Active sv k ∧ ci.objType[i]? = some u
      · simp only [hh, and_self, if_true, decide_true]; push_cast; ring
      · simp only [hh, decide_false, if_false, Bool.false_eq_true]; push_cast; ring

/-- **C79.** Whenever the analysis of the cuts returns, the number of cuts reported active for each of
the three LPs is the number of cuts that are active at its solution; an LP that is missing or not optimal
has no active cuts. -/
theorem active_counts (sg sv sa : LpPoint) (ci c : CutInfo) (vpcs : List RowCut) (eps : ℚ)
    (h : analyzeVpcs sg sv sa ci vpcs eps = .ok c) :
    c.activeGmic = (vpcs.filter fun k => decide (Active sg k)).length ∧
      c.activeVpc = (vpcs.filter fun k => decide (Active sv k)).length ∧
      c.activeAll = (vpcs.filter fun k => decide (Active sa k)).length := by
  unfold analyzeVpcs at h
  obtain ⟨c1, h1, h2⟩ := Res.bind_ok h
  cases h2
  obtain ⟨f, hf⟩ : ∃ f, resizeActive ci.activeHeur = some f := by
    unfold resizeActive; split <;> exact ⟨_, rfl⟩
  obtain ⟨-, b2, b3, b4, -⟩ := activityLoop_spec (f := f) hf h1
  dsimp only at b2 b3 b4 ⊢
  simp only [← List.countP_eq_length_filter]
  exact ⟨by rw [b2]; simp, by rw [b3]; simp, by rw [b4]; simp⟩

/-- **C79.** After a merge of the rounds, the counters per objective are those of the active cuts: for
objective `u`, the number of active cuts whose recorded objective is `u`. -/
theorem active_by_objective (rs : List CutInfo) (sg sv sa : LpPoint) (c c' : CutInfo)
    (vpcs : List RowCut) (eps : ℚ) (h0 : setCutInfo {} (some rs) = .ok c)
    (hr : ∀ r ∈ rs, r.activeHeur = none) (h : analyzeVpcs sg sv sa c vpcs eps = .ok c') (u : ObjType) :
    entry c'.activeHeur u =
      ((vpcs.zipIdx.filter fun p => decide (Active sv p.1 ∧ c.objType[p.2]? = some u)).length : ℤ) := by
  have hz : ∀ (rs : List CutInfo) (a b : CutInfo), (∀ r ∈ rs, r.activeHeur = none) →
      addRounds rs a = .ok b → b.activeHeur = a.activeHeur := by
    intro rs
    induction rs with
    | nil => intro a b _ h; cases h; rfl
    | cons r rs ih =>
      intro a b hr h
      unfold addRounds at h
      obtain ⟨c1, h1, h2⟩ := Res.bind_ok h
      rw [ih c1 b (fun r' h' => hr r' (by simp [h'])) h2]
      unfold addRound at h1
      rw [hr r (by simp)] at h1
      obtain ⟨_, -, h1⟩ := Res.bind_ok h1
      obtain ⟨_, -, h1⟩ := Res.bind_ok h1
      obtain ⟨_, -, h1⟩ := Res.bind_ok h1
      obtain ⟨_, -, h1⟩ := Res.bind_ok h1
      obtain ⟨e, he, h1⟩ := Res.bind_ok h1
      obtain ⟨_, -, h1⟩ := Res.bind_ok h1
      cases h1
      simp only [addActive, Res.ok.injEq] at he
      exact he.symm
  unfold setCutInfo at h0
  obtain ⟨c1, e1, e2⟩ := Res.bind_ok h0
  obtain ⟨t, -, e3⟩ := Res.bind_ok e2
  cases e3
  have hc := hz rs _ _ hr e1
  unfold analyzeVpcs at h
  obtain ⟨c2, h1, h2⟩ := Res.bind_ok h
  cases h2
  have hf : resizeActive c1.activeHeur = some fun _ => 0 := by rw [hc]; rfl
  obtain ⟨-, -, -, -, f', g1, g2⟩ := activityLoop_spec (f := fun _ => 0) hf h1
  dsimp only at g1 g2 ⊢
  rw [g1, entry_some, g2, ← List.countP_eq_length_filter]
  simp

/-- **C79.** The analysis returns when every cut has a recorded objective; `c.objType` of a merged record
has one entry per cut (`reported_totals`). -/
theorem activity_returns (sg sv sa : LpPoint) (eps : ℚ) (vpcs : List RowCut) (c : CutInfo)
    (hl : vpcs.length ≤ c.objType.length) : ∃ c', analyzeVpcs sg sv sa c vpcs eps = .ok c' := by
  have key : ∀ (cs : List RowCut) (i : ℕ) (c : CutInfo), (∃ f, c.activeHeur = some f) →
      i + cs.length ≤ c.objType.length → ∃ c', activityLoop sg sv sa cs i c = .ok c' := by
    intro cs
    induction cs with
    | nil => intro i c _ _; exact ⟨c, rfl⟩
    | cons k cs ih =>
      intro i c hf hl
      obtain ⟨f, hf⟩ := hf
      simp only [List.length_cons] at hl
      have h1 : ∃ c1, activateHeur { c with
          activeGmic := c.activeGmic + one (checkCutActivity sg k)
          activeVpc := c.activeVpc + one (checkCutActivity sv k) } i (checkCutActivity sv k) = .ok c1 := by
        unfold activateHeur
        split
        · have : i < c.objType.length := by omega
          simp [hf, List.getElem?_eq_getElem this]
        · exact ⟨_, rfl⟩
      obtain ⟨c1, h1⟩ := h1
      obtain ⟨f1, e1, -⟩ := activateHeur_spec (f := f) (by exact hf) h1
      have hs := (activateHeur_same h1).2.2.2.2.2.2
      unfold activityLoop
      rw [h1]
      exact ih (i + 1) _ ⟨f1, e1⟩ (by dsimp only at hs ⊢; rw [hs]; omega)
  obtain ⟨f, hf⟩ : ∃ f, resizeActive c.activeHeur = some f := by
    unfold resizeActive; split <;> exact ⟨_, rfl⟩
  obtain ⟨c1, h1⟩ := key vpcs 0 { c with
    activeGmic := 0, activeVpc := 0, activeAll := 0, activeHeur := resizeActive c.activeHeur }
    ⟨f, hf⟩ (by simpa using hl)
  exact ⟨_, by unfold analyzeVpcs; rw [h1]; rfl⟩

/-- Two cuts, one of them active at the point (1, 1). -/
example : (match analyzeVpcs none (some fun _ => 1) none
      { objType := [.USER, .DISJ_LB], activeHeur := some fun _ => 0 }
      [⟨[(0, 1), (1, 1)], 2⟩, ⟨[(0, 1)], 0⟩] (1 / 10) with
    | .ok c => (c.activeGmic, c.activeVpc, entry c.activeHeur .USER, entry c.activeHeur .DISJ_LB, c.avgSupport)
    | _ => (9, 9, 9, 9, none)) = (0, 1, 1, 0, some (3 / 2)) := by decide +kernel

/-! ## C80: averages over the disjunctions -/

/-- Process disjunctions one call at a time, as the main loop does for single disjunctions: the `k`-th
call has `num_disj = k`. -/
def processDisjs : List DisjData → ℤ → DisjInfo → DisjInfo
  | [], _, di => di
  | d :: ds, k, di => processDisjs ds (k + 1) (updateDisjInfo di (k + 1) true [d])

theorem processDisjs_sums : ∀ (ds : List DisjData) (k : ℕ) (di : DisjInfo) (T D : ℚ),
    (0 < k → di.avgTerms * k = T ∧ di.avgDensity * k = D) → (k = 0 → T = 0 ∧ D = 0) →
    0 < k + ds.length →
    (processDisjs ds k di).avgTerms * (k + ds.length : ℕ) = T + (ds.map (·.terms)).sum ∧
      (processDisjs ds k di).avgDensity * (k + ds.length : ℕ) = D + (ds.map (·.density)).sum
  | [], k, di, T, D, h, _, hp => by
    have := h (by simpa using hp)
    simpa [processDisjs] using this
  | d :: ds, k, di, T, D, h, h0, _ => by
    have hk : ((k : ℤ) + 1 ≤ 0) = False := by rw [eq_iff_iff, iff_false]; omega
    have hq : ((k : ℚ) + 1) ≠ 0 := by positivity
    have e : ∀ a : ℚ, runAvg a d.terms ((k : ℤ) + 1) * (k + 1) = a * k + d.terms := by
      intro a; unfold runAvg; push_cast; field_simp; ring
    have e' : ∀ a : ℚ, runAvg a d.density ((k : ℤ) + 1) * (k + 1) = a * k + d.density := by
      intro a; unfold runAvg; push_cast; field_simp; ring
    have base : di.avgTerms * k = T ∧ di.avgDensity * k = D := by
      rcases Nat.eq_zero_or_pos k with z | z
      · subst z; obtain ⟨a, b⟩ := h0 rfl; simp [a, b]
      · exact h z
    have ih := processDisjs_sums ds (k + 1) (updateDisjInfo di ((k : ℤ) + 1) true [d])
      (T + d.terms) (D + d.density)
      (by
        intro _
        simp only [updateDisjInfo, hk, if_false, Bool.not_true, Bool.false_eq_true, List.foldl_cons,
          List.foldl_nil, updateDisj1]
        push_cast
        exact ⟨by rw [e, base.1], by rw [e', base.2]⟩)
      (by omega) (by omega)
    simp only [processDisjs, List.length_cons, List.map_cons, List.sum_cons]
    push_cast at ih ⊢
    constructor
    · rw [← add_assoc T, ← ih.1]; ring
    · rw [← add_assoc D, ← ih.2]; ring

/-- **C80 (partial: two of the ten averages, one disjunction per call).** After any number of
disjunctions processed one at a time, the reported number of terms and density are the averages over
them. -/
theorem disj_averages_partial (ds : List DisjData) (h : ds ≠ []) :
    (processDisjs ds 0 {}).avgTerms = (ds.map (·.terms)).sum / ds.length ∧
      (processDisjs ds 0 {}).avgDensity = (ds.map (·.density)).sum / ds.length := by
  have hp := List.length_pos_iff.2 h
  have hq : (ds.length : ℚ) ≠ 0 := by exact_mod_cast hp.ne'
  obtain ⟨a, b⟩ := processDisjs_sums ds 0 {} 0 0 (by simp) (by simp) (by omega)
  simp only [zero_add, Nat.cast_zero] at a b
  exact ⟨by rw [eq_div_iff hq]; exact a, by rw [eq_div_iff hq]; exact b⟩

example : (processDisjs [⟨2, 1, true, fun _ => 4⟩, ⟨6, 0, false, fun _ => 8⟩] 0 {}).avgTerms = 4 := by
  simp [processDisjs, updateDisjInfo, updateDisj1, runAvg]; norm_num

theorem processDisjs_intSol : ∀ (ds : List DisjData) (k : ℕ) (di : DisjInfo),
    (processDisjs ds k di).numIntSol = di.numIntSol + ds.countP (·.hasIntSol) ∧
      (ds ≠ [] → (processDisjs ds k di).numDisj = k + ds.length)
  | [], _, di => by simp [processDisjs]
  | d :: ds, k, di => by
    have hk : ((k : ℤ) + 1 ≤ 0) = False := by rw [eq_iff_iff, iff_false]; omega
    obtain ⟨ih, ih2⟩ := processDisjs_intSol ds (k + 1) (updateDisjInfo di ((k : ℤ) + 1) true [d])
    have hu : (updateDisjInfo di ((k : ℤ) + 1) true [d]).numIntSol = di.numIntSol + one d.hasIntSol ∧
        (updateDisjInfo di ((k : ℤ) + 1) true [d]).numDisj = k + 1 := by
      simp [updateDisjInfo, hk, updateDisj1]
    have e : processDisjs (d :: ds) k di
        = processDisjs ds ((k + 1 : ℕ) : ℤ) (updateDisjInfo di ((k : ℤ) + 1) true [d]) := by
      simp [processDisjs]
    rw [e]
    constructor
    · rw [ih, hu.1, List.countP_cons]; unfold one; split <;> push_cast <;> ring
    · intro _
      by_cases hd : ds = []
      · subst hd; simp [processDisjs, hu.2]
      · rw [ih2 hd]; simp; ring

/-- **C80.** The number of disjunctions and of disjunctions with an integer solution are exact. -/
theorem disj_counts (ds : List DisjData) :
    (processDisjs ds 0 {}).numIntSol = ds.countP (·.hasIntSol) ∧
      (processDisjs ds 0 {}).numDisj = ds.length := by
  have := processDisjs_intSol ds 0 {}
  refine ⟨by simpa using this.1, ?_⟩
  by_cases h : ds = []
  · subst h; rfl
  · simpa using this.2 h

/-- **C80 (negation).** The other eight averages (rows, columns, points and rays of the point-ray LP;
explored and pruned nodes, depths) are increased instead of assigned: right for one disjunction, and
after a second one always too large by the value of the first. -/
theorem other_averages_wrong (d1 d2 : DisjData) (k : Fin 8) :
    (processDisjs [d1] 0 {}).avgOther k = d1.other k ∧
      (processDisjs [d1, d2] 0 {}).avgOther k = d1.other k + (d1.other k + d2.other k) / 2 := by
  constructor
  · simp [processDisjs, updateDisjInfo, updateDisj1, runAvg]
  · simp [processDisjs, updateDisjInfo, updateDisj1, runAvg]; ring

/-- **C80 (negation).** For a set of two disjunctions reported in one call (`num_disj = 2`; modes with a
set of disjunctions), even the average number of terms is wrong, unless the first disjunction has no
terms. -/
theorem set_average_wrong (d1 d2 : DisjData) (h : d1.terms ≠ 0) :
    (updateDisjInfo {} 2 true [d1, d2]).avgTerms ≠ (d1.terms + d2.terms) / 2 := by
  have : (updateDisjInfo {} 2 true [d1, d2]).avgTerms = d1.terms / 4 + d2.terms / 2 := by
    simp [updateDisjInfo, updateDisj1, runAvg]; ring
  rw [this]
  intro e
  apply h
  linarith

example : (⟨2, 1, true, fun _ => 4⟩ : DisjData).terms ≠ 0 := by norm_num

/-! ## C81: the check against a known solution -/

/-- A cut is violated by a point by at least the default tolerance. -/
def ViolatedBy (c : RowCut) (x : Vec) : Prop := sdot c.row x ≤ c.lb - 1 / 10 ^ 7

instance (c : RowCut) (x : Vec) : Decidable (ViolatedBy c x) := by unfold ViolatedBy; infer_instance

/-- **C81.** The number returned is the number of cuts violated by at least `1e-7`. -/
theorem violated_count (x : Vec) : ∀ cs : List RowCut,
    checkCutsAgainstFeasibleSolution cs x = (cs.filter fun c => decide (ViolatedBy c x)).length
  | [] => rfl
  | c :: cs => by
    have e : lessThanVal (sdot c.row x) c.lb = decide (ViolatedBy c x) := by
      simp [lessThanVal, ViolatedBy, defEps]
    rw [checkCutsAgainstFeasibleSolution, violated_count x cs, e, List.filter_cons]
    by_cases h : ViolatedBy c x <;> simp [h]

/-- **C81.** If every cut holds at the point, the check reports zero, whatever the number of cuts. -/
theorem valid_cuts_pass (x : Vec) (cs : List RowCut) (h : ∀ c ∈ cs, c.lb ≤ sdot c.row x) :
    checkCutsAgainstFeasibleSolution cs x = 0 := by
  rw [violated_count, List.length_eq_zero_iff, List.filter_eq_nil_iff]
  intro c hc
  have := h c hc
  have hv : ¬ViolatedBy c x := fun hv => by
    unfold ViolatedBy at hv
    linarith [show (0 : ℚ) < 1 / 10 ^ 7 by norm_num]
  simpa using hv

/-- **C81.** A report of zero means that every cut holds up to less than `1e-7`. -/
theorem pass_means_valid (x : Vec) (cs : List RowCut) (h : checkCutsAgainstFeasibleSolution cs x = 0) :
    ∀ c ∈ cs, c.lb - 1 / 10 ^ 7 < sdot c.row x := by
  rw [violated_count, List.length_eq_zero_iff, List.filter_eq_nil_iff] at h
  intro c hc
  simpa [ViolatedBy] using h c hc

example : checkCutsAgainstFeasibleSolution [⟨[(0, 1)], 2⟩, ⟨[(0, 1), (1, 1)], 2⟩] (fun _ => 1) = 1 := by
  decide +kernel

/-- **C81 (partial: the option must be given alone).** Then every round with a known solution is
checked. -/
theorem check_done_partial (sol : Vec) (cs : List RowCut) :
    roundCheck 8 (some sol) cs = some (cs.filter fun c => decide (ViolatedBy c sol)).length := by
  rw [← violated_count]; rfl

/-- **C81 (negation).** Whenever the option is combined with any other one, no round is checked. -/
theorem combined_never_checked (temp : BitVec 32) (o : TempOpt) (ho : o ≠ .CHECK_CUTS_AGAINST_BB_OPT)
    (h2 : useTemp temp o = true) (sol : Option Vec) (cs : List RowCut) :
    roundCheck temp sol cs = none := by
  have : temp ≠ TempOpt.CHECK_CUTS_AGAINST_BB_OPT.val := by
    rintro rfl
    revert h2 ho
    cases o <;> decide
  unfold roundCheck
  rw [if_neg this]

/-- Both options are on, and a violated cut goes unreported. -/
example : useTemp 24 .CHECK_CUTS_AGAINST_BB_OPT = true ∧ useTemp 24 .PRINT_BOUND_BY_ROUND = true ∧
    roundCheck 24 (some fun _ => 0) [⟨[(0, 1)], 1⟩] = none ∧
    ViolatedBy ⟨[(0, 1)], 1⟩ (fun _ => 0) := by decide +kernel

end VPC
