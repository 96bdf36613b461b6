import Verif.Props.LogFacts

/-!
# The log file: percentages of the gap, counters of the cuts, splitting a line
-/
namespace VPC

/-! ## Percentages of the gap -/

theorem dblMax_large : (10 ^ 9 : ℚ) ≤ dblMax := by
  unfold dblMax
  have : (1 : ℚ) ≤ 2 ^ 971 := one_le_pow₀ (by norm_num)
  generalize (2 : ℚ) ^ 971 = m at *
  norm_num
  linarith

/-- A number that is not close to the largest double is printed as it is. -/
theorem sv_num {v : ℚ} (h : |v| ≤ dblMax - 1) : sv v = .num v := by
  obtain ⟨h1, h2⟩ := abs_le.mp h
  have a : isInfinity v = false := by
    have h3 : ¬ v ≥ dblMax := by linarith
    have h4 : v ≤ dblMax - defEps := by unfold defEps; linarith
    unfold isInfinity lessThanVal
    rw [decide_eq_true h4, decide_eq_false h3]
    rfl
  have b : isNegInfinity v (-dblMax) = false := by
    have h3 : ¬ v ≤ -dblMax := by linarith
    have h4 : v ≥ -dblMax + defEps := by unfold defEps; linarith
    unfold isNegInfinity greaterThanVal
    rw [decide_eq_true h4, decide_eq_false h3]
    rfl
  simp [sv, a, b]

/-- Infinite, as the program sees it: within `1e-7` of the largest double, or beyond. -/
def Infinite (v : ℚ) : Prop := dblMax - 1 / 10 ^ 7 < |v|

theorem isInfinity_abs (v : ℚ) : isInfinity |v| = true ↔ Infinite v := by
  unfold Infinite isInfinity lessThanVal defEps
  simp only [ge_iff_le, Bool.or_eq_true, decide_eq_true_eq, Bool.not_eq_true', decide_eq_false_iff_not, not_le]
  constructor
  · rintro (h | h)
    · linarith
    · exact h
  · exact Or.inr

theorem gapClosed_eq (b : BoundInfo) (x : ℚ) : (Infinite b.ip ∨ Infinite x → gapClosed b x = .blank) ∧
    (¬ Infinite b.ip → ¬ Infinite x → gapClosed b x = .val (gapVal b x)) := by
  unfold gapClosed
  simp only [← isInfinity_abs]
  constructor
  · intro h; rw [if_pos h]
  · intro h1 h2; rw [if_neg (by tauto)]

/-- A gap is left out exactly if the optimal value or the bound is not known. -/
theorem gap_blank_iff (b : BoundInfo) (x : ℚ) : gapClosed b x = .blank ↔ Infinite b.ip ∨ Infinite x := by
  by_cases h : Infinite b.ip ∨ Infinite x
  · simp [h, (gapClosed_eq b x).1 h]
  · rw [not_or] at h
    simp [h, (gapClosed_eq b x).2 h.1 h.2]

/-- The share of the way from `lp` to `ip` that `x` is, in percent. -/
def share (lp ip x : ℚ) : ℚ := (x - lp) / (ip - lp) * 100

/-- For an LP bound below the optimal value, the percentage is printed as it should be: it is between 0
and 100 if the bound is between the two values, 0 at the LP bound, 100 at the optimal value. -/
theorem gap_between (b : BoundInfo) (x : ℚ) (hip : ¬ Infinite b.ip) (h1 : b.lp ≤ x) (h2 : x ≤ b.ip)
    (hx : ¬ Infinite x) (hlt : b.lp < b.ip) :
    gapClosed b x = .val (.num (share b.lp b.ip x)) ∧ 0 ≤ share b.lp b.ip x ∧ share b.lp b.ip x ≤ 100
    ∧ (x = b.lp → share b.lp b.ip x = 0) ∧ (x = b.ip → share b.lp b.ip x = 100) := by
  have hd : 0 < b.ip - b.lp := by linarith
  have e : 100 * (x - b.lp) / (b.ip - b.lp) = share b.lp b.ip x := by unfold share; ring
  have l0 : 0 ≤ share b.lp b.ip x := by
    unfold share; have : 0 ≤ x - b.lp := by linarith
    positivity
  have l1 : share b.lp b.ip x ≤ 100 := by
    unfold share
    have : (x - b.lp) / (b.ip - b.lp) ≤ 1 := by rw [div_le_one hd]; linarith
    linarith
  refine ⟨?_, l0, l1, ?_, ?_⟩
  · rw [(gapClosed_eq b x).2 hip hx]
    unfold gapVal
    rw [if_neg hd.ne', e, sv_num]
    rw [abs_of_nonneg l0]
    have := dblMax_large
    linarith
  · intro h; unfold share; rw [h]; simp
  · intro h; unfold share; rw [h, div_self hd.ne']; norm_num

/-- A better bound closes more of the gap. -/
theorem gap_monotone (lp ip x y : ℚ) (hlt : lp < ip) (h : x < y) : share lp ip x < share lp ip y := by
  unfold share
  have hd : 0 < ip - lp := by linarith
  have : (x - lp) / (ip - lp) < (y - lp) / (ip - lp) := by gcongr
  linarith

theorem small_finite {v : ℚ} (h : |v| ≤ 1000) : ¬ Infinite v := by
  unfold Infinite
  have := dblMax_large
  generalize dblMax = m at *
  linarith

example : ¬ Infinite (2 : ℚ) ∧ ¬ Infinite (3 / 2 : ℚ) ∧ gapClosed exampleRun.bound (3 / 2) = .val (.num 50) := by
  have h2 : ¬ Infinite (2 : ℚ) := small_finite (by rw [abs_of_pos] <;> norm_num)
  have h3 : ¬ Infinite (3 / 2 : ℚ) := small_finite (by rw [abs_of_pos] <;> norm_num)
  refine ⟨h2, h3, ?_⟩
  rw [(gap_between exampleRun.bound (3 / 2) h2 (by norm_num [exampleRun]) (by norm_num [exampleRun]) h3
    (by norm_num [exampleRun])).1]
  norm_num [share, exampleRun]

/-- If the LP bound is already the optimal value, what is printed is not a percentage: `'inf'` for every
bound that is not worse, `'-inf'` for a worse one. So a gap that is closed at the start is reported as
infinitely closed. -/
theorem gap_degenerate (b : BoundInfo) (x : ℚ) (hip : ¬ Infinite b.ip) (hx : ¬ Infinite x) (he : b.ip = b.lp) :
    gapClosed b x = .val (if x < b.lp then .ninf else .inf) := by
  rw [(gapClosed_eq b x).2 hip hx]
  unfold gapVal
  rw [if_pos (by rw [he]; ring)]
  congr 1
  by_cases h : x < b.lp
  · rw [if_pos h, if_pos (by linarith)]
  · rw [if_neg h, if_neg (by linarith)]

example : ∃ (b : BoundInfo) (x : ℚ), b.ip = b.lp ∧ ¬ Infinite b.ip ∧ ¬ Infinite x ∧
    gapClosed b x = .val .inf := by
  have h2 : ¬ Infinite (2 : ℚ) := small_finite (by rw [abs_of_pos] <;> norm_num)
  refine ⟨{ lp := 2, ip := 2 }, 2, rfl, h2, h2, ?_⟩
  rw [gap_degenerate { lp := 2, ip := 2 } 2 h2 h2 rfl, if_neg (lt_irrefl _)]

/-! ## Counters of the cuts -/

/-- What the analysis of the activity leaves alone. -/
structure CutInfo.SameCounts (a b : CutInfo) : Prop where
  numCuts : a.numCuts = b.numCuts
  objTried : a.objTried = b.objTried
  failures : a.failures = b.failures
  rounds : a.rounds = b.rounds
  objType : a.objType = b.objType
  cutType : a.cutType = b.cutType
  ofType : a.ofType = b.ofType
  cutsHeur : a.cutsHeur = b.cutsHeur
  objHeur : a.objHeur = b.objHeur
  failsHeur : a.failsHeur = b.failsHeur
  fails : a.fails = b.fails

theorem activateHeur_counts {ci c : CutInfo} {i : ℕ} {b : Bool} (h : activateHeur ci i b = .ok c) :
    c.SameCounts ci ∧ (ci.activeHeur ≠ none → c.activeHeur ≠ none) := by
  unfold activateHeur at h
  split at h
  · split at h
    · cases h; exact ⟨by constructor <;> rfl, fun _ => by simp⟩
    · cases h
  · cases h; exact ⟨by constructor <;> rfl, id⟩

theorem activityLoop_counts {sg sv sa : LpPoint} : ∀ {cs : List RowCut} {i : ℕ} {ci c : CutInfo},
    activityLoop sg sv sa cs i ci = .ok c → c.SameCounts ci ∧ (ci.activeHeur ≠ none → c.activeHeur ≠ none)
  | [], _, _, _, h => by cases h; exact ⟨by constructor <;> rfl, id⟩
  | k :: cs, i, ci, c, h => by
    unfold activityLoop at h
    obtain ⟨c1, h1, h2⟩ := Res.bind_ok h
    obtain ⟨a, a'⟩ := activateHeur_counts h1
    obtain ⟨b, b'⟩ := activityLoop_counts h2
    refine ⟨?_, fun h => b' (a' h)⟩
    constructor
    · exact b.numCuts.trans a.numCuts
    · exact b.objTried.trans a.objTried
    · exact b.failures.trans a.failures
    · exact b.rounds.trans a.rounds
    · exact b.objType.trans a.objType
    · exact b.cutType.trans a.cutType
    · exact b.ofType.trans a.ofType
    · exact b.cutsHeur.trans a.cutsHeur
    · exact b.objHeur.trans a.objHeur
    · exact b.failsHeur.trans a.failsHeur
    · exact b.fails.trans a.fails

theorem analyzeVpcs_counts {sg sv sa : LpPoint} {ci c : CutInfo} {vpcs : List RowCut} {eps : ℚ}
    (h : analyzeVpcs sg sv sa ci vpcs eps = .ok c) : c.SameCounts ci ∧ c.activeHeur ≠ none := by
  unfold analyzeVpcs at h
  obtain ⟨c1, h1, h2⟩ := Res.bind_ok h
  cases h2
  obtain ⟨a, a'⟩ := activityLoop_counts h1
  refine ⟨?_, ?_⟩
  · constructor
    · exact a.numCuts
    · exact a.objTried
    · exact a.failures
    · exact a.rounds
    · exact a.objType
    · exact a.cutType
    · exact a.ofType
    · exact a.cutsHeur
    · exact a.objHeur
    · exact a.failsHeur
    · exact a.fails
  · refine a' ?_
    unfold resizeActive
    dsimp only
    split <;> simp

theorem printCut_full (g c : CutInfo) (h1 : c.ofType ≠ none) (h2 : c.objHeur ≠ none) (h3 : c.cutsHeur ≠ none)
    (h4 : c.failsHeur ≠ none) (h5 : c.activeHeur ≠ none) (h6 : c.fails ≠ none) : ∃ l, printCut g c = .ok l := by
  obtain ⟨a, ha⟩ := Option.ne_none_iff_exists'.mp h1
  obtain ⟨b, hb⟩ := Option.ne_none_iff_exists'.mp h2
  obtain ⟨d, hd⟩ := Option.ne_none_iff_exists'.mp h3
  obtain ⟨e, he⟩ := Option.ne_none_iff_exists'.mp h4
  obtain ⟨f, hf⟩ := Option.ne_none_iff_exists'.mp h5
  obtain ⟨k, hk⟩ := Option.ne_none_iff_exists'.mp h6
  have t : ∃ l, typeCells c = .ok l := by unfold typeCells; rw [ha]; split <;> exact ⟨_, rfl⟩
  have u : ∃ l, heurCells c = .ok l := by unfold heurCells; rw [hb, hd, he, hf]; split <;> exact ⟨_, rfl⟩
  have v : ∃ l, failCells c = .ok l := by unfold failCells; rw [hk]; split <;> exact ⟨_, rfl⟩
  obtain ⟨t, ht⟩ := t
  obtain ⟨u, hu⟩ := u
  obtain ⟨v, hv⟩ := v
  exact ⟨_, by unfold printCut; rw [ht, hu, hv]; rfl⟩

/-- The counters of the cuts can always be printed: after any number of rounds (each with a complete
record) and the analysis of the bound, and also if the program stops before the first round. -/
theorem counters_printed (g ci : CutInfo) (rs : List CutInfo) (h : ∀ r ∈ rs, r.Complete) (sg sv sa : LpPoint)
    (c c' : CutInfo) (vpcs : List RowCut) (eps : ℚ) (hc : setCutInfo ci (some rs) = .ok c)
    (ha : analyzeVpcs sg sv sa c vpcs eps = .ok c') :
    (∃ l, printCut g c' = .ok l) ∧ ∃ l, printCut g {} = .ok l := by
  refine ⟨?_, ⟨_, rfl⟩⟩
  obtain ⟨c1, e, s⟩ := addRounds_sum rs (resetCutInfo ci rs.length) (by simp [resetCutInfo]) h
  unfold setCutInfo at hc
  dsimp only at hc
  rw [e] at hc
  obtain ⟨_, hx, hc⟩ := Res.bind_ok hc
  cases hx
  obtain ⟨t, -, hc⟩ := Res.bind_ok hc
  cases hc
  obtain ⟨a, a'⟩ := analyzeVpcs_counts ha
  obtain ⟨f1, f2, f3, f4, -, f6⟩ := s.full
  exact printCut_full g c' (by rw [a.ofType]; exact f1) (by rw [a.objHeur]; exact f3) (by rw [a.cutsHeur]; exact f2)
    (by rw [a.failsHeur]; exact f4) a' (by rw [a.fails]; exact f6)

/-- **From the generator to the line of the log.** After any rounds, the numbers under the names of the
header are: the number of cuts collected; for each objective the number of cuts it gave, but only if an
objective was tried, otherwise zero; likewise for the objectives and failures, whose sums are the
totals. -/
theorem log_cut_counts (calls : List (GenCfg × GenWorld × ℤ)) (outs : List GenOut) (eps : ℚ)
    (h : List.Forall₂ (fun k o => generateCuts k.1 k.2.1 (Gen.fresh k.2.2) [] = .ok o) calls outs) :
    ∃ rs c, List.Forall₂ (fun o r => roundRecord o.gen eps = .ok r) outs rs ∧ setCutInfo {} (some rs) = .ok c ∧
      ∀ (sg sv sa : LpPoint) (vpcs : List RowCut) (c' : CutInfo), analyzeVpcs sg sv sa c vpcs eps = .ok c' →
      ∀ (p : Params) (d : RunData), DefaultNames p → FullOrder d.order → d.vpcs = c' →
        (∀ f, ("NUM CUTS", f) ∈ logTable p d.order →
          f d = cntCell (outs.flatMap fun o => o.gen.cuts).length) ∧
        (∀ f, ("NUM OPTIMALITY CUTS", f) ∈ logTable p d.order →
          f d = cntCell (c.cutType.count .OPTIMALITY_CUT)) ∧
        (∀ f, ("NUM ONE SIDED CUTS", f) ∈ logTable p d.order →
          f d = cntCell (c.cutType.count .ONE_SIDED_CUT)) ∧
        ∀ t f, ("NUM CUTS " ++ t.name, f) ∈ logTable p d.order →
          f d = cntCell (if c.objTried > 0 then c.objType.count t else 0) := by
  obtain ⟨rs, c, h1, h2, h3, h4, h5, h6, h7, -, -⟩ := reported_totals calls outs eps h {}
  refine ⟨rs, c, h1, h2, ?_⟩
  intro sg sv sa vpcs c' ha p d hp ho hd
  obtain ⟨a, -⟩ := analyzeVpcs_counts ha
  have e0 : ∀ {κ : Type} (v : Option (κ → ℤ)) (k : κ), count0 v k = entry v k := fun v k => by
    cases v <;> rfl
  have mem : ∀ m ∈ cutMeaning ++ objMeaning, m ∈ logTable p d.order := by
    intro m hm
    unfold logTable
    simp only [List.mem_append, List.mem_cons] at hm ⊢
    tauto
  have ht : ∀ t : CutType, cntIf (decide (c'.numCuts > 0)) (count0 c'.ofType t) = cntCell (c.cutType.count t) := by
    intro t
    rw [e0, a.ofType, h6, a.numCuts]
    unfold cntIf
    congr 1
    by_cases hz : c.numCuts > 0
    · simp [hz]
    · have : c.cutType = [] := List.eq_nil_of_length_eq_zero (by omega)
      simp [this]
  refine ⟨?_, ?_, ?_, ?_⟩
  · intro f hf
    rw [names_unambiguous hp ho hf (mem ("NUM CUTS", fun d => cntCell d.vpcs.numCuts)
      (by simp [cutMeaning]))]
    simp only [hd, a.numCuts, h3]
  · intro f hf
    rw [names_unambiguous hp ho hf (mem ("NUM OPTIMALITY CUTS",
      fun d => cntIf (d.vpcs.numCuts > 0) (count0 d.vpcs.ofType .OPTIMALITY_CUT)) (by simp [cutMeaning]))]
    simp only [hd]; exact ht _
  · intro f hf
    rw [names_unambiguous hp ho hf (mem ("NUM ONE SIDED CUTS",
      fun d => cntIf (d.vpcs.numCuts > 0) (count0 d.vpcs.ofType .ONE_SIDED_CUT)) (by simp [cutMeaning]))]
    simp only [hd]; exact ht _
  · intro t f hf
    have hm : ("NUM CUTS " ++ t.name, fun d : RunData => cntIf (d.vpcs.objTried > 0) (count0 d.vpcs.cutsHeur t))
        ∈ objMeaning := by
      unfold objMeaning
      refine List.mem_cons_of_mem _ (List.mem_flatMap.mpr ⟨t, by cases t <;> decide, ?_⟩)
      simp
    rw [names_unambiguous hp ho hf (mem _ (List.mem_append_right _ hm))]
    simp only [hd, e0, a.cutsHeur, h7, a.objTried]
    unfold cntIf
    by_cases hz : c.objTried > 0 <;> simp [hz]

/-- A cut from an objective that is not counted as tried: the round collects one optimality cut; the log
says so under `NUM CUTS` and `NUM OPTIMALITY CUTS`, but says 0 under `NUM CUTS OBJ_CUT`. -/
theorem objective_cut_hidden :
    ∃ (o : GenOut) (r c c' : CutInfo), generateCuts pbbCfg ((demoRounds 1).gen 0) (Gen.fresh 10) [] = .ok o ∧
      roundRecord o.gen 0 = .ok r ∧ setCutInfo {} (some [r]) = .ok c ∧
      analyzeVpcs none none none c (o.gen.cuts.map (·.cut)) 0 = .ok c' ∧
      c.objType = [.OBJ_CUT] ∧
      ∀ (d : RunData), d.vpcs = c' → DefaultNames d.params → FullOrder d.order →
        (∀ f, ("NUM CUTS", f) ∈ logTable d.params d.order → f d = cntCell 1) ∧
        (∀ f, ("NUM OPTIMALITY CUTS", f) ∈ logTable d.params d.order → f d = cntCell 1) ∧
        ∀ f, ("NUM CUTS OBJ_CUT", f) ∈ logTable d.params d.order → f d = cntCell 0 := by
  have hk : (match generateCuts pbbCfg ((demoRounds 1).gen 0) (Gen.fresh 10) [] with
      | .ok o => (match roundRecord o.gen 0 with
        | .ok r => (match setCutInfo {} (some [r]) with
          | .ok c => (match analyzeVpcs none none none c (o.gen.cuts.map (·.cut)) 0 with
            | .ok _ => decide (c.objType = [.OBJ_CUT] ∧ c.cutType = [.OPTIMALITY_CUT] ∧ c.objTried = 0 ∧
              o.gen.cuts.length = 1)
            | _ => false)
          | _ => false)
        | _ => false)
      | _ => false) = true := by decide +kernel
  cases ho : generateCuts pbbCfg ((demoRounds 1).gen 0) (Gen.fresh 10) [] with
  | exit => rw [ho] at hk; cases hk
  | undef => rw [ho] at hk; cases hk
  | ok o =>
    rw [ho] at hk
    dsimp only at hk
    cases hr : roundRecord o.gen 0 with
    | exit => rw [hr] at hk; cases hk
    | undef => rw [hr] at hk; cases hk
    | ok r =>
      rw [hr] at hk
      dsimp only at hk
      cases hc : setCutInfo {} (some [r]) with
      | exit => rw [hc] at hk; cases hk
      | undef => rw [hc] at hk; cases hk
      | ok c =>
        rw [hc] at hk
        dsimp only at hk
        cases ha : analyzeVpcs none none none c (o.gen.cuts.map (·.cut)) 0 with
        | exit => rw [ha] at hk; cases hk
        | undef => rw [ha] at hk; cases hk
        | ok c' =>
          rw [ha] at hk
          dsimp only at hk
          rw [decide_eq_true_eq] at hk
          obtain ⟨k1, k2, k3, k4⟩ := hk
          refine ⟨o, r, c, c', rfl, hr, hc, ha, k1, ?_⟩
          intro d hd hp hord
          obtain ⟨rs, c2, f1, f2, f3⟩ := log_cut_counts [(pbbCfg, (demoRounds 1).gen 0, 10)] [o] 0
            (.cons ho .nil)
          cases f1 with
          | cons g1 g2 =>
            cases g2
            rw [hr] at g1
            cases g1
            rw [hc] at f2
            cases f2
            obtain ⟨u1, u2, -, u4⟩ := f3 none none none _ c' ha d.params d hp hord hd
            refine ⟨?_, ?_, ?_⟩
            · intro f hf; rw [u1 f hf]; simp [k4]
            · intro f hf; rw [u2 f hf, k2]; rfl
            · intro f hf; rw [u4 .OBJ_CUT f hf, k3]; rfl

/-- Notes that are counted by type but not as failures do not appear unless something else failed. -/
theorem notes_hidden (d : RunData) (p : Params) (hp : DefaultNames p) (ho : FullOrder d.order)
    (h : d.vpcs.failures = 0) (t : Fail) (f : RunData → Cell) (hf : (t.name, f) ∈ logTable p d.order) :
    f d = cntCell 0 := by
  have hm : (t.name, fun d : RunData => cntIf (d.vpcs.failures > 0) (count0 d.vpcs.fails t)) ∈
      logTable p d.order := by
    have : (t.name, fun d : RunData => cntIf (d.vpcs.failures > 0) (count0 d.vpcs.fails t)) ∈ failMeaning := by
      unfold failMeaning
      exact List.mem_cons_of_mem _ (List.mem_map.mpr ⟨t, by cases t <;> decide, rfl⟩)
    unfold logTable
    simp only [List.mem_append, List.mem_cons]
    tauto
  rw [names_unambiguous hp ho hf hm]
  simp [h, cntIf]

/-- A problem with more than `2^31 - 1` positions: the product of rows and columns overflows and no line
is printed as specified. -/
theorem density_overflow (d : RunData) (h : (d.orig.rows.length * d.orig.cols.length : ℤ) > intMax) :
    logRow d = .undef := by
  unfold logRow
  rw [summary_eq]
  have : printOrig d.orig = .undef := by
    unfold printOrig density
    rw [if_pos h]
    rfl
  simp only [Res.bind, this]

/-- Conversely the statistics of a problem are printed if the product fits into an `int`. -/
theorem stats_printed (p : Prob) (h : (p.rows.length * p.cols.length : ℤ) ≤ intMax) :
    printOrig p = .ok (probMeaning.map (·.2 p)) := by
  have : ∃ l, printOrig p = .ok l := by
    unfold printOrig density
    rw [if_neg (not_lt.mpr h)]
    exact ⟨_, rfl⟩
  obtain ⟨l, hl⟩ := this
  rw [hl, printOrig_eq hl]

/-! ## Splitting a line -/

/-- The fields of a line as a spreadsheet reads them: the newline is removed, then split at commas. -/
def splitLine (l : List Char) : List (List Char) := l.dropLast.splitOn ','

/-- A text without comma. -/
def Cell.NoComma : Cell → Prop
  | .text s => ',' ∉ s.toList
  | _ => True

theorem joinChars_no_comma {fmt : Val → List Char} (hf : ∀ v, ',' ∉ fmt v) (l : List Val) :
    ',' ∉ joinChars fmt l := by
  unfold joinChars
  have : ∀ (l : List Val) (acc : List Char), ',' ∉ acc →
      ',' ∉ l.foldl (fun acc v => acc ++ (if acc.isEmpty then [] else [';']) ++ fmt v) acc := by
    intro l
    induction l with
    | nil => intro acc h; exact h
    | cons v l ih =>
      intro acc h
      rw [List.foldl_cons]
      apply ih
      have := hf v
      split <;> simp [h, this]
  exact this l [] (by simp)

/-- The values of all runs, separated by semicolons. -/
theorem joinChars_eq {fmt : Val → List Char} (hf : ∀ v, fmt v ≠ []) (l : List Val) :
    joinChars fmt l = [';'].intercalate (l.map fmt) := by
  have aux : ∀ (l : List Val) (acc : List Char), acc ≠ [] →
      l.foldl (fun acc v => acc ++ (if acc.isEmpty then [] else [';']) ++ fmt v) acc =
        acc ++ l.flatMap fun v => ';' :: fmt v := by
    intro l
    induction l with
    | nil => intro acc _; simp
    | cons v l ih =>
      intro acc h
      rw [List.foldl_cons, ih _ (by simp [h])]
      have : acc.isEmpty = false := by simp [h]
      simp [this]
  cases l with
  | nil => rfl
  | cons v l =>
    unfold joinChars
    rw [List.foldl_cons]
    simp only [List.isEmpty_nil, if_true, List.nil_append]
    rw [aux l (fmt v) (hf v)]
    simp only [List.map_cons]
    clear aux
    induction l generalizing v with
    | nil => simp
    | cons w l ih =>
      simp only [List.flatMap_cons, List.map_cons, List.intercalate_cons_cons]
      rw [← ih w]
      simp

/-- A line splits into the fields that were printed, if no text contains a comma; `fmt` prints numbers
without commas. -/
theorem line_splits (fmt : Val → List Char) (hf : ∀ v, ',' ∉ fmt v) (row : List Cell) (hr : row ≠ [])
    (ht : ∀ c ∈ row, c.NoComma) :
    splitLine (lineChars (row.map (Cell.render fmt))) = row.map (Cell.render fmt) := by
  unfold splitLine lineChars
  rw [List.dropLast_concat]
  apply List.splitOn_intercalate
  · intro l hl
    rw [List.mem_map] at hl
    obtain ⟨c, hc, rfl⟩ := hl
    cases c with
    | blank => simp [Cell.render]
    | val v => exact hf v
    | text s => exact ht _ hc
    | join l => exact joinChars_no_comma hf l
  · simpa using hr

theorem intercalate_count (x : Char) : ∀ (ls : List (List Char)), ls ≠ [] →
    ([x].intercalate ls).count x + 1 = (ls.map (·.count x)).sum + ls.length
  | [], h => absurd rfl h
  | [l], _ => by simp
  | l :: m :: ls, _ => by
    have := intercalate_count x (m :: ls) (by simp)
    rw [List.intercalate_cons_cons]
    simp only [List.count_append, List.map_cons, List.sum_cons, List.length_cons, List.count_singleton_self] at this ⊢
    omega

theorem splitOn_length (x : Char) (l : List Char) : (l.splitOn x).length = l.count x + 1 := by
  induction l with
  | nil => simp
  | cons a l ih =>
    rw [List.splitOn_cons_eq_if_modifyHead]
    by_cases h : a = x
    · simp [h, ih]
    · simp [h, ih]

/-- In general a line splits into one more field for every comma in a text, so that the fields after it
move away from their names. -/
theorem commas_shift (fmt : Val → List Char) (row : List Cell) (hr : row ≠ []) :
    (splitLine (lineChars (row.map (Cell.render fmt)))).length =
      row.length + ((row.map (Cell.render fmt)).map (·.count ',')).sum := by
  unfold splitLine lineChars
  rw [List.dropLast_concat, splitOn_length, intercalate_count _ _ (by simpa using hr), List.length_map]
  omega

/-- The texts of a line: the instance, the parameters that are strings, versions, machine, reason, time. -/
def RunData.texts (d : RunData) : List String :=
  [d.wrap.inst, d.wrap.vpcVersion, d.wrap.cbcVersion, d.wrap.clpVersion, d.wrap.gurobiVersion,
   d.wrap.cplexVersion, d.wrap.host, d.wrap.cpuModel, d.wrap.endTime] ++ d.order.strs.map d.params.getS

theorem reason_no_comma (r : ExitReason) : ',' ∉ r.name.toList := by cases r <;> decide +kernel

/-- **Reading the log.** If no text contains a comma, splitting the line of a run gives as many fields as
the header has names, and each is what is printed for the value its name stands for. -/
theorem log_line_readable (fmt : Val → List Char) (hf : ∀ v, ',' ∉ fmt v) (p : Params) (d : RunData)
    (ht : MainTimer d.timer) (row : List Cell) (h : logRow d = .ok row) (hc : ∀ s ∈ d.texts, ',' ∉ s.toList) :
    splitLine (lineChars (row.map (Cell.render fmt))) =
      (logTable p d.order).map fun m => (m.2 d).render fmt := by
  obtain ⟨-, h2⟩ := log_columns p d row ht h
  have hne : row ≠ [] := by rw [h2]; simp [logTable]
  rw [line_splits fmt hf row hne, h2, List.map_map]
  · rfl
  · intro c hcr
    rw [h2] at hcr
    rw [List.mem_map] at hcr
    obtain ⟨m, hm, rfl⟩ := hcr
    -- every cell is a number, a blank, or one of the texts
    have key : (m.2 d).NoComma := by
      have tx : ∀ s, s ∈ d.texts → (Cell.text s).NoComma := fun s hs => hc s hs
      have nv : ∀ v, (Cell.val v).NoComma := fun _ => trivial
      have ncnt : ∀ v, (cntCell v).NoComma := fun _ => trivial
      have nif : ∀ b v, (cntIf b v).NoComma := fun _ _ => trivial
      have nbb : ∀ (b : Bool) (f : SummaryBB → Cell), (∀ s, (f s).NoComma) → (bbCell d b f).NoComma := by
        intro b f hh; unfold bbCell; split
        · trivial
        · exact hh _
      unfold logTable at hm
      simp only [List.mem_append, List.mem_cons] at hm
      rcases hm with ((((((((((((rfl | hm) | hm) | hm) | hm) | hm) | hm) | hm) | hm) | hm) | hm) | hm) | hm) | hm
      · exact tx _ (by simp [RunData.texts])
      · unfold paramMeaning at hm
        simp only [List.mem_append, List.mem_map] at hm
        rcases hm with (⟨i, -, rfl⟩ | ⟨i, -, rfl⟩) | ⟨i, hi, rfl⟩
        · trivial
        · trivial
        · exact tx _ (List.mem_append_right _ (List.mem_map.mpr ⟨i, hi, rfl⟩))
      · rw [List.mem_map] at hm
        obtain ⟨n, hn, rfl⟩ := hm
        simp only [boundMeaning, List.mem_cons, List.not_mem_nil, or_false] at hn
        rcases hn with rfl | rfl | rfl | rfl | rfl | rfl | rfl | rfl | rfl | rfl | rfl | rfl | rfl | rfl <;>
          (dsimp only; first | trivial | (split <;> trivial))
      · rw [List.mem_map] at hm
        obtain ⟨n, hn, rfl⟩ := hm
        simp only [gapMeaning, List.mem_cons, List.not_mem_nil, or_false] at hn
        rcases hn with rfl | rfl | rfl | rfl | rfl <;> (dsimp only; unfold gapClosed; split <;> trivial)
      · simp only [summaryMeaning, List.mem_cons, List.not_mem_nil, or_false] at hm
        rcases hm with rfl | rfl | rfl | rfl | rfl | rfl | rfl | rfl <;>
          (dsimp only; apply nbb; intro s; trivial)
      · rw [List.mem_map] at hm
        obtain ⟨n, hn, rfl⟩ := hm
        simp only [probMeaning, List.mem_cons, List.not_mem_nil, or_false] at hn
        rcases hn with rfl | rfl | rfl | rfl | rfl | rfl | rfl | rfl | rfl | rfl | rfl | rfl | rfl <;> trivial
      · simp only [postMeaning, List.mem_cons, List.not_mem_nil, or_false] at hm
        rcases hm with rfl | rfl | rfl | rfl | rfl | rfl | rfl | rfl | rfl | rfl <;> trivial
      · rw [List.mem_map] at hm
        obtain ⟨n, hn, rfl⟩ := hm
        simp only [disjMeaning, List.mem_cons, List.not_mem_nil, or_false] at hn
        rcases hn with rfl | rfl | rfl | rfl | rfl | rfl | rfl | rfl | rfl | rfl | rfl | rfl <;> trivial
      · simp only [cutMeaning, List.mem_cons, List.not_mem_nil, or_false] at hm
        rcases hm with rfl | rfl | rfl | rfl | rfl | rfl | rfl | rfl | rfl | rfl <;>
          (dsimp only; first | trivial | (split <;> trivial))
      · simp only [objMeaning, List.mem_cons, List.mem_flatMap, List.not_mem_nil, or_false] at hm
        rcases hm with rfl | ⟨t, -, rfl | rfl | rfl | rfl⟩ <;> trivial
      · simp only [failMeaning, List.mem_cons, List.mem_map] at hm
        rcases hm with rfl | ⟨t, -, rfl⟩ <;> trivial
      · unfold fullMeaning at hm
        simp only [List.mem_append, List.mem_flatMap, List.mem_map, List.mem_cons, List.not_mem_nil, or_false] at hm
        rcases hm with (⟨n, -, rfl | rfl | rfl | rfl | rfl | rfl⟩ | ⟨n, -, rfl⟩) | ⟨n, -, rfl⟩ <;>
          (dsimp only; apply nbb; intro s; trivial)
      · unfold timeMeaning at hm
        rw [List.mem_map] at hm
        obtain ⟨n, -, rfl⟩ := hm
        trivial
      · simp only [wrapMeaning, List.mem_cons, List.not_mem_nil, or_false] at hm
        rcases hm with rfl | rfl | rfl | rfl | rfl | rfl | rfl | rfl | rfl | rfl | rfl | rfl | rfl
        · exact tx _ (by simp [RunData.texts])
        · exact tx _ (by simp [RunData.texts])
        · exact tx _ (by simp [RunData.texts])
        · exact tx _ (by simp [RunData.texts])
        · exact tx _ (by simp [RunData.texts])
        · exact tx _ (by simp [RunData.texts])
        · exact tx _ (by simp [RunData.texts])
        · trivial
        · exact reason_no_comma _
        · exact tx _ (by simp [RunData.texts])
        · trivial
        · exact tx _ (by simp [RunData.texts])
        · show ',' ∉ "DONE".toList
          decide +kernel
    exact key

/-- The texts of the example have no commas. -/
example : ∀ s ∈ exampleRun.texts, ',' ∉ s.toList := by decide +kernel

/-- A file name with a comma: the line has one field too many. -/
example : (splitLine (lineChars ([Cell.text "a,b", .blank].map (Cell.render fun _ => ['1'])))).length = 3 := by
  rw [commas_shift _ _ (by simp)]
  decide +kernel

end VPC
