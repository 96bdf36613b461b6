import Verif.Model.LogTable
import Verif.Props.Timer
import Mathlib.Tactic.Linarith
import Mathlib.Tactic.Ring
import Mathlib.Tactic.FieldSimp
import Mathlib.Tactic.Positivity
import Mathlib.Data.List.Nodup
import Mathlib.Data.List.Perm.Basic

/-!
# The log file: columns, gaps, counters
-/
namespace VPC

/-! ## Specification: what stands under each name -/

/-- A number; `'inf'` or `'-inf'` when it is infinite. -/
def numCell (v : ℚ) : Cell := .val (sv v)
/-- A count. -/
def cntCell (v : ℤ) : Cell := .val (svI v)

/-- What the members of `BBInfo` are called. -/
def bbMeaning : List (String × (BBInfo → Val)) :=
  [("OBJ", fun i => sv i.obj), ("BOUND", fun i => sv i.bound), ("ITERS", fun i => .int i.iters),
   ("NODES", fun i => .int i.nodes), ("ROOT_PASSES", fun i => .int i.rootPasses),
   ("FIRST_CUT_PASS", fun i => .num i.firstCutPass), ("LAST_CUT_PASS", fun i => .num i.lastCutPass),
   ("ROOT_ITERS", fun i => .int i.rootIters), ("ROOT_TIME", fun i => .num i.rootTime),
   ("LAST_SOL_TIME", fun i => .num i.lastSolTime), ("TIME", fun i => .num i.time)]

/-- The bounds: an objective value is shown if there are cuts of that type (or, for the last one, if it
is finite). -/
def boundMeaning : List (String × (BoundInfo → Cell)) :=
  [("LP OBJ", fun b => numCell b.lp),
   ("BEST DISJ OBJ", fun b => numCell b.bestDisj),
   ("WORST DISJ OBJ", fun b => numCell b.worstDisj),
   ("IP OBJ", fun b => if isInfinity |b.ip| then .blank else numCell b.ip),
   ("NUM CHANGED ROOT BOUNDS", fun b => cntCell b.rootChanged),
   ("ROOT OBJ", fun b => if isInfinity |b.root| then .blank else numCell b.root),
   ("NUM GMIC", fun b => cntCell b.numGmic),
   ("UNSTR GMIC OBJ", fun b => if b.numGmic > 0 then numCell b.unstrGmic else .blank),
   ("GMIC OBJ", fun b => if b.numGmic > 0 then numCell b.gmic else .blank),
   ("NUM L&PC", fun b => cntCell b.numLpc),
   ("L&PC OBJ", fun b => if b.numLpc > 0 then numCell b.lpc else .blank),
   ("NUM VPC", fun b => cntCell b.numVpc),
   ("VPC OBJ", fun b => if b.numVpc > 0 then numCell b.vpc else .blank),
   ("VPC+GMIC OBJ", fun b => if isInfinity |b.gmicVpc| then .blank else numCell b.gmicVpc)]

/-- The percentage of the gap between `lp` and `ip` that is closed at `x`; blank if `ip` or `x` is not
finite. -/
def gapClosed (b : BoundInfo) (x : ℚ) : Cell :=
  if isInfinity |b.ip| ∨ isInfinity |x| then .blank else .val (gapVal b x)

/-- The gaps. -/
def gapMeaning : List (String × (BoundInfo → Cell)) :=
  [("UNSTR GMIC % GAP CLOSED", fun b => gapClosed b b.unstrGmic),
   ("GMIC % GAP CLOSED", fun b => gapClosed b b.gmic),
   ("L&PC % GAP CLOSED", fun b => gapClosed b b.lpc),
   ("VPC % GAP CLOSED", fun b => gapClosed b b.vpc),
   ("GMIC+VPC % GAP CLOSED", fun b => gapClosed b b.gmicVpc)]

/-- An integer variable is fractional if its value is not within `1e-5` of an integer. -/
def fracs (p : Prob) : List ℚ :=
  ((p.cols.filter (·.isInt)).map fun c => fractionality c.val).filter fun f => !isVal f 0 (1 / 10 ^ 5)

/-- Entries per position. -/
def densityCell (p : Prob) : Cell :=
  .val (svN (fdiv (some ((p.rows.map (·.size)).sum : ℚ)) (p.rows.length * p.cols.length : ℚ)))

/-- The statistics of a problem. -/
def probMeaning : List (String × (Prob → Cell)) :=
  [("ROWS", fun p => cntCell p.rows.length),
   ("COLS", fun p => cntCell p.cols.length),
   ("NUM FRAC", fun p => cntCell (fracs p).length),
   ("MIN FRACTIONALITY", fun p => numCell ((fracs p).foldr min 1)),
   ("MAX FRACTIONALITY", fun p => numCell ((fracs p).foldr max 0)),
   ("EQ ROWS", fun p => cntCell (p.rows.countP fun r => isVal r.lo r.hi)),
   ("BOUND ROWS", fun p => cntCell (p.rows.countP fun r => r.size == 1 && !isVal r.lo r.hi)),
   ("ASSIGN ROWS", fun p => cntCell (p.rows.countP fun r => r.size == 1 && isVal r.lo r.hi)),
   ("FIXED COLS", fun p => cntCell (p.cols.countP fun c => isVal c.lo c.hi)),
   ("GEN INT", fun p => cntCell (p.cols.countP fun c => c.isInt && !c.isBin)),
   ("BINARY", fun p => cntCell (p.cols.countP fun c => c.isInt && c.isBin)),
   ("CONTINUOUS", fun p => cntCell (p.cols.countP fun c => !c.isInt)),
   ("A-DENSITY", densityCell)]

/-- The problem with the cuts, and the cuts that are active at the optimum with only the Gomory cuts,
only the VPCs, or all of them. -/
def postMeaning : List (String × (RunData → Cell)) :=
  [("NEW NUM FRAC", fun d => cntCell (fracs d.post).length),
   ("NEW MIN FRACTIONALITY", fun d => numCell ((fracs d.post).foldr min 1)),
   ("NEW MAX FRACTIONALITY", fun d => numCell ((fracs d.post).foldr max 0)),
   ("NEW A-DENSITY", fun d => densityCell d.post),
   ("ACTIVE GMIC (gmics)", fun d => cntCell d.gmics.activeGmic),
   ("ACTIVE VPC (gmics)", fun d => cntCell d.vpcs.activeGmic),
   ("ACTIVE GMIC (vpcs)", fun d => cntCell d.gmics.activeVpc),
   ("ACTIVE VPC (vpcs)", fun d => cntCell d.vpcs.activeVpc),
   ("ACTIVE GMIC (all cuts)", fun d => cntCell d.gmics.activeAll),
   ("ACTIVE VPC (all cuts)", fun d => cntCell d.vpcs.activeAll)]

/-- The disjunctions. -/
def disjMeaning : List (String × (DisjInfo → Cell)) :=
  [("NUM DISJ TERMS", fun d => numCell d.avgTerms),
   ("NUM INTEGER SOL", fun d => cntCell d.numIntSol),
   ("NUM DISJ", fun d => cntCell d.numDisj),
   ("AVG DENSITY PRLP", fun d => numCell d.avgDensity),
   ("AVG ROWS PRLP", fun d => numCell (d.avgOther 0)),
   ("AVG COLS PRLP", fun d => numCell (d.avgOther 1)),
   ("AVG POINTS PRLP", fun d => numCell (d.avgOther 2)),
   ("AVG RAYS PRLP", fun d => numCell (d.avgOther 3)),
   ("AVG PARTIAL BB EXPLORED NODES", fun d => numCell (d.avgOther 4)),
   ("AVG PARTIAL BB PRUNED NODES", fun d => numCell (d.avgOther 5)),
   ("AVG PARTIAL BB MIN DEPTH", fun d => numCell (d.avgOther 6)),
   ("AVG PARTIAL BB MAX DEPTH", fun d => numCell (d.avgOther 7))]

/-- Entry of a counter vector; an empty vector counts as zero. -/
def count0 {κ : Type} (a : Option (κ → ℤ)) (k : κ) : ℤ := match a with | some f => f k | none => 0

/-- The counter if `b`, zero otherwise. -/
def cntIf (b : Bool) (v : ℤ) : Cell := cntCell (if b then v else 0)

/-- The cuts: `MIN SUPPORT` etc. are zero if there are no cuts. -/
def cutMeaning : List (String × (RunData → Cell)) :=
  [("NUM ROUNDS", fun d => cntCell d.vpcs.rounds),
   ("NUM CUTS", fun d => cntCell d.vpcs.numCuts),
   ("NUM ONE SIDED CUTS", fun d => cntIf (d.vpcs.numCuts > 0) (count0 d.vpcs.ofType .ONE_SIDED_CUT)),
   ("NUM OPTIMALITY CUTS", fun d => cntIf (d.vpcs.numCuts > 0) (count0 d.vpcs.ofType .OPTIMALITY_CUT)),
   ("MIN SUPPORT VPC", fun d => cntIf (d.vpcs.numCuts > 0) d.vpcs.minSupport),
   ("MAX SUPPORT VPC", fun d => cntIf (d.vpcs.numCuts > 0) d.vpcs.maxSupport),
   ("AVG SUPPORT VPC", fun d => if d.vpcs.numCuts > 0 then .val (svN d.vpcs.avgSupport) else cntCell 0),
   ("MIN SUPPORT GOMORY", fun d => cntIf (d.gmics.numCuts > 0) d.gmics.minSupport),
   ("MAX SUPPORT GOMORY", fun d => cntIf (d.gmics.numCuts > 0) d.gmics.maxSupport),
   ("AVG SUPPORT GOMORY", fun d => if d.gmics.numCuts > 0 then .val (svN d.gmics.avgSupport) else cntCell 0)]

/-- The objectives: the counters are shown only if an objective has been tried. -/
def objMeaning : List (String × (RunData → Cell)) :=
  ("NUM OBJ", fun d => cntCell d.vpcs.objTried) :: ObjType.all.flatMap fun t =>
    [("NUM OBJ " ++ t.name, fun d => cntIf (d.vpcs.objTried > 0) (count0 d.vpcs.objHeur t)),
     ("NUM CUTS " ++ t.name, fun d => cntIf (d.vpcs.objTried > 0) (count0 d.vpcs.cutsHeur t)),
     ("NUM FAILS " ++ t.name, fun d => cntIf (d.vpcs.objTried > 0) (count0 d.vpcs.failsHeur t)),
     ("NUM ACTIVE " ++ t.name, fun d => cntIf (d.vpcs.objTried > 0) (count0 d.vpcs.activeHeur t))]

/-- The failures: the counters are shown only if there is a failure. -/
def failMeaning : List (String × (RunData → Cell)) :=
  ("NUM FAILS", fun d => cntCell d.vpcs.failures) :: Fail.all.map fun t =>
    (t.name, fun d => cntIf (d.vpcs.failures > 0) (count0 d.vpcs.fails t))

/-- A statistic of the branch-and-bound runs without cuts (`false`) or with the VPCs (`true`); blank if
no runs are asked for. -/
def bbCell (d : RunData) (cuts : Bool) (f : SummaryBB → Cell) : Cell :=
  if d.bbRuns = 0 then .blank else f (if cuts then d.myCuts else d.noCuts)

/-- The summary of branch and bound. -/
def summaryMeaning : List (String × (RunData → Cell)) :=
  [("FIRST REF NODES", fun d => bbCell d false fun s => .val (.int s.first.nodes)),
   ("FIRST REF+V NODES", fun d => bbCell d true fun s => .val (.int s.first.nodes)),
   ("BEST REF NODES", fun d => bbCell d false fun s => .val (.int s.best.nodes)),
   ("BEST REF+V NODES", fun d => bbCell d true fun s => .val (.int s.best.nodes)),
   ("FIRST REF TIME", fun d => bbCell d false fun s => .val (.num s.first.time)),
   ("FIRST REF+V TIME", fun d => bbCell d true fun s => .val (.num s.first.time)),
   ("BEST REF TIME", fun d => bbCell d false fun s => .val (.num s.best.time)),
   ("BEST REF+V TIME", fun d => bbCell d true fun s => .val (.num s.best.time))]

/-- Everything about branch and bound. -/
def fullMeaning : List (String × (RunData → Cell)) :=
  (bbMeaning.flatMap fun m =>
    [("FIRST REF " ++ m.1, fun d => bbCell d false fun s => .val (m.2 s.first)),
     ("FIRST REF+V " ++ m.1, fun d => bbCell d true fun s => .val (m.2 s.first)),
     ("BEST REF " ++ m.1, fun d => bbCell d false fun s => .val (m.2 s.best)),
     ("BEST REF+V " ++ m.1, fun d => bbCell d true fun s => .val (m.2 s.best)),
     ("AVG REF " ++ m.1, fun d => bbCell d false fun s => .val (m.2 s.avg)),
     ("AVG REF+V " ++ m.1, fun d => bbCell d true fun s => .val (m.2 s.avg))])
  ++ (bbMeaning.map fun m => ("ALL REF " ++ m.1, fun d => bbCell d false fun s => .join (s.vec.map m.2)))
  ++ bbMeaning.map fun m => ("ALL REF+V " ++ m.1, fun d => bbCell d true fun s => .join (s.vec.map m.2))

/-- The seconds counted by the timer with that name. -/
def timeMeaning : List (String × (RunData → Cell)) :=
  timeNames.map fun n => (n, fun d => .val (.num ((d.timer.getValue n : ℚ) / 1000000)))

/-- Versions, machine, and how the run ended. -/
def wrapMeaning : List (String × (RunData → Cell)) :=
  [("vpc_version", fun d => .text d.wrap.vpcVersion), ("cbc_version", fun d => .text d.wrap.cbcVersion),
   ("clp_version", fun d => .text d.wrap.clpVersion),
   ("gurobi_version", fun d => .text d.wrap.gurobiVersion),
   ("cplex_version", fun d => .text d.wrap.cplexVersion), ("hostname", fun d => .text d.wrap.host),
   ("cpu_model", fun d => .text d.wrap.cpuModel), ("cpu_id", fun d => .val (.int d.wrap.cpuId)),
   ("ExitReason", fun d => .text d.wrap.reason.name), ("end_time_string", fun d => .text d.wrap.endTime),
   ("time elapsed", fun d => .val (.num d.wrap.elapsed)), ("instname", fun d => .text d.wrap.inst),
   ("end", fun _ => .text "DONE")]

/-- The parameters, in whatever order they are visited. -/
def paramMeaning (p : Params) (o : ParamOrder) : List (String × (RunData → Cell)) :=
  o.ints.map (fun i => (lowerCase (p.ints i).name, fun d => cntCell (d.params.getI i)))
  ++ o.dbls.map (fun i => (lowerCase (p.dbls i).name, fun d => numCell (d.params.getD i)))
  ++ o.strs.map fun i => (lowerCase (p.strs i).1, fun d => .text (d.params.getS i))

/-- The whole table: the names in the header, and what must stand below. -/
def logTable (p : Params) (o : ParamOrder) : List (String × (RunData → Cell)) :=
  ("INSTANCE", fun d => .text d.wrap.inst) :: paramMeaning p o
  ++ boundMeaning.map (fun m => (m.1, fun d => m.2 d.bound))
  ++ gapMeaning.map (fun m => (m.1, fun d => m.2 d.bound))
  ++ summaryMeaning
  ++ probMeaning.map (fun m => (m.1, fun d => m.2 d.orig))
  ++ postMeaning
  ++ disjMeaning.map (fun m => (m.1, fun d => m.2 d.disj))
  ++ cutMeaning ++ objMeaning ++ failMeaning ++ fullMeaning ++ timeMeaning ++ wrapMeaning

/-- The timers of the program: the names of `timeNames` are registered at the start, and no other name
after that. -/
def MainTimer (t : TimeStats) : Prop :=
  ∃ (now : Int) (h : List (TOp × Int)), (∀ x ∈ h, ∀ nm i, x.1 ≠ .register nm i) ∧
    TimeStats.empty.run (timeNames.map (fun n => (TOp.register n 0, now)) ++ h) = some t

/-! ## Blocks -/

theorem printBound_eq (b : BoundInfo) : printBound b = boundMeaning.map (·.2 b) := by
  simp only [printBound, boundMeaning, finiteCell, ifCuts, numCell, cntCell, List.map_cons, List.map_nil]

theorem printGap_eq (b : BoundInfo) : printGap b = gapMeaning.map (·.2 b) := by
  unfold printGap gapMeaning gapClosed gapCell
  by_cases h : isInfinity |b.ip| = true
  · simp [h]
  · simp [h]

theorem printDisj_eq (d : DisjInfo) : printDisj d = disjMeaning.map (·.2 d) := rfl

theorem rowStats_eq (l : List StatRow) (s : RowStats) :
    (l.foldl rowStep s).eq = s.eq + l.countP (fun r => isVal r.lo r.hi)
    ∧ (l.foldl rowStep s).bound = s.bound + l.countP (fun r => r.size == 1 && !isVal r.lo r.hi)
    ∧ (l.foldl rowStep s).assign = s.assign + l.countP (fun r => r.size == 1 && isVal r.lo r.hi) := by
  induction l generalizing s with
  | nil => simp
  | cons r l ih =>
    simp only [List.foldl_cons, List.countP_cons]
    obtain ⟨h1, h2, h3⟩ := ih (rowStep s r)
    rw [h1, h2, h3]
    unfold rowStep
    by_cases he : isVal r.lo r.hi = true <;> by_cases hs : r.size = 1 <;> simp [he, hs] <;> omega

/-- The values that count: those of `fracs`. -/
def fracOf (l : List ℚ) : List ℚ := (l.map fractionality).filter fun f => !isVal f 0 (1 / 10 ^ 5)

theorem fracStats_eq (l : List ℚ) (s : FracStats) :
    (l.foldl fracStep s).num = s.num + (fracOf l).length
    ∧ (l.foldl fracStep s).mn = (fracOf l).foldr min s.mn
    ∧ (l.foldl fracStep s).mx = (fracOf l).foldr max s.mx := by
  induction l generalizing s with
  | nil => simp [fracOf]
  | cons v l ih =>
    simp only [List.foldl_cons]
    obtain ⟨h1, h2, h3⟩ := ih (fracStep s v)
    rw [h1, h2, h3]
    have hmin : ∀ (l : List ℚ) (a b : ℚ), l.foldr min (min a b) = min a (l.foldr min b) := by
      intro l a b
      induction l with
      | nil => rfl
      | cons x l ih => simp only [List.foldr_cons, ih]; exact min_left_comm _ _ _
    have hmax : ∀ (l : List ℚ) (a b : ℚ), l.foldr max (max a b) = max a (l.foldr max b) := by
      intro l a b
      induction l with
      | nil => rfl
      | cons x l ih => simp only [List.foldr_cons, ih]; exact max_left_comm _ _ _
    unfold fracStep
    by_cases hf : isVal (fractionality v) 0 (1 / 10 ^ 5) = true
    · have : fracOf (v :: l) = fracOf l := by
        unfold fracOf
        rw [List.map_cons, List.filter_cons_of_neg (by rw [hf]; decide)]
      rw [this]
      simp only [hf, if_true, and_self]
    · have : fracOf (v :: l) = fractionality v :: fracOf l := by
        unfold fracOf
        rw [List.map_cons, List.filter_cons_of_pos (by rw [Bool.eq_false_of_not_eq_true hf]; decide)]
      rw [this]
      have hmn : (if fractionality v < s.mn then fractionality v else s.mn) = min (fractionality v) s.mn := by
        split
        · rw [min_eq_left (le_of_lt ‹_›)]
        · rw [min_eq_right (not_lt.mp ‹_›)]
      have hmx : (if fractionality v > s.mx then fractionality v else s.mx) = max (fractionality v) s.mx := by
        split
        · rw [max_eq_left (le_of_lt ‹_›)]
        · rw [max_eq_right (not_lt.mp ‹_›)]
      simp only [hf, Bool.false_eq_true, if_false, hmn, hmx, hmin, hmax, List.length_cons, List.foldr_cons,
        and_true]
      omega

theorem colStats_eq (l : List StatCol) (s : ColStats) :
    (l.foldl colStep s).fixed = s.fixed + l.countP (fun c => isVal c.lo c.hi)
    ∧ (l.foldl colStep s).cont = s.cont + l.countP (fun c => !c.isInt)
    ∧ (l.foldl colStep s).bin = s.bin + l.countP (fun c => c.isInt && c.isBin)
    ∧ (l.foldl colStep s).gen = s.gen + l.countP (fun c => c.isInt && !c.isBin)
    ∧ (l.foldl colStep s).frac = ((l.filter (·.isInt)).map (·.val)).foldl fracStep s.frac := by
  induction l generalizing s with
  | nil => simp
  | cons c l ih =>
    simp only [List.foldl_cons, List.countP_cons]
    obtain ⟨h1, h2, h3, h4, h5⟩ := ih (colStep s c)
    rw [h1, h2, h3, h4, h5]
    unfold colStep
    by_cases he : isVal c.lo c.hi = true <;> by_cases hi : c.isInt = true <;> by_cases hb : c.isBin = true <;>
      simp [he, hi, hb] <;> omega

theorem fracs_eq (p : Prob) : fracs p = fracOf ((p.cols.filter (·.isInt)).map (·.val)) := by
  unfold fracs fracOf
  rw [List.map_map]
  rfl

theorem density_ok {p : Prob} {c : Cell} (h : density p = .ok c) : c = densityCell p := by
  unfold density at h
  split at h
  · cases h
  · cases h; rfl

theorem printOrig_eq {p : Prob} {l : List Cell} (h : printOrig p = .ok l) :
    l = probMeaning.map (·.2 p) := by
  unfold printOrig at h
  dsimp only at h
  obtain ⟨d, hd, h⟩ := Res.bind_ok h
  cases h
  obtain ⟨r1, r2, r3⟩ := rowStats_eq p.rows {}
  obtain ⟨c1, c2, c3, c4, c5⟩ := colStats_eq p.cols {}
  obtain ⟨f1, f2, f3⟩ := fracStats_eq ((p.cols.filter (·.isInt)).map (·.val)) {}
  rw [density_ok hd, r1, r2, r3, c1, c2, c3, c4, c5, f1, f2, f3, ← fracs_eq]
  simp only [probMeaning, List.map_cons, List.map_nil, cntCell, numCell, Nat.zero_add]

theorem printPost_eq {d : RunData} {l : List Cell} (h : printPost d.post d.gmics d.vpcs = .ok l) :
    l = postMeaning.map (·.2 d) := by
  unfold printPost at h
  dsimp only at h
  obtain ⟨e, he, h⟩ := Res.bind_ok h
  cases h
  have hf : (d.post.cols.filter (·.isInt)).foldl (fun s c => fracStep s c.val) {} =
      ((d.post.cols.filter (·.isInt)).map (·.val)).foldl fracStep {} := by
    rw [List.foldl_map]
  obtain ⟨f1, f2, f3⟩ := fracStats_eq ((d.post.cols.filter (·.isInt)).map (·.val)) {}
  rw [density_ok he, hf, f1, f2, f3, ← fracs_eq]
  simp only [postMeaning, List.map_cons, List.map_nil, cntCell, numCell, Nat.zero_add]

theorem printCut_eq {d : RunData} {l : List Cell} (h : printCut d.gmics d.vpcs = .ok l) :
    l = (cutMeaning ++ objMeaning ++ failMeaning).map (·.2 d) := by
  unfold printCut at h
  obtain ⟨t, ht, h⟩ := Res.bind_ok h
  obtain ⟨u, hu, h⟩ := Res.bind_ok h
  obtain ⟨f, hf, h⟩ := Res.bind_ok h
  cases h
  have ht' : t = [cntIf (d.vpcs.numCuts > 0) (count0 d.vpcs.ofType .ONE_SIDED_CUT),
      cntIf (d.vpcs.numCuts > 0) (count0 d.vpcs.ofType .OPTIMALITY_CUT)] := by
    unfold typeCells at ht
    by_cases hc : d.vpcs.numCuts > 0
    · rw [if_pos hc] at ht
      cases ho : d.vpcs.ofType with
      | none => rw [ho] at ht; cases ht
      | some g => rw [ho] at ht; cases ht; simp [cntIf, cntCell, hc, count0]
    · rw [if_neg hc] at ht; cases ht; simp [cntIf, cntCell, hc, zeroCell]
  have hu' : u = ObjType.all.flatMap fun t =>
      [cntIf (d.vpcs.objTried > 0) (count0 d.vpcs.objHeur t), cntIf (d.vpcs.objTried > 0) (count0 d.vpcs.cutsHeur t),
       cntIf (d.vpcs.objTried > 0) (count0 d.vpcs.failsHeur t),
       cntIf (d.vpcs.objTried > 0) (count0 d.vpcs.activeHeur t)] := by
    unfold heurCells at hu
    by_cases hc : d.vpcs.objTried > 0
    · rw [if_pos hc] at hu
      split at hu
      · rename_i o k g a h1 h2 h3 h4
        cases hu
        simp [cntIf, cntCell, hc, count0, h1, h2, h3, h4]
      · cases hu
    · rw [if_neg hc] at hu; cases hu; simp [cntIf, cntCell, hc, zeroCell]
  have hf' : f = Fail.all.map fun t => cntIf (d.vpcs.failures > 0) (count0 d.vpcs.fails t) := by
    unfold failCells at hf
    by_cases hc : d.vpcs.failures > 0
    · rw [if_pos hc] at hf
      cases ho : d.vpcs.fails with
      | none => rw [ho] at hf; cases hf
      | some g => rw [ho] at hf; cases hf; simp [cntIf, cntCell, hc, count0]
    · rw [if_neg hc] at hf; cases hf; simp [cntIf, cntCell, hc, zeroCell]
  have hs : ∀ c : CutInfo, supportCells c = [cntIf (c.numCuts > 0) c.minSupport, cntIf (c.numCuts > 0) c.maxSupport,
      if c.numCuts > 0 then .val (svN c.avgSupport) else cntCell 0] := by
    intro c
    unfold supportCells
    by_cases hc : c.numCuts > 0 <;> simp [hc, cntIf, cntCell, zeroCell]
  rw [ht', hu', hf', hs, hs]
  simp only [List.map_append, objMeaning, failMeaning, cutMeaning, List.map_cons, List.map_nil, List.map_flatMap,
    List.map_map, Function.comp_def, List.cons_append, List.nil_append, List.append_assoc, cntCell]

theorem printSummaryBB_two (a b : SummaryBB) (bl : Bool) :
    printSummaryBB [a, b] bl = .ok
      (if bl then List.replicate 8 .blank else
        [.val (.int a.first.nodes), .val (.int b.first.nodes), .val (.int a.best.nodes), .val (.int b.best.nodes),
         .val (.num a.first.time), .val (.num b.first.time), .val (.num a.best.time), .val (.num b.best.time)]) := by
  cases bl <;> rfl

theorem printFullBB_two (a b : SummaryBB) (bl : Bool) :
    printFullBB [a, b] bl = .ok
      (if bl then List.replicate 88 .blank else
        (bbPrinters.flatMap fun f => [.val (f a.first), .val (f b.first), .val (f a.best), .val (f b.best),
          .val (f a.avg), .val (f b.avg)])
        ++ (bbPrinters.map fun f => .join (a.vec.map f)) ++ (bbPrinters.map fun f => .join (b.vec.map f))) := by
  cases bl <;> rfl

theorem summary_eq (d : RunData) :
    printSummaryBB [d.noCuts, d.myCuts] (d.bbRuns == 0) = .ok (summaryMeaning.map (·.2 d)) := by
  rw [printSummaryBB_two]
  by_cases h : d.bbRuns = 0 <;> simp [h, summaryMeaning, bbCell]

theorem full_eq (d : RunData) :
    printFullBB [d.noCuts, d.myCuts] (d.bbRuns == 0) = .ok (fullMeaning.map (·.2 d)) := by
  rw [printFullBB_two]
  by_cases h : d.bbRuns = 0
  · simp [h, fullMeaning, bbMeaning, bbCell]
  · simp [h, fullMeaning, bbMeaning, bbCell, bbPrinters]

end VPC
