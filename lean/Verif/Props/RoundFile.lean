import Verif.Model.RoundFile
import Verif.Props.Files
import Verif.Props.Names
import Verif.Props.Timer
import Verif.Props.Rounds

/-!
# C121, C122: the table of the rounds, and the times of the rounds
-/
namespace VPC

/-! ## The name of the file -/

theorem svIText_eq {v : ℤ} (h : |v| < intMax) : svIText v = intStr v := by
  have h1 := abs_lt.mp h
  unfold svIText svI
  rw [if_neg (by omega), if_neg (by omega)]

theorem d_notMem_intStr (n : ℤ) : 'd' ∉ intStr n := by
  intro h
  rcases intStr_chars h with h | h
  · exact absurd h (by decide)
  · exact absurd h (by decide)

/-- **C121 (name).** With a log file, tables of different instances or of different numbers of terms have different
names. -/
theorem round_name_injective {log inst inst' : List Char} {t t' : ℤ} (hl : log ≠ []) (ht : |t| < intMax)
    (ht' : |t'| < intMax) (h : roundFileName log inst t = roundFileName log inst' t') :
    inst = inst' ∧ t = t' := by
  unfold roundFileName roundFileStem at h
  rw [if_neg hl, if_neg hl, svIText_eq ht, svIText_eq ht'] at h
  have h1 := List.append_cancel_right h
  have e : ∀ (a : List Char) (n : ℤ), lastSplit (fun c => decide (c = 'd')) (a ++ "_d".toList ++ intStr n) =
      some (a ++ ['_'], intStr n) := by
    intro a n
    have e1 : a ++ "_d".toList ++ intStr n = (a ++ ['_']) ++ 'd' :: intStr n := by
      have : "_d".toList = ['_', 'd'] := rfl
      rw [this]
      simp
    rw [e1]
    apply lastSplit_append
    · simp
    · intro x hx
      have := d_notMem_intStr n
      simp only [decide_eq_false_iff_not]
      rintro rfl
      exact this hx
  have h2 := congrArg (lastSplit fun c => decide (c = 'd')) h1
  rw [e, e, Option.some.injEq, Prod.mk.injEq] at h2
  obtain ⟨h3, h4⟩ := h2
  have h5 := List.append_cancel_left (List.append_cancel_right h3)
  refine ⟨h5, ?_⟩
  have := readNumber_intStr t
  rw [h4, readNumber_intStr] at this
  exact (Option.some.inj this).symm

example : roundFileName "out/vpc.log".toList "bell5".toList 16 = "out/cutrounds_bell5_d16.csv".toList ∧
    "out/vpc.log".toList ≠ [] ∧ |(16 : ℤ)| < intMax := by decide +kernel

/-- **C121 (name, negation).** Without a log file the name does not depend on the instance: a run overwrites the table
of another instance. -/
theorem round_name_no_log (inst inst' : List Char) (t : ℤ) :
    roundFileName [] inst t = roundFileName [] inst' t := by
  unfold roundFileName roundFileStem
  rw [if_pos rfl, if_pos rfl]

/-- **C121 (place).** The table is put into the directory of the log file, if the name of the log file has an
extension. -/
theorem round_place (d n e inst : List Char) (t : ℤ) (hn : ∀ x ∈ n, ¬ IsSlash x) (he : '.' ∉ e)
    (ha : ¬ IsArchive e) :
    ∃ rest, roundFileName (d ++ '/' :: n ++ '.' :: e) inst t = d ++ '/' :: rest ∧ '/' ∉ rest.take 10 ∧
      rest = "cutrounds_".toList ++ inst ++ "_d".toList ++ svIText t ++ ".csv".toList := by
  refine ⟨_, ?_, ?_, rfl⟩
  · unfold roundFileName roundFileStem
    rw [if_neg (by simp), (parse_plain _ d n e '/' (.inl rfl) hn he ha).1]
    have : "/cutrounds_".toList = '/' :: "cutrounds_".toList := rfl
    rw [this]
    simp
  · have : ("cutrounds_".toList ++ inst ++ "_d".toList ++ svIText t ++ ".csv".toList).take 10 =
        "cutrounds_".toList := by
      rw [List.append_assoc, List.append_assoc, List.append_assoc, List.take_left']
      rfl
    rw [this]
    decide

/-- **C121 (place, negation).** If the name of the log file has no extension, the table is put into the root
directory, whatever the directory of the log is. -/
theorem round_place_wrong (log inst : List Char) (t : ℤ) (hl : log ≠ []) (hd : '.' ∉ log) :
    ∃ rest, roundFileName log inst t = "/cutrounds_".toList ++ rest := by
  have h : lastSplit (fun c => decide (c = '.')) log = none := by
    rw [lastSplit_none]
    intro x hx
    simp only [decide_eq_false_iff_not]
    rintro rfl
    exact hd hx
  unfold roundFileName roundFileStem
  rw [if_neg hl]
  unfold parseFilename
  rw [h]
  exact ⟨_, by simp only [List.nil_append, List.append_assoc]; rfl⟩

example : roundFileName "out/log".toList "a".toList 4 = "/cutrounds_a_d4.csv".toList := by decide +kernel

/-! ## The contents -/

theorem assertAll_ok {n : ℕ} : ∀ {ls : List (List Cell)}, (∀ l ∈ ls, l.length = n) → assertAll n ls = .ok ls
  | [], _ => rfl
  | l :: ls, h => by
    have h1 : assertCount n l = .ok l := by
      unfold assertCount
      rw [if_pos (h l (by simp))]
    unfold assertAll
    rw [h1, assertAll_ok fun x hx => h x (by simp [hx])]
    rfl

/-- What the columns of a line mean (specification): name, and the value for a round. The density of a set of cuts is
the percentage of nonzeros, 0 if there are no cuts. -/
def roundMeaning (cols r : ℕ) (x : RoundRec) : List (String × Cell) :=
  [("bound_gmic", .val (sv x.bounds.gmic)), ("bound_vpc", .val (sv x.bounds.vpc)),
   ("bound_all_cuts", .val (sv x.bounds.all)), ("num_gmic", .val (.int x.numGmic)),
   ("min_density_gmic", roundDensity x.numGmic (some x.gmicInfo.minSupport) cols),
   ("max_density_gmic", roundDensity x.numGmic (some x.gmicInfo.maxSupport) cols),
   ("avg_density_gmic", roundDensity x.numGmic x.gmicInfo.avgSupport cols),
   ("gmic_gen_time", .val (.num x.times.gmicGen)), ("gmic_apply_time", .val (.num x.times.gmicApply)),
   ("num_vpc", .val (.int x.numVpc)),
   ("min_density_vpc", roundDensity x.numVpc (some x.vpcInfo.minSupport) cols),
   ("max_density_vpc", roundDensity x.numVpc (some x.vpcInfo.maxSupport) cols),
   ("avg_density_vpc", roundDensity x.numVpc x.vpcInfo.avgSupport cols),
   ("vpc_gen_time", .val (.num x.times.vpcGen)), ("vpc_apply_time", .val (.num x.times.vpcApply))]

/-- What the line of the relaxation means (specification): round 0, the LP value as bound under every column of bounds,
no cuts, the time of the initial solve as time of application. -/
def zeroMeaning (lp initTime : ℚ) : List (String × Cell) :=
  [("bound_gmic", .val (sv lp)), ("bound_vpc", .val (sv lp)), ("bound_all_cuts", .val (sv lp)),
   ("num_gmic", .val (.int 0)), ("min_density_gmic", .val (.num 0)), ("max_density_gmic", .val (.num 0)),
   ("avg_density_gmic", .val (.num 0)), ("gmic_gen_time", .val (.num 0)), ("gmic_apply_time", .val (.num initTime)),
   ("num_vpc", .val (.int 0)), ("min_density_vpc", .val (.num 0)), ("max_density_vpc", .val (.num 0)),
   ("avg_density_vpc", .val (.num 0)), ("vpc_gen_time", .val (.num 0)), ("vpc_apply_time", .val (.num initTime))]

/-- **C121 (densities).** Without cuts the density is 0; with cuts it is the percentage, unless that is infinite
or at least `10^100`. -/
theorem round_density_value {num : ℤ} {cols : ℕ} {v : ℚ} (hc : 0 < cols) (hv : 0 ≤ 100 * v / cols)
    (hb : 100 * v / cols < 10 ^ 100 - 1) :
    roundDensity num (some v) cols = .val (.num (if 0 < num then 100 * v / cols else 0)) := by
  have key : ∀ q : ℚ, 0 ≤ q → q < 10 ^ 100 - 1 → svDens (some q) = .num q := by
    intro q h0 h1
    unfold svDens
    have e1 : isInfinity q (10 ^ 100) = false := by
      unfold isInfinity lessThanVal
      have : (defEps : ℚ) < 1 := by norm_num [defEps]
      simp only [Bool.or_eq_false_iff, decide_eq_false_iff_not, Bool.not_eq_false', decide_eq_true_iff]
      constructor
      · linarith
      · linarith
    have e2 : isNegInfinity q (-(10 ^ 100)) = false := by
      unfold isNegInfinity greaterThanVal
      have : (defEps : ℚ) < 1 := by norm_num [defEps]
      simp only [Bool.or_eq_false_iff, decide_eq_false_iff_not, Bool.not_eq_false', decide_eq_true_iff]
      constructor
      · linarith
      · linarith
    simp only [e1, e2]
    rfl
  unfold roundDensity
  by_cases h : 0 < num
  · have hf : fdiv ((some v).map (100 * ·)) (cols : ℚ) = some (100 * v / cols) := by
      unfold fdiv
      have : (cols : ℚ) ≠ 0 := by positivity
      simp [this]
    rw [if_pos h, if_pos (show num > 0 from h), hf, key _ hv hb]
  · rw [if_neg h, if_neg (show ¬ num > 0 from h), key 0 (le_refl 0) (by norm_num)]

example : roundDensity 3 (some 4) 8 = .val (.num 50) ∧ roundDensity 0 (some (-1)) 8 = .val (.num 0) := by
  decide +kernel

/-- A huge minimum is still written as a number: 10^99 is not infinity here, but 10^100 is. -/
example : roundDensity 3 (some (10 ^ 97)) 1 = .val (.num (10 ^ 99)) ∧
    roundDensity 3 (some (10 ^ 98)) 1 = .val .inf ∧ roundDensity 3 none 1 = .val .inf := by decide +kernel

/-- **C121 (columns).** No assertion fails; the table consists of the header, the line of round 0 and one line for
each round in order; all have 16 fields; the field under a name is the value of that name for that
round, the first field is the number of the round. -/
theorem round_table (inst : String) (lp initTime : ℚ) (cols : ℕ) (rs : List RoundRec) :
    ∃ t, roundTable inst lp initTime cols rs = .ok t ∧ t.length = rs.length + 2 ∧
      (∀ l ∈ t, l.length = 16) ∧
      t[0]? = some ((roundHeader inst).map Cell.text) ∧ t[1]? = some (.val (.int 0) :: (zeroMeaning lp initTime).map (·.2)) ∧
      (roundHeader inst).tail = (zeroMeaning lp initTime).map (·.1) ∧
      ∀ r x, rs[r]? = some x → ∃ l, t[r + 2]? = some l ∧ l[0]? = some (.val (.int (r + 1))) ∧
        l.tail = (roundMeaning cols r x).map (·.2) ∧
        (roundHeader inst).tail = (roundMeaning cols r x).map (·.1) := by
  have hlen : ∀ l ∈ (roundHeader inst).map Cell.text :: roundZero lp initTime ::
      rs.mapIdx (fun r x => roundLine cols r x), l.length = 16 := by
    intro l hl
    simp only [List.mem_cons, List.mem_mapIdx] at hl
    rcases hl with rfl | rfl | ⟨i, hi, rfl⟩
    · rfl
    · rfl
    · rfl
  refine ⟨_, assertAll_ok hlen, by simp, hlen, rfl, rfl, rfl, fun r x hx => ?_⟩
  refine ⟨roundLine cols r x, ?_, rfl, rfl, rfl⟩
  rw [List.getElem?_cons_succ, List.getElem?_cons_succ, List.getElem?_mapIdx, hx]
  rfl

/-- **C121 (one line per round).** For the rounds of a run, whatever happens in them: the table has one line for each
round that is reported, and the numbers of cuts in it are those of the cuts collected in that round. -/
theorem round_lines (c : MainCfg) (w : ℕ → RoundWorld) (ROUNDS : ℕ) (terms : ℤ) (s : MainState) (n : ℕ)
    (h : mainRounds c w ROUNDS terms = .ok (s, n)) (rs : List RoundRec)
    (hr : rs.map (fun x => (x.numVpc, x.numGmic)) = s.infos.map fun i => (i.numVpc, i.numGmic))
    (inst : String) (lp initTime : ℚ) (cols : ℕ) (t : List (List Cell))
    (ht : roundTable inst lp initTime cols rs = .ok t) :
    t.length = n + 2 ∧ ∀ r cuts, s.byRound[r]? = some cuts →
      ∃ l, t[r + 2]? = some l ∧ l[10]? = some (.val (.int cuts.length)) := by
  obtain ⟨-, -, -, h4, h5, h6, h7⟩ := rounds_totals c w ROUNDS terms s n h
  obtain ⟨t', ht', e1, e2, -, -, -, e3⟩ := round_table inst lp initTime cols rs
  rw [ht] at ht'
  cases ht'
  have hl : rs.length = s.infos.length := by simpa using congrArg List.length hr
  refine ⟨by omega, fun r cuts hc => ?_⟩
  have hlt : r < s.byRound.length := by
    by_contra hge
    rw [List.getElem?_eq_none (by omega)] at hc
    exact absurd hc (by simp)
  have h8 : r < rs.length := by omega
  obtain ⟨l, hl1, -, hl3, -⟩ := e3 r rs[r] (List.getElem?_eq_getElem h8)
  refine ⟨l, hl1, ?_⟩
  have h9 : l[10]? = ((roundMeaning cols r rs[r]).map (·.2))[9]? := by
    rw [← hl3]
    cases l with
    | nil => rfl
    | cons a l => simp
  rw [h9]
  have h10 := congrArg (·[r]?) hr
  simp only [List.getElem?_map, List.getElem?_eq_getElem h8] at h10
  have h11 : r < s.infos.length := by omega
  rw [List.getElem?_eq_getElem h11] at h10
  simp only [Option.map_some, Option.some.injEq, Prod.mk.injEq] at h10
  have := h7 r s.infos[r] cuts (List.getElem?_eq_getElem h11) hc
  simp only [roundMeaning, List.map_cons]
  rw [h10.1, this]
  rfl

/-- **C121 (requested).** The table is written exactly if the option is on, under its name, replacing what was there;
no other file is touched; without the option nothing is written. -/
theorem round_written {temp : ℤ} {canOpen : List Char → Bool} {name : List Char} {t : List (List Cell)}
    {fs fs' : FileSys} (h : writeRounds temp canOpen name (.ok t) fs = .ok fs') :
    (useTemp (BitVec.ofInt 32 temp) .PRINT_BOUND_BY_ROUND = true → canOpen name = true ∧ fs' name = some t ∧
      ∀ f, f ≠ name → fs' f = fs f) ∧
    (useTemp (BitVec.ofInt 32 temp) .PRINT_BOUND_BY_ROUND = false → fs' = fs) := by
  unfold writeRounds at h
  split at h
  · rename_i hu
    split at h
    · rename_i hc
      cases h
      refine ⟨fun _ => ⟨hc, by simp, fun f hf => by simp [hf]⟩, fun h2 => ?_⟩
      rw [hu] at h2
      exact absurd h2 (by simp)
    · exact absurd h (by simp)
  · rename_i hu
    cases h
    exact ⟨fun h2 => absurd h2 hu, fun _ => rfl⟩

/-- The option may be combined with others, here with the check against the optimal solution. -/
example : useTemp (BitVec.ofInt 32 24) .PRINT_BOUND_BY_ROUND = true ∧
    useTemp (BitVec.ofInt 32 8) .PRINT_BOUND_BY_ROUND = false := by decide

/-- **C121 (densities, negation).** The smallest and the largest support of the cuts of a round are never recorded, so
the minimum is always the same huge number and the maximum always 0: here for one Gomory cut with
one nonzero of two. -/
theorem round_density_wrong : ∃ ci, updateGMICInfo {} (some [⟨[(0, 1)], 1⟩]) (1 / 2) = .ok ci ∧
    roundDensity 1 (some ci.minSupport) 2 = .val (.num (100 * (2 ^ 31 - 1) / 2)) ∧
    roundDensity 1 (some ci.maxSupport) 2 = .val (.num 0) ∧ roundDensity 1 ci.avgSupport 2 = .val (.num 50) := by
  refine ⟨_, rfl, ?_, ?_, ?_⟩ <;> decide +kernel

/-- In general the minimum and the maximum are those of a record to which nothing was added. -/
theorem round_density_constant {ci ci' : CutInfo} {cs : Option (List RowCut)} {eps : ℚ}
    (h : updateGMICInfo ci cs eps = .ok ci') : ci'.minSupport = ci.minSupport ∧ ci'.maxSupport = ci.maxSupport := by
  unfold updateGMICInfo at h
  split at h
  · exact absurd h (by simp)
  · cases h
    exact ⟨rfl, rfl⟩

/-- **C121 (no Gomory cuts).** If no Gomory cuts are made, their column says infinity, not the LP value. -/
theorem round_no_gomory (va : ℚ × ℚ) : sv (newRoundBound none va).gmic = .inf := by
  show sv dblMax = .inf
  decide +kernel

/-! ## Times -/

/-- A timer that is known, with its state. -/
def HasTimer (s : TimeStats) (nm : String) (i : ℕ) (t : Tmr) : Prop :=
  s.getId nm = some i ∧ s.tmrs[i]? = some t

theorem hasTimer_total {s : TimeStats} {nm : String} {i : ℕ} {t : Tmr} (h : HasTimer s nm i t) (now : Int) :
    s.totalTicks nm now = if t.running then t.value + now - t.start else t.value := by
  unfold TimeStats.totalTicks
  rw [h.1]
  simp only [h.2]

theorem hasTimer_lt {s : TimeStats} {nm : String} {i : ℕ} {t : Tmr} (h : HasTimer s nm i t) :
    i < s.tmrs.length := by
  by_contra hc
  have := h.2
  rw [List.getElem?_eq_none (by omega)] at this
  exact absurd this (by simp)

theorem hasTimer_start {s : TimeStats} {nm : String} {i : ℕ} {t : Tmr} (h : HasTimer s nm i t)
    (hr : t.running = false) (now : Int) : ∃ s1, s.step (.start nm, now) = some s1 ∧
      HasTimer s1 nm i { t with start := now, running := true } := by
  have hl := hasTimer_lt h
  refine ⟨{ s with tmrs := s.tmrs.set i { t with start := now, running := true } }, ?_, h.1, ?_⟩
  · show s.startId (s.getId nm) now = _
    unfold TimeStats.startId
    rw [h.1]
    simp only [h.2, hr]
    simp
  · simp [hl]

theorem hasTimer_stop {s : TimeStats} {nm : String} {i : ℕ} {t : Tmr} (h : HasTimer s nm i t)
    (hr : t.running = true) (now : Int) : ∃ s1, s.step (.stop nm, now) = some s1 ∧
      HasTimer s1 nm i { t with value := t.value + (now - t.start), running := false } := by
  have hl := hasTimer_lt h
  refine ⟨{ s with tmrs := s.tmrs.set i { t with value := t.value + (now - t.start), running := false } }, ?_, h.1, ?_⟩
  · show s.endId (s.getId nm) now = _
    unfold TimeStats.endId
    rw [h.1]
    simp only [h.2, hr]
    simp
  · simp [hl]

/-- A timer that is not running: its reported total does not depend on the clock. -/
def Idle (s : TimeStats) (nm : String) : Prop := ∃ i t, HasTimer s nm i t ∧ t.running = false

theorem idle_total {s : TimeStats} {nm : String} (h : Idle s nm) (a b : Int) :
    s.totalTime nm a = s.totalTime nm b := by
  obtain ⟨i, t, ht, hr⟩ := h
  unfold TimeStats.totalTime
  rw [hasTimer_total ht, hasTimer_total ht, hr]
  rfl

theorem timeOutside_spec {s : TimeStats} {nm : String} (h : Idle s nm) (t : Int × Int × Int × Int) :
    ∃ s2, timeOutside s nm t = some (s2, ((t.2.2.1 - t.2.1 : Int) : ℚ) / clocksPerSec) ∧ Idle s2 nm ∧
      ∀ a, s2.totalTime nm a = s.totalTime nm a + ((t.2.2.1 - t.2.1 : Int) : ℚ) / clocksPerSec := by
  obtain ⟨i, u, hu, hr⟩ := h
  obtain ⟨s1, h1, hs1⟩ := hasTimer_start hu hr t.2.1
  obtain ⟨s2, h2, hs2⟩ := hasTimer_stop hs1 rfl t.2.2.1
  have e1 : ∀ a, s2.totalTime nm a = s.totalTime nm a + ((t.2.2.1 - t.2.1 : Int) : ℚ) / clocksPerSec := by
    intro a
    unfold TimeStats.totalTime
    rw [hasTimer_total hs2, hasTimer_total hu, hr]
    simp only [Bool.false_eq_true, if_false]
    push_cast
    ring
  refine ⟨s2, ?_, ⟨i, _, hs2, rfl⟩, e1⟩
  unfold timeOutside
  rw [h1, Option.bind_some, h2, Option.map_some, e1, idle_total ⟨i, u, hu, hr⟩ t.1 t.2.2.2]
  simp

theorem timeInside_spec {s : TimeStats} {nm : String} (h : Idle s nm) (t : Int × Int × Int × Int) :
    ∃ s2, timeInside s nm t = some (s2, ((t.2.2.1 - t.2.1 : Int) : ℚ) / clocksPerSec) ∧ Idle s2 nm ∧
      ∀ a, s2.totalTime nm a = s.totalTime nm a + ((t.2.2.2 - t.1 : Int) : ℚ) / clocksPerSec := by
  obtain ⟨i, u, hu, hr⟩ := h
  obtain ⟨s1, h1, hs1⟩ := hasTimer_start hu hr t.1
  obtain ⟨s2, h2, hs2⟩ := hasTimer_stop hs1 rfl t.2.2.2
  have e1 : ∀ a, s2.totalTime nm a = s.totalTime nm a + ((t.2.2.2 - t.1 : Int) : ℚ) / clocksPerSec := by
    intro a
    unfold TimeStats.totalTime
    rw [hasTimer_total hs2, hasTimer_total hu, hr]
    simp only [Bool.false_eq_true, if_false]
    push_cast
    ring
  refine ⟨s2, ?_, ⟨i, _, hs2, rfl⟩, e1⟩
  unfold timeInside
  rw [h1, Option.bind_some, h2, Option.map_some]
  unfold TimeStats.totalTime
  rw [hasTimer_total hs1, hasTimer_total hs1]
  simp only [if_true]
  congr 2
  push_cast
  ring

/-- **C121 (times of the rounds).** For any number of rounds: measuring never fails, every entry is the length of
the interval measured, and the entries of the columns measured around the timer (generation of Gomory and of
disjunctive cuts, application of disjunctive cuts) add up to the total reported for that timer. -/
theorem round_times_sum {s : TimeStats} {nm : String} (h : Idle s nm) (ts : List (Int × Int × Int × Int)) :
    ∃ s' l, measureAll (fun s t => timeOutside s nm t) s ts = some (s', l) ∧ Idle s' nm ∧
      l = ts.map (fun t => ((t.2.2.1 - t.2.1 : Int) : ℚ) / clocksPerSec) ∧
      ∀ a, s'.totalTime nm a = s.totalTime nm a + l.sum := by
  induction ts generalizing s with
  | nil => exact ⟨s, [], rfl, h, rfl, fun a => by simp⟩
  | cons t ts ih =>
    obtain ⟨s2, h1, h2, h3⟩ := timeOutside_spec h t
    obtain ⟨s', l, h4, h5, h6, h7⟩ := ih h2
    refine ⟨s', (((t.2.2.1 - t.2.1 : Int) : ℚ) / clocksPerSec) :: l, ?_, h5, ?_, fun a => ?_⟩
    · unfold measureAll
      rw [h1, Option.bind_some, h4, Option.map_some]
    · rw [h6]
      rfl
    · rw [h7, h3, List.sum_cons]
      ring

/-- **C121 (times of applying Gomory cuts).** These are measured while the timer runs: if the clock does not go back,
their sum is at most the total reported. -/
theorem round_times_le {s : TimeStats} {nm : String} (h : Idle s nm) (ts : List (Int × Int × Int × Int))
    (hm : ∀ t ∈ ts, t.1 ≤ t.2.1 ∧ t.2.1 ≤ t.2.2.1 ∧ t.2.2.1 ≤ t.2.2.2) :
    ∃ s' l, measureAll (fun s t => timeInside s nm t) s ts = some (s', l) ∧ Idle s' nm ∧
      l = ts.map (fun t => ((t.2.2.1 - t.2.1 : Int) : ℚ) / clocksPerSec) ∧
      ∀ a, s.totalTime nm a + l.sum ≤ s'.totalTime nm a := by
  induction ts generalizing s with
  | nil => exact ⟨s, [], rfl, h, rfl, fun a => by simp⟩
  | cons t ts ih =>
    obtain ⟨s2, h1, h2, h3⟩ := timeInside_spec h t
    obtain ⟨s', l, h4, h5, h6, h7⟩ := ih h2 fun x hx => hm x (by simp [hx])
    refine ⟨s', (((t.2.2.1 - t.2.1 : Int) : ℚ) / clocksPerSec) :: l, ?_, h5, ?_, fun a => ?_⟩
    · unfold measureAll
      rw [h1, Option.bind_some, h4, Option.map_some]
    · rw [h6]
      rfl
    · have := h7 a
      rw [h3] at this
      rw [List.sum_cons]
      obtain ⟨m1, m2, m3⟩ := hm t (by simp)
      have hle : ((t.2.2.1 - t.2.1 : Int) : ℚ) / clocksPerSec ≤ ((t.2.2.2 - t.1 : Int) : ℚ) / clocksPerSec := by
        apply div_le_div_of_nonneg_right
        · exact_mod_cast (by omega : t.2.2.1 - t.2.1 ≤ t.2.2.2 - t.1)
        · norm_num [clocksPerSec]
      linarith

/-- A registered timer meets the hypothesis. -/
example : Idle (TimeStats.empty.register "GOMORY_GEN_TIME" 0 5) "GOMORY_GEN_TIME" :=
  ⟨0, ⟨5, 0, false⟩, ⟨rfl, rfl⟩, rfl⟩

/-! ## Times of the generator in the log (C122) -/

theorem addId_value {s : TimeStats} {nm m : String} {v : Int} {i : ℕ} {t : Tmr} (h : HasTimer s nm i t)
    (hw : ∀ a b k, s.getId a = some k → s.getId b = some k → a = b) :
    (s.addId (s.getId m) v).getId = s.getId ∧
    HasTimer (s.addId (s.getId m) v) nm i { t with value := t.value + if m = nm then v else 0 } := by
  unfold TimeStats.addId
  split
  · rename_i hn
    refine ⟨rfl, h.1, ?_⟩
    rw [if_neg]
    · simpa using h.2
    · rintro rfl
      rw [h.1] at hn
      exact absurd hn (by simp)
  · rename_i j hj
    split
    · rename_i hnone
      refine ⟨rfl, h.1, ?_⟩
      rw [if_neg]
      · simpa using h.2
      · rintro rfl
        rw [h.1] at hj
        cases hj
        rw [h.2] at hnone
        exact absurd hnone (by simp)
    · rename_i u hu
      refine ⟨rfl, h.1, ?_⟩
      by_cases hm : m = nm
      · subst hm
        rw [h.1] at hj
        cases hj
        rw [h.2] at hu
        cases hu
        simp [hasTimer_lt h]
      · have hij : j ≠ i := by
          rintro rfl
          exact hm (hw _ _ _ hj h.1)
        rw [if_neg hm]
        show (s.tmrs.set j _)[i]? = _
        rw [List.getElem?_set_ne hij]
        simpa using h.2

/-- Different names have different timers. -/
def Distinct (s : TimeStats) : Prop := ∀ a b k, s.getId a = some k → s.getId b = some k → a = b

theorem mergeTimers_value {s gen : TimeStats} {nm : String} {i : ℕ} {t : Tmr} (h : HasTimer s nm i t)
    (hw : Distinct s) : Distinct (mergeTimers gen s) ∧ (mergeTimers gen s).getId = s.getId ∧
      HasTimer (mergeTimers gen s) nm i { t with
        value := t.value + ((mergedTimers.filter (·.2 = nm)).map fun p => gen.getValue p.1).sum } := by
  unfold mergeTimers
  generalize mergedTimers = l
  induction l generalizing s t with
  | nil => simpa using ⟨hw, h⟩
  | cons p l ih =>
    have h1 := addId_value (m := p.2) (v := gen.getValue p.1) h hw
    have hw1 : Distinct (s.addId (s.getId p.2) (gen.getValue p.1)) := by
      intro a b k ha hb
      rw [h1.1] at ha hb
      exact hw a b k ha hb
    obtain ⟨a1, a2, a3⟩ := ih h1.2 hw1
    refine ⟨a1, a2.trans h1.1, ?_⟩
    rw [List.foldl_cons]
    convert a3 using 2
    by_cases hp : p.2 = nm
    · simp [hp]
      ring
    · simp [hp]

/-- Which time of the generator is which column of the log (specification). -/
def genTimePairs : List (String × String) :=
  [("INIT_SOLVE_TIME", "VPC_INIT_SOLVE_TIME"), ("DISJ_SETUP_TIME", "VPC_DISJ_SETUP_TIME"),
    ("GEN_DISJ_TIME", "VPC_DISJ_GEN_TIME"), ("PRLP_SETUP_TIME", "VPC_PRLP_SETUP_TIME"),
    ("PRLP_SOLVE_TIME", "VPC_PRLP_SOLVE_TIME"), ("GEN_CUTS_TIME", "VPC_GEN_CUTS_TIME")]

/-- **C122 (times of the generator).** After any rounds, each time of the generator in the log is the time at the start
plus the times of the generators of all rounds. -/
theorem generator_times {fresh s : TimeStats} {works : List (TimeStats → TimeStats)} {g nm : String} {i : ℕ}
    {t : Tmr} (h : HasTimer s nm i t) (hw : Distinct s) (hg : (g, nm) ∈ genTimePairs) :
    ∃ gens : List TimeStats, gens.length = works.length ∧
      (∀ k f, works[k]? = some f → gens[k]? = some (genTimers f fresh (mergeRounds fresh (works.take k) s))) ∧
      HasTimer (mergeRounds fresh works s) nm i { t with
        value := t.value + (gens.map (·.getValue g)).sum } := by
  have hf : ∀ gen : TimeStats, ((mergedTimers.filter (·.2 = nm)).map fun p => gen.getValue p.1).sum = gen.getValue g := by
    intro gen
    simp only [genTimePairs, List.mem_cons, Prod.mk.injEq, List.not_mem_nil, or_false] at hg
    rcases hg with ⟨rfl, rfl⟩ | ⟨rfl, rfl⟩ | ⟨rfl, rfl⟩ | ⟨rfl, rfl⟩ | ⟨rfl, rfl⟩ | ⟨rfl, rfl⟩ <;>
      simp [mergedTimers, List.filter]
  unfold mergeRounds
  induction works generalizing s t with
  | nil => exact ⟨[], rfl, by simp, by simpa using h⟩
  | cons work works ih =>
    obtain ⟨a1, a2, a3⟩ := mergeTimers_value (gen := genTimers work fresh s) h hw
    rw [hf] at a3
    obtain ⟨gens, hl, hk, hh⟩ := ih a3 a1
    refine ⟨genTimers work fresh s :: gens, by simp [hl], ?_, ?_⟩
    · intro k f hkf
      cases k with
      | zero =>
        cases hkf
        rfl
      | succ k =>
        rw [List.getElem?_cons_succ] at hkf ⊢
        rw [hk k f hkf]
        rfl
    rw [List.foldl_cons]
    convert hh using 2
    simp
    ring

/-- **C122 (negation).** The time of the initial solve is given to the generator of every round and added again after
every round: the column `VPC_INIT_SOLVE_TIME` is the time of the one initial solve, multiplied by the number of
rounds (the generator itself does not touch this timer). -/
theorem init_time_multiplied {fresh s : TimeStats} {works : List (TimeStats → TimeStats)} {i i0 j : ℕ}
    {t t0 u : Tmr} (h : HasTimer s "VPC_INIT_SOLVE_TIME" i t) (h0 : HasTimer s "INIT_SOLVE_TIME" i0 t0)
    (hw : Distinct s) (hfr : HasTimer fresh "INIT_SOLVE_TIME" j u) (hu : u.value = 0) (hwf : Distinct fresh)
    (hwork : ∀ f ∈ works, ∀ q : TimeStats, (f q).getValue "INIT_SOLVE_TIME" = q.getValue "INIT_SOLVE_TIME") :
    HasTimer (mergeRounds fresh works s) "VPC_INIT_SOLVE_TIME" i { t with
      value := t.value + works.length * t0.value } := by
  unfold mergeRounds
  induction works generalizing s t with
  | nil => simpa using h
  | cons work works ih =>
    have hgen : (genTimers work fresh s).getValue "INIT_SOLVE_TIME" = t0.value := by
      unfold genTimers
      rw [hwork work (by simp)]
      have hs : s.getValue "INIT_SOLVE_TIME" = t0.value := by
        unfold TimeStats.getValue
        rw [h0.1]
        simp only [h0.2]
      rw [hs]
      obtain ⟨-, b2⟩ := addId_value (m := "INIT_SOLVE_TIME") (v := t0.value) hfr hwf
      unfold TimeStats.getValue
      rw [b2.1]
      simp only [b2.2, hu, if_true]
      simp
    obtain ⟨a1, a2, a3⟩ := mergeTimers_value (gen := genTimers work fresh s) h hw
    obtain ⟨-, -, a4⟩ := mergeTimers_value (gen := genTimers work fresh s) h0 hw
    have e0 : ((mergedTimers.filter (·.2 = "INIT_SOLVE_TIME")).map
        fun p => (genTimers work fresh s).getValue p.1).sum = 0 := by simp [mergedTimers, List.filter]
    have e1 : ((mergedTimers.filter (·.2 = "VPC_INIT_SOLVE_TIME")).map
        fun p => (genTimers work fresh s).getValue p.1).sum = t0.value := by
      simp [mergedTimers, List.filter, hgen]
    rw [e0, add_zero] at a4
    rw [e1] at a3
    have := ih a3 a4 a1 fun f hf => hwork f (by simp [hf])
    rw [List.foldl_cons]
    convert this using 2
    simp
    ring

/-- Concrete: an initial solve of 3 ticks and two rounds give 6. -/
example : ((mergeRounds (TimeStats.empty.register "INIT_SOLVE_TIME" 0 0) [id, id]
    ((TimeStats.empty.register "INIT_SOLVE_TIME" 3 0).register "VPC_INIT_SOLVE_TIME" 0 0)).getValue
      "VPC_INIT_SOLVE_TIME") = 6 := by decide +kernel

end VPC
