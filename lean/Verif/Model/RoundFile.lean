import Verif.Model.MainRun
import Verif.Model.LogTable
import Verif.Model.Bounds
import Verif.Model.Names

/-!
# The table with one line per round (src/main.cpp:379-457, :489-517, :671-694, :742-819, :872-875)

The name of the file, its lines, and how the times in it are measured. `COMPUTE_COND_NUM` is `false` in
every build (src/main.cpp:231-236), so there are 16 columns.
-/
namespace VPC

/-- `stringValue(v, "%d")` as characters (include/common/utility.hpp:294-333). -/
def svIText (v : ℤ) : List Char :=
  match svI v with
  | .int n => intStr n
  | .num _ => []
  | .inf => "'inf'".toList
  | .ninf => "'-inf'".toList

/-- The beginning of the name: `cutrounds`, or the directory of the log and the instance
(src/main.cpp:383-389); the return value of `parseFilename` is not looked at. -/
def roundFileStem (log inst : List Char) : List Char :=
  if log = [] then "cutrounds".toList
  else (parseFilename ⟨[], [], []⟩ log).2.dir ++ "/cutrounds_".toList ++ inst

/-- The name of the file (src/main.cpp:383-391). -/
def roundFileName (log inst : List Char) (terms : ℤ) : List Char :=
  roundFileStem log inst ++ "_d".toList ++ svIText terms ++ ".csv".toList

/-- The header (src/main.cpp:401-424). -/
def roundHeader (inst : String) : List String :=
  [inst, "bound_gmic", "bound_vpc", "bound_all_cuts", "num_gmic", "min_density_gmic", "max_density_gmic",
    "avg_density_gmic", "gmic_gen_time", "gmic_apply_time", "num_vpc", "min_density_vpc", "max_density_vpc",
    "avg_density_vpc", "vpc_gen_time", "vpc_apply_time"]

/-- Round 0 (src/main.cpp:431-455). -/
def roundZero (lp initTime : ℚ) : List Cell :=
  [.val (.int 0), .val (sv lp), .val (sv lp), .val (sv lp), .val (.int 0), .val (.num 0), .val (.num 0),
    .val (.num 0), .val (.num 0), .val (.num initTime), .val (.int 0), .val (.num 0), .val (.num 0),
    .val (.num 0), .val (.num 0), .val (.num initTime)]

/-- `stringValue(v, "%.6f", 1e100)`; `none` is NaN or an infinity (src/main.cpp:750-757). -/
def svDens : Option ℚ → Val
  | none => .inf
  | some v => if isInfinity v (10 ^ 100) then .inf else if isNegInfinity v (-(10 ^ 100)) then .ninf else .num v

/-- A density in percent (src/main.cpp:750-776, :784-810). -/
def roundDensity (num : ℤ) (support : Option ℚ) (cols : ℕ) : Cell :=
  .val (svDens (if num > 0 then fdiv (support.map (100 * ·)) cols else some 0))

/-- Times of a round in seconds. -/
structure RoundTimes where
  gmicGen : ℚ := 0
  gmicApply : ℚ := 0
  vpcGen : ℚ := 0
  vpcApply : ℚ := 0

/-- What a line is made of: `boundInfoVec[round]`, `cutInfoGMICVec[round]`, `cutInfoVec[round]`, the times. -/
structure RoundRec where
  bounds : BoundVals
  numGmic : ℕ
  numVpc : ℤ
  gmicInfo : CutInfo
  vpcInfo : CutInfo
  times : RoundTimes

/-- The line of round `r` (src/main.cpp:744-817). -/
def roundLine (cols r : ℕ) (x : RoundRec) : List Cell :=
  [.val (.int (r + 1)), .val (sv x.bounds.gmic), .val (sv x.bounds.vpc), .val (sv x.bounds.all),
    .val (.int x.numGmic), roundDensity x.numGmic (some x.gmicInfo.minSupport) cols,
    roundDensity x.numGmic (some x.gmicInfo.maxSupport) cols, roundDensity x.numGmic x.gmicInfo.avgSupport cols,
    .val (.num x.times.gmicGen), .val (.num x.times.gmicApply),
    .val (.int x.numVpc), roundDensity x.numVpc (some x.vpcInfo.minSupport) cols,
    roundDensity x.numVpc (some x.vpcInfo.maxSupport) cols, roundDensity x.numVpc x.vpcInfo.avgSupport cols,
    .val (.num x.times.vpcGen), .val (.num x.times.vpcApply)]

/-- `assert(count == NUM_CUTROUND_INFO)` for every line (src/main.cpp:382, :423, :457, :818). -/
def assertAll (n : ℕ) : List (List Cell) → Res (List (List Cell))
  | [] => .ok []
  | l :: ls => (assertCount n l).bind fun l => (assertAll n ls).bind fun ls => .ok (l :: ls)

/-- The lines of the file: the header, round 0, and the rounds made (src/main.cpp:401-457, :742-819). -/
def roundTable (inst : String) (lp initTime : ℚ) (cols : ℕ) (rs : List RoundRec) : Res (List (List Cell)) :=
  assertAll 16 ((roundHeader inst).map Cell.text :: roundZero lp initTime ::
    rs.mapIdx fun r x => roundLine cols r x)

/-- A file system. -/
abbrev FileSys := List Char → Option (List (List Cell))

/-- The table is written if it is asked for; `fopen(.., "w")` starts an empty file, and ends the process if it
cannot be opened (src/main.cpp:381-397, :743, :873-875). -/
def writeRounds (temp : ℤ) (canOpen : List Char → Bool) (name : List Char) (table : Res (List (List Cell)))
    (fs : FileSys) : Res FileSys :=
  if useTemp (BitVec.ofInt 32 temp) .PRINT_BOUND_BY_ROUND then
    if canOpen name then table.bind fun t => .ok (fun f => if f = name then some t else fs f) else .exit
  else .ok fs

/-! ## Times -/

/-- Generation of Gomory cuts, and application of the disjunctive cuts: `get_total_time` before the timer is
started and after it is stopped (src/main.cpp:487-504, :672-677, :688-693). `t0 ≤ t1 ≤ t2 ≤ t3` are the
clock readings. -/
def timeOutside (s : TimeStats) (nm : String) (t : Int × Int × Int × Int) : Option (TimeStats × ℚ) :=
  (s.step (.start nm, t.2.1)).bind fun s1 => (s1.step (.stop nm, t.2.2.1)).map fun s2 =>
    (s2, s2.totalTime nm t.2.2.2 - s.totalTime nm t.1)

/-- Application of Gomory cuts: `get_total_time` while the timer runs (src/main.cpp:513-518). -/
def timeInside (s : TimeStats) (nm : String) (t : Int × Int × Int × Int) : Option (TimeStats × ℚ) :=
  (s.step (.start nm, t.1)).bind fun s1 => (s1.step (.stop nm, t.2.2.2)).map fun s2 =>
    (s2, s1.totalTime nm t.2.2.1 - s1.totalTime nm t.2.1)

/-- The measurements of all rounds, one after the other. -/
def measureAll (m : TimeStats → Int × Int × Int × Int → Option (TimeStats × ℚ)) :
    TimeStats → List (Int × Int × Int × Int) → Option (TimeStats × List ℚ)
  | s, [] => some (s, [])
  | s, t :: ts => (m s t).bind fun r => (measureAll m r.1 ts).map fun q => (q.1, r.2 :: q.2)

/-- The pairs of timers of the generator and of the main program (src/main.cpp:615-630;
src/cut/CglVPC.cpp:63-71, src/main.cpp:72-88). -/
def mergedTimers : List (String × String) :=
  [("INIT_SOLVE_TIME", "VPC_INIT_SOLVE_TIME"), ("DISJ_SETUP_TIME", "VPC_DISJ_SETUP_TIME"),
    ("GEN_DISJ_TIME", "VPC_DISJ_GEN_TIME"), ("PRLP_SETUP_TIME", "VPC_PRLP_SETUP_TIME"),
    ("PRLP_SOLVE_TIME", "VPC_PRLP_SOLVE_TIME"), ("GEN_CUTS_TIME", "VPC_GEN_CUTS_TIME")]

/-- The loop that adds the times of the generator (src/main.cpp:631-636). -/
def mergeTimers (gen : TimeStats) (s : TimeStats) : TimeStats :=
  mergedTimers.foldl (fun s p => s.addId (s.getId p.2) (gen.getValue p.1)) s

/-- The generator gets the time of the initial solve before it works (src/main.cpp:555-558). `work` is what the
generator does with its timers. -/
def genTimers (work : TimeStats → TimeStats) (fresh s : TimeStats) : TimeStats :=
  work (fresh.addId (fresh.getId "INIT_SOLVE_TIME") (s.getValue "INIT_SOLVE_TIME"))

/-- The timers of the main program after rounds with these generators (src/main.cpp:553-636). -/
def mergeRounds (fresh : TimeStats) (works : List (TimeStats → TimeStats)) (s : TimeStats) : TimeStats :=
  works.foldl (fun s work => mergeTimers (genTimers work fresh s) s) s

end VPC
