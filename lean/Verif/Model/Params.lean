import Verif.Model.Num

/-!
# Parameters, option bits and command-line handling

include/VPCParameters.hpp, src/utility/utility.cpp (string helpers, strtol wrappers) and
`processArgs` of src/main.cpp.

Simplifications: doubles are rationals; `int` is `Int` whose range is enforced where the code
casts (`parseInt`) or works on bits (`BitVec 32`); `exit(1)`/termination is `none`; messages are
not modelled.
-/
namespace VPC

/-- `std::numeric_limits<int>::max()`. -/
def intMax : Int := 2 ^ 31 - 1
/-- `std::numeric_limits<int>::min()`. -/
def intMin : Int := -2 ^ 31
/-- `std::numeric_limits<long>::max()` (LP64). -/
def longMax : Int := 2 ^ 63 - 1
/-- `std::numeric_limits<long>::min()` (LP64). -/
def longMin : Int := -2 ^ 63

/-! ## Numeric parameters -/

/-- The range part of `NumericParameter::val_is_allowed` (include/VPCParameters.hpp:359-377, the
branches used when there is no list of allowed values). `inf`/`neginf` are
`numeric_limits<T>::max()`/`lowest()`. The code tests the *stored* value `val`. -/
def rangeAllowed (val mn mx inf neginf : ℚ) : Bool :=
  if (isInfinity mn inf || greaterThanVal val mn) && isInfinity mx inf then true
  else if (isNegInfinity mx neginf || lessThanVal val mx) && isNegInfinity mn neginf then true
  else if isVal mn mx then isVal val mn
  else !(lessThanVal val mn || greaterThanVal val mx)

/-- `IntParameter` (include/VPCParameters.hpp:404-426): name, value, bounds, allowed values. -/
structure IntP where
  name : String
  val : Int
  mn : Int
  mx : Int
  allowed : List Int := []
deriving DecidableEq

/-- `DoubleParameter` (include/VPCParameters.hpp:429-451). -/
structure DblP where
  name : String
  val : ℚ
  mn : ℚ
  mx : ℚ
deriving DecidableEq

/-- `val_is_allowed(this->val)` for `int` (include/VPCParameters.hpp:359-377). -/
def IntP.ok (p : IntP) : Bool :=
  if p.allowed ≠ [] then p.allowed.contains p.val
  else rangeAllowed p.val p.mn p.mx intMax intMin

/-- `val_is_allowed(this->val)` for `double` (include/VPCParameters.hpp:359-377). -/
def DblP.ok (p : DblP) : Bool := rangeAllowed p.val p.mn p.mx dblMax (-dblMax)

/-- `Parameter::set` + `NumericParameter::check` (include/VPCParameters.hpp:289, 381-396):
store, then `exit(1)` (here `none`) if the value is not allowed. -/
def IntP.set (p : IntP) (v : Int) : Option IntP :=
  let q := { p with val := v }
  if q.ok then some q else none

/-- `Parameter::set` + `check` for doubles (include/VPCParameters.hpp:289, 381-396). -/
def DblP.set (p : DblP) (v : ℚ) : Option DblP :=
  let q := { p with val := v }
  if q.ok then some q else none

/-- `enum intParam` (include/VPCParameters.hpp:51-100). -/
inductive IntId
  | CUTLIMIT | DISJ_TERMS | GOMORY | MAX_NUM_HOT_START_VIOL | MODE | PARTIAL_BB_STRATEGY
  | PARTIAL_BB_NUM_STRONG | PARTIAL_BB_KEEP_PRUNED_NODES | PREPROCESS | PRLP_FLIP_BETA | ROUNDS
  | STRENGTHEN | TEMP | USE_ALL_ONES | USE_DISJ_LB | USE_ITER_BILINEAR | USE_TIGHT_POINTS
  | USE_TIGHT_RAYS | USE_UNIT_VECTORS | VERBOSITY | RANDOM_SEED | BB_RUNS | BB_STRATEGY | BB_MODE
deriving DecidableEq

/-- `enum doubleParam` (include/VPCParameters.hpp:102-114). -/
inductive DblId
  | AWAY | BB_TIMELIMIT | MAX_SUPPORT_REL | EPS | INF | IP_OBJ | MIN_ORTHOGONALITY
  | PARTIAL_BB_TIMELIMIT | PRLP_TIMELIMIT | TIMELIMIT
deriving DecidableEq

/-- `enum stringParam` (include/VPCParameters.hpp:116-123). -/
inductive StrId
  | DISJ_OPTIONS | FILENAME | LOGFILE | OPTFILE | SOLFILE
deriving DecidableEq

/-- The loop `for i < NUM_INT_PARAMS` of include/VPCParameters.hpp:720 visits the enum in order. -/
def IntId.all : List IntId :=
  [.CUTLIMIT, .DISJ_TERMS, .GOMORY, .MAX_NUM_HOT_START_VIOL, .MODE, .PARTIAL_BB_STRATEGY,
   .PARTIAL_BB_NUM_STRONG, .PARTIAL_BB_KEEP_PRUNED_NODES, .PREPROCESS, .PRLP_FLIP_BETA, .ROUNDS,
   .STRENGTHEN, .TEMP, .USE_ALL_ONES, .USE_DISJ_LB, .USE_ITER_BILINEAR, .USE_TIGHT_POINTS,
   .USE_TIGHT_RAYS, .USE_UNIT_VECTORS, .VERBOSITY, .RANDOM_SEED, .BB_RUNS, .BB_STRATEGY, .BB_MODE]

/-- Loop order of include/VPCParameters.hpp:737. -/
def DblId.all : List DblId :=
  [.AWAY, .BB_TIMELIMIT, .MAX_SUPPORT_REL, .EPS, .INF, .IP_OBJ, .MIN_ORTHOGONALITY,
   .PARTIAL_BB_TIMELIMIT, .PRLP_TIMELIMIT, .TIMELIMIT]

/-- Loop order of include/VPCParameters.hpp:754. -/
def StrId.all : List StrId := [.DISJ_OPTIONS, .FILENAME, .LOGFILE, .OPTFILE, .SOLFILE]

/-- `struct VPCParameters` (include/VPCParameters.hpp:495-766): the three maps of parameters a
user can change (the maps of constants have no setter and are left out). -/
structure Params where
  ints : IntId → IntP
  dbls : DblId → DblP
  strs : StrId → String × String

/-- Initial contents of `intParamValues` (include/VPCParameters.hpp:500-588, TRACE not defined). -/
def intDefaults : IntId → IntP
  | .BB_MODE => ⟨"BB_MODE", 10, 0, 111, []⟩
  | .BB_STRATEGY => ⟨"BB_STRATEGY", 8 + 16 + 512, intMin, intMax, []⟩
  | .BB_RUNS => ⟨"BB_RUNS", 0, intMin, intMax, []⟩
  | .RANDOM_SEED => ⟨"RANDOM_SEED", 628, -1, intMax, []⟩
  | .VERBOSITY => ⟨"VERBOSITY", 0, 0, 2, []⟩
  | .USE_UNIT_VECTORS => ⟨"USE_UNIT_VECTORS", 0, intMin, intMax, []⟩
  | .USE_TIGHT_RAYS => ⟨"USE_TIGHT_RAYS", 0, intMin, intMax, []⟩
  | .USE_TIGHT_POINTS => ⟨"USE_TIGHT_POINTS", 0, intMin, intMax, []⟩
  | .USE_ITER_BILINEAR => ⟨"USE_ITER_BILINEAR", 1, 0, intMax, []⟩
  | .USE_DISJ_LB => ⟨"USE_DISJ_LB", 1, 0, 1, []⟩
  | .USE_ALL_ONES => ⟨"USE_ALL_ONES", 1, 0, 1, []⟩
  | .TEMP => ⟨"TEMP", 0, intMin, intMax, []⟩
  | .STRENGTHEN => ⟨"STRENGTHEN", 1, 0, 2, []⟩
  | .ROUNDS => ⟨"ROUNDS", 1, 0, intMax, []⟩
  | .PRLP_FLIP_BETA => ⟨"PRLP_FLIP_BETA", 0, -1, 1, []⟩
  | .PREPROCESS => ⟨"PREPROCESS", 0, 0, 2, []⟩
  | .PARTIAL_BB_NUM_STRONG => ⟨"PARTIAL_BB_NUM_STRONG", 5, intMin, intMax, []⟩
  | .PARTIAL_BB_KEEP_PRUNED_NODES => ⟨"PARTIAL_BB_KEEP_PRUNED_NODES", 0, 0, 1, []⟩
  | .PARTIAL_BB_STRATEGY => ⟨"PARTIAL_BB_STRATEGY", 4, intMin, intMax, []⟩
  | .MODE => ⟨"MODE", 0, 0, 4, [0, 1, 3, 4]⟩
  | .MAX_NUM_HOT_START_VIOL => ⟨"MAX_NUM_HOT_START_VIOL", 2, -1, intMax, []⟩
  | .GOMORY => ⟨"GOMORY", 0, -1, 1, []⟩
  | .DISJ_TERMS => ⟨"DISJ_TERMS", 0, intMin, intMax, []⟩
  | .CUTLIMIT => ⟨"CUTLIMIT", -1, intMin, intMax, []⟩

/-- Initial contents of `doubleParamValues` (include/VPCParameters.hpp:591-622); decimal literals
are taken as exact rationals. -/
def dblDefaults : DblId → DblP
  | .TIMELIMIT => ⟨"TIMELIMIT", 60, 0, dblMax⟩
  | .PRLP_TIMELIMIT => ⟨"PRLP_TIMELIMIT", -1, -1, dblMax⟩
  | .PARTIAL_BB_TIMELIMIT => ⟨"PARTIAL_BB_TIMELIMIT", 3600, 0, dblMax⟩
  | .MIN_ORTHOGONALITY => ⟨"MIN_ORTHOGONALITY", 0, 0, 1⟩
  | .IP_OBJ => ⟨"IP_OBJ", dblMax, -dblMax, dblMax⟩
  | .INF => ⟨"INF", dblMax, dblMax, dblMax⟩
  | .EPS => ⟨"EPS", 1 / 10 ^ 7, 0, 1⟩
  | .MAX_SUPPORT_REL => ⟨"MAX_SUPPORT_REL", 1, 0, 1⟩
  | .BB_TIMELIMIT => ⟨"BB_TIMELIMIT", 3600, 0, dblMax⟩
  | .AWAY => ⟨"AWAY", 1 / 10 ^ 3, 0, 1 / 10 ^ 3⟩

/-- Initial contents of `stringParamValues` (include/VPCParameters.hpp:625-635). -/
def strDefaults : StrId → String × String
  | .DISJ_OPTIONS => ("DISJ_OPTIONS", "")
  | .SOLFILE => ("SOLFILE", "")
  | .OPTFILE => ("OPTFILE", "")
  | .LOGFILE => ("LOGFILE", "")
  | .FILENAME => ("FILENAME", "")

/-- The default constructor (include/VPCParameters.hpp:667). -/
def Params.default : Params := ⟨intDefaults, dblDefaults, strDefaults⟩

/-- `get(intParam)` (include/VPCParameters.hpp:699). -/
def Params.getI (p : Params) (i : IntId) : Int := (p.ints i).val
/-- `get(doubleParam)` (include/VPCParameters.hpp:701). -/
def Params.getD (p : Params) (i : DblId) : ℚ := (p.dbls i).val
/-- `get(stringParam)` (include/VPCParameters.hpp:703). -/
def Params.getS (p : Params) (i : StrId) : String := (p.strs i).2

/-- `set(intParam, int)` (include/VPCParameters.hpp:710). -/
def Params.setI (p : Params) (i : IntId) (v : Int) : Option Params :=
  ((p.ints i).set v).map fun q => { p with ints := fun j => if j = i then q else p.ints j }
/-- `set(doubleParam, double)` (include/VPCParameters.hpp:712). -/
def Params.setD (p : Params) (i : DblId) (v : ℚ) : Option Params :=
  ((p.dbls i).set v).map fun q => { p with dbls := fun j => if j = i then q else p.dbls j }
/-- `set(stringParam, string)` (include/VPCParameters.hpp:714); `check` is always true. -/
def Params.setS (p : Params) (i : StrId) (v : String) : Params :=
  { p with strs := fun j => if j = i then ((p.strs i).1, v) else p.strs j }

/-! ## String helpers -/

/-- `upperCaseStringNoUnderscore` (src/utility/utility.cpp:405-419), ASCII. -/
def upperNoUnderscore (s : String) : String :=
  String.ofList ((s.toList.map Char.toUpper).filter (· ≠ '_'))

/-- `isspace` in the C locale, as used by `strtol`. -/
def isCSpace (c : Char) : Bool :=
  c == ' ' || c == '\t' || c == '\n' || c == '\x0b' || c == '\x0c' || c == '\r'

/-- Value of a run of decimal digits. -/
def digitsVal (l : List Char) : Nat := l.foldl (fun a c => 10 * a + (c.toNat - '0'.toNat)) 0

/-- The optional sign `strtol` accepts after the blanks: is it a minus sign, and what follows. -/
def stripSign : List Char → Bool × List Char
  | [] => (false, [])
  | c :: t => if c = '-' then (true, t) else if c = '+' then (false, t) else (false, c :: t)

/-- `strtol(str, &temp, 10)` (called in src/utility/utility.cpp:363): result, whether no
conversion was made (`temp == str`), what is left at `temp`, and whether `errno == ERANGE`.
C strings are modelled as lists of characters without the terminating NUL. -/
def strtol (s : List Char) : Int × Bool × List Char × Bool :=
  let neg := (stripSign (s.dropWhile isCSpace)).1
  let s2 := (stripSign (s.dropWhile isCSpace)).2
  let ds := s2.takeWhile Char.isDigit
  let rest := s2.dropWhile Char.isDigit
  if ds = [] then (0, true, s, false)
  else
    let v : Int := if neg then -(digitsVal ds : Int) else digitsVal ds
    if v > longMax then (longMax, false, rest, true)
    else if v < longMin then (longMin, false, rest, true)
    else (v, false, rest, false)

/-- `parseLong` (src/utility/utility.cpp:359-370). -/
def parseLong (s : List Char) : Bool × Int :=
  let (val, nothing, rest, erange) := strtol s
  let rc := !(nothing || rest ≠ [] || ((val == longMin || val == longMax) && erange))
  (rc, val)

/-- `static_cast<int>(long)`: reduction modulo `2^32` into the signed range. -/
def castInt (v : Int) : Int := (BitVec.ofInt 32 v).toInt

/-- `parseInt` (src/utility/utility.cpp:349-354). -/
def parseInt (s : List Char) : Bool × Int :=
  let (rc, v) := parseLong s
  (rc, castInt v)

/-- The two configuration macros that `processArgs` looks at (src/main.cpp:1410-1421), and
`strtod`+`parseDouble` (src/utility/utility.cpp:375-387) as an uninterpreted parser: the `Bool` is
the return code. -/
structure CliEnv where
  useGurobi : Bool
  useCplex : Bool
  parseDouble : List Char → Bool × ℚ

/-- The value that `set(string,string)` gives to an `int` parameter
(include/VPCParameters.hpp:725-732). `value = parseInt(tmp, value)` stores the *return code* of the
parser, converted from `bool`. -/
def namedIntValue (tmp : String) : Int :=
  if tmp = "+inf" then intMax
  else if tmp = "-inf" then intMin
  else if (parseInt tmp.toList).1 then 1 else 0

/-- Likewise for `double` (include/VPCParameters.hpp:742-749). -/
def namedDblValue (env : CliEnv) (tmp : String) : ℚ :=
  if tmp = "+inf" then dblMax
  else if tmp = "-inf" then -dblMax
  else if (env.parseDouble tmp.toList).1 then 1 else 0

/-- `VPCParameters::set(std::string tmpname, const std::string tmp)`
(include/VPCParameters.hpp:717-764). The local `name` inside each loop shadows the canonicalised
argument, so the comparison is between the parameter's own name and its own canonical form; the
argument `tmpname` is not used. `none` = `exit(1)` from the range check. -/
def Params.setByName (env : CliEnv) (p : Params) (_tmpname tmp : String) :
    Option (Params × Bool) :=
  match IntId.all.find? (fun i => upperNoUnderscore (p.ints i).name == (p.ints i).name) with
  | some i => (p.setI i (namedIntValue tmp)).map (·, true)
  | none =>
    match DblId.all.find? (fun i => upperNoUnderscore (p.dbls i).name == (p.dbls i).name) with
    | some i => (p.setD i (namedDblValue env tmp)).map (·, true)
    | none =>
      match StrId.all.find? (fun i => upperNoUnderscore (p.strs i).1 == (p.strs i).1) with
      | some i => some (p.setS i tmp, true)
      | none => some (p, false)

/-- `std::getline(iss, token, ',')` on what is left of a line: `none` when nothing is left (the
stream fails), otherwise the token and the remainder. -/
def getlineComma (l : List Char) : Option (String × List Char) :=
  if l = [] then none
  else some (String.ofList (l.takeWhile (· ≠ ',')), (l.dropWhile (· ≠ ',')).drop 1)

/-- One line of `readParams` (include/VPCParameters.hpp:807-833). A line without a value executes
`throw;` with no exception in flight, i.e. `std::terminate` (`none`). -/
def readParamsLine (env : CliEnv) (p : Params) (line : List Char) : Option Params :=
  match getlineComma line with
  | none => some p
  | some (nm, rest) =>
    match getlineComma rest with
    | none => none
    | some (tok, _) => (p.setByName env nm tok).map (·.1)

/-- `readParams` on the lines of an open file (include/VPCParameters.hpp:803-841). -/
def readParams (env : CliEnv) (p : Params) (lines : List (List Char)) : Option Params :=
  lines.foldlM (readParamsLine env) p

/-! ## Option bits -/

/-- `enum class BB_Strategy_Options` without `off` (include/VPCParameters.hpp:215-231). -/
inductive BBOpt
  | cbc | cplex | gurobi | user_cuts | all_cuts_off | all_cuts_on | gmics_off | gmics_on
  | presolve_off | presolve_on | heuristics_off | heuristics_on | use_best_bound
  | strong_branching_on
deriving DecidableEq

/-- The numeric values (include/VPCParameters.hpp:32-47, 217-233). -/
def BBOpt.val : BBOpt → BitVec 32
  | .cbc => 2 | .cplex => 4 | .gurobi => 8 | .user_cuts => 16 | .all_cuts_off => 32
  | .all_cuts_on => 64 | .gmics_off => 128 | .gmics_on => 256 | .presolve_off => 512
  | .presolve_on => 1024 | .heuristics_off => 2048 | .heuristics_on => 4096
  | .use_best_bound => 8192 | .strong_branching_on => 16384

/-- `use_bb_option` (include/VPCParameters.hpp:234-236). -/
def useBB (s : BitVec 32) (o : BBOpt) : Bool := (s &&& o.val) != 0
/-- `enable_bb_option` (include/VPCParameters.hpp:238-240). -/
def enableBB (s : BitVec 32) (o : BBOpt) : BitVec 32 := s ||| o.val
/-- `disable_bb_option` (include/VPCParameters.hpp:242-244). -/
def disableBB (s : BitVec 32) (o : BBOpt) : BitVec 32 := s &&& ~~~ o.val
/-- `get_bb_option_value` (include/VPCParameters.hpp:246-252): the *sum* of the bits. -/
def bbValue (os : List BBOpt) : BitVec 32 := os.foldl (fun v o => v + o.val) 0

/-- `enum class TempOptions` without `NONE` (include/VPCParameters.hpp:169-182). -/
inductive TempOpt
  | CHECK_CUTS_AGAINST_BB_OPT | PRINT_BOUND_BY_ROUND | SAVE_IP_OPT | GEN_TIKZ_STRING
  | GEN_TIKZ_STRING_WITH_VPCS | GEN_TIKZ_STRING_WITH_GMICS | GEN_TIKZ_STRING_AND_RETURN
  | GEN_TIKZ_STRING_AND_EXIT
deriving DecidableEq

/-- Values of the temp options (include/VPCParameters.hpp:169-182). -/
def TempOpt.val : TempOpt → BitVec 32
  | .CHECK_CUTS_AGAINST_BB_OPT => 8 | .PRINT_BOUND_BY_ROUND => 16 | .SAVE_IP_OPT => 32
  | .GEN_TIKZ_STRING => 1024 | .GEN_TIKZ_STRING_WITH_VPCS => 2048
  | .GEN_TIKZ_STRING_WITH_GMICS => 4096 | .GEN_TIKZ_STRING_AND_RETURN => 16384
  | .GEN_TIKZ_STRING_AND_EXIT => 32768

/-- `use_temp_option` (include/VPCParameters.hpp:185-187). -/
def useTemp (s : BitVec 32) (o : TempOpt) : Bool := (s &&& o.val) != 0
/-- `enable_temp_option` (include/VPCParameters.hpp:189-191). -/
def enableTemp (s : BitVec 32) (o : TempOpt) : BitVec 32 := s ||| o.val
/-- `disable_temp_option` (include/VPCParameters.hpp:193-195). -/
def disableTemp (s : BitVec 32) (o : TempOpt) : BitVec 32 := s &&& ~~~ o.val

/-! ## Command line -/

/-- The 0/1 switches of src/main.cpp:1323-1332 (long_opts) that edit `BB_STRATEGY`. -/
inductive Switch
  | cbc | cplex | gurobi | user_cuts | use_best_bound | bb_all_cuts | bb_gmics | bb_heuristics
  | bb_presolve | bb_strong_branching
deriving DecidableEq

/-- Effect of a switch with value `v` on the strategy bits (src/main.cpp:1433-1628, cases
`'B'*'1'*'1'` … `'B'*'8'`). Note `use_best_bound`, `bb_heuristics` and `bb_presolve`. -/
def switchBits (sw : Switch) (v : Bool) (s : BitVec 32) : BitVec 32 :=
  match sw, v with
  | .cbc, false => disableBB s .cbc
  | .cbc, true => disableBB (disableBB (enableBB s .cbc) .cplex) .gurobi
  | .cplex, false => disableBB s .cplex
  | .cplex, true => disableBB (disableBB (enableBB s .cplex) .cbc) .gurobi
  | .gurobi, false => disableBB s .gurobi
  | .gurobi, true => disableBB (disableBB (enableBB s .gurobi) .cbc) .cplex
  | .user_cuts, false => disableBB s .user_cuts
  | .user_cuts, true => enableBB s .user_cuts
  | .use_best_bound, false => enableBB (disableBB s .use_best_bound) .use_best_bound
  | .use_best_bound, true => enableBB (enableBB s .use_best_bound) .use_best_bound
  | .bb_all_cuts, false => disableBB (enableBB s .all_cuts_off) .all_cuts_on
  | .bb_all_cuts, true => disableBB (enableBB s .all_cuts_on) .all_cuts_off
  | .bb_gmics, false => disableBB (enableBB s .gmics_off) .gmics_on
  | .bb_gmics, true => disableBB (enableBB s .gmics_on) .gmics_off
  | .bb_heuristics, false => disableBB (enableBB s .presolve_off) .presolve_on
  | .bb_heuristics, true => disableBB (enableBB s .presolve_on) .presolve_off
  | .bb_presolve, false => disableBB (enableBB s .heuristics_off) .heuristics_on
  | .bb_presolve, true => disableBB (enableBB s .heuristics_on) .heuristics_off
  | .bb_strong_branching, false => disableBB s .strong_branching_on
  | .bb_strong_branching, true => enableBB s .strong_branching_on

/-- A parsed command-line option (after `getopt_long`), src/main.cpp:1316-1363: the plain
parameter options, the switches, and the options with a special effect. `getopt_long` itself (the
mapping from strings to cases) is not modelled except for the names in `longName`. -/
inductive Cli
  | int (i : IntId)
  | dbl (i : DblId)
  | str (i : StrId)
  | switch (s : Switch)
  | bbStrategy
  | preprocess
  | temp
  | tikz
  | help
deriving DecidableEq

/-- `long_opts` combined with the `case` labels of the switch statement
(src/main.cpp:1316-1363 and the cases 1371-1953). -/
def longName : String → Option Cli
  | "away" => some (.dbl .AWAY)
  | "bb_runs" => some (.int .BB_RUNS)
  | "bb_mode" => some (.int .BB_MODE)
  | "bb_strategy" => some .bbStrategy
  | "bb_timelimit" => some (.dbl .BB_TIMELIMIT)
  | "cbc" => some (.switch .cbc)
  | "cplex" => some (.switch .cplex)
  | "gurobi" => some (.switch .gurobi)
  | "user_cuts" => some (.switch .user_cuts)
  | "use_best_bound" => some (.switch .use_best_bound)
  | "bb_all_cuts" => some (.switch .bb_all_cuts)
  | "bb_gmics" => some (.switch .bb_gmics)
  | "bb_heuristics" => some (.switch .bb_heuristics)
  | "bb_presolve" => some (.switch .bb_presolve)
  | "bb_strong_branching" => some (.switch .bb_strong_branching)
  | "cutlimit" => some (.int .CUTLIMIT)
  | "disj_terms" => some (.int .DISJ_TERMS)
  | "disj_options" => some (.str .DISJ_OPTIONS)
  | "file" => some (.str .FILENAME)
  | "gomory" => some (.int .GOMORY)
  | "help" => some .help
  | "ip_obj" => some (.dbl .IP_OBJ)
  | "logfile" => some (.str .LOGFILE)
  | "max_support_rel" => some (.dbl .MAX_SUPPORT_REL)
  | "max_num_hot_start_viol" => some (.int .MAX_NUM_HOT_START_VIOL)
  | "mode" => some (.int .MODE)
  | "optfile" => some (.str .OPTFILE)
  | "partial_bb_strategy" => some (.int .PARTIAL_BB_STRATEGY)
  | "partial_bb_num_strong" => some (.int .PARTIAL_BB_NUM_STRONG)
  | "partial_bb_keep_pruned" => some (.int .PARTIAL_BB_KEEP_PRUNED_NODES)
  | "partial_bb_timelimit" => some (.dbl .PARTIAL_BB_TIMELIMIT)
  | "preprocess" => some .preprocess
  | "random_seed" => some (.int .RANDOM_SEED)
  | "rounds" => some (.int .ROUNDS)
  | "prlp_timelimit" => some (.dbl .PRLP_TIMELIMIT)
  | "solfile" => some (.str .SOLFILE)
  | "temp" => some .temp
  | "tikz" => some .tikz
  | "timelimit" => some (.dbl .TIMELIMIT)
  | "use_all_ones" => some (.int .USE_ALL_ONES)
  | "use_disj_lb" => some (.int .USE_DISJ_LB)
  | "use_iter_bilinear" => some (.int .USE_ITER_BILINEAR)
  | "use_tight_points" => some (.int .USE_TIGHT_POINTS)
  | "use_tight_rays" => some (.int .USE_TIGHT_RAYS)
  | "use_unit_vectors" => some (.int .USE_UNIT_VECTORS)
  | "verbosity" => some (.int .VERBOSITY)
  | _ => none

/-- Set an `int` parameter from a 32-bit word. -/
def Params.setBits (p : Params) (i : IntId) (b : BitVec 32) : Option Params := p.setI i b.toInt

/-- The strategy number written by `--preprocess` (src/main.cpp:1758-1792): `user_cuts +
presolve_off` plus the solver that was compiled in (here: Gurobi, CPLEX, otherwise Cbc/none). -/
def preprocessStrategy (env : CliEnv) : BitVec 32 :=
  bbValue [.user_cuts, .presolve_off] +
    (if env.useGurobi then bbValue [.gurobi]
     else if env.useCplex then bbValue [.cplex] else bbValue [.cbc])

/-- `strcmp` table of `--tikz` (src/main.cpp:1842-1871). -/
def tikzOpt : String → Option TempOpt
  | "GEN_TIKZ_STRING" => some .GEN_TIKZ_STRING
  | "GEN_TIKZ_STRING_WITH_VPCS" => some .GEN_TIKZ_STRING_WITH_VPCS
  | "GEN_TIKZ_STRING_WITH_GMICS" => some .GEN_TIKZ_STRING_WITH_GMICS
  | "GEN_TIKZ_STRING_AND_RETURN" => some .GEN_TIKZ_STRING_AND_RETURN
  | "GEN_TIKZ_STRING_AND_EXIT" => some .GEN_TIKZ_STRING_AND_EXIT
  | _ => none

/-- The validation of `--temp` (src/main.cpp:1823-1841): a sub-option of the tikz output switches
the output itself on. `std::abs(val)` is two's complement negation here (`abs(INT_MIN)` is
undefined in C++; it would be `INT_MIN` again). -/
def tempValidate (v : BitVec 32) : BitVec 32 :=
  let a := if v.msb then -v else v
  if useTemp a .GEN_TIKZ_STRING_WITH_VPCS || useTemp a .GEN_TIKZ_STRING_WITH_GMICS
      || useTemp a .GEN_TIKZ_STRING_AND_RETURN || useTemp a .GEN_TIKZ_STRING_AND_EXIT then
    enableTemp v .GEN_TIKZ_STRING
  else v

/-- One iteration of the option loop of `processArgs` (src/main.cpp:1369-1960). `none` = `exit`.
The help branch prints and makes `main` stop; it is modelled as `none`. -/
def cliStep (env : CliEnv) (p : Params) (c : Cli) (arg : List Char) : Option Params :=
  match c with
  | .int i =>
    let (rc, v) := parseInt arg
    if rc then p.setI i v else none
  | .dbl i =>
    let (rc, v) := env.parseDouble arg
    if rc then p.setD i v else none
  | .str i => some (p.setS i (String.ofList arg))
  | .switch sw =>
    let (rc, v) := parseInt arg
    if !rc || (v ≠ 0 && v ≠ 1) then none
    else p.setBits .BB_STRATEGY (switchBits sw (v == 1) (BitVec.ofInt 32 (p.getI .BB_STRATEGY)))
  | .bbStrategy =>
    let (rc, v) := parseInt arg
    if !rc then none
    else do
      let q ← p.setI .BB_STRATEGY v
      if useBB (BitVec.ofInt 32 v) .gurobi && !env.useGurobi then none
      else if useBB (BitVec.ofInt 32 v) .cplex && !env.useCplex then none
      else some q
  | .preprocess =>
    let (rc, v) := parseInt arg
    if !rc then none
    else do
      let p ← p.setI .PREPROCESS v
      let p ← p.setI .BB_RUNS 1
      let p ← p.setI .BB_MODE 1
      let p ← p.setBits .BB_STRATEGY (preprocessStrategy env)
      p.setD .TIMELIMIT 7200
  | .temp =>
    let (rc, v) := parseInt arg
    if !rc then none else p.setBits .TEMP (tempValidate (BitVec.ofInt 32 v))
  | .tikz =>
    match tikzOpt (String.ofList arg) with
    | none => none
    | some o =>
      p.setBits .TEMP (enableTemp (enableTemp (BitVec.ofInt 32 (p.getI .TEMP)) o) .GEN_TIKZ_STRING)
  | .help => none

/-- `processArgs` on a list of parsed options (src/main.cpp:1308-2021). -/
def processArgs (env : CliEnv) (p : Params) (l : List (Cli × List Char)) : Option Params :=
  l.foldlM (fun p x => cliStep env p x.1 x.2) p

/-! ## Partial branch-and-bound strategy number -/

/-- `getCbcStrategies` (src/disjunction/PartialBBDisjunction.cpp:304-319): (compare, branch,
choose). C++ integer division truncates. `std::abs(INT_MIN)` is undefined: `none`. -/
def getCbcStrategies (param : Int) : Option (Int × Int × Int) :=
  if param = intMin then none
  else
    let strategy : Int := param.natAbs
    let sign : Int := if param < 0 then -1 else 1
    let compare := strategy.tmod 10
    let branch := (strategy.tmod 100 - compare).tdiv 10
    let choose := (sign * (strategy.tmod 1000 - compare - 10 * branch)).tdiv 100
    some (compare, branch, choose)

end VPC
