import Verif.Model.Params
import Verif.Model.Rounds

/-!
# The list of numbers of disjunctive terms, one per round
(include/VPCParameters.hpp:768-800, src/main.cpp:372-377, :543-545, :1975)

A text is the list of its characters. An exception that nobody catches (`std::stoi`) ends the
process: `exit`.
-/
namespace VPC

/-- `std::getline(iss, token, sep)` until it fails: the tokens of the text
(include/VPCParameters.hpp:785-789). `cur` is the token being read; nothing is delivered if the stream
ends right after a separator, or at once. -/
def tokensOf (sep : Char) : List Char → List Char → List (List Char)
  | cur, [] => if cur = [] then [] else [cur]
  | cur, c :: t => if c = sep then cur :: tokensOf sep [] t else tokensOf sep (cur ++ [c]) t

/-- `std::stoi(token)` (include/VPCParameters.hpp:788): `strtol` in base 10, with exceptions if there is
no number or if it does not fit into an `int`; what follows the number is ignored. -/
def stoi (s : List Char) : Res ℤ :=
  let (v, nothing, _, erange) := strtol s
  if nothing then .exit
  else if erange || decide (v < intMin) || decide (intMax < v) then .exit
  else .ok v

/-- The loop that fills `disjOptions` (include/VPCParameters.hpp:785-789). -/
def stoiAll : List (List Char) → Res (List ℤ)
  | [] => .ok []
  | t :: ts => (stoi t).bind fun v => (stoiAll ts).bind fun vs => .ok (v :: vs)

/-- `OK_STATUS` (include/VPCParameters.hpp:777). -/
def okStatus : ℤ := 0
/-- `ERROR_STATUS` (include/VPCParameters.hpp:778). -/
def errorStatus : ℤ := 0

/-- What `parseDisjOptions` gives: return value, the options, and whether `writeErrorToLog` was
called, which closes the log file if there is one. -/
structure DisjParse where
  status : ℤ
  opts : List ℤ
  message : Bool
deriving DecidableEq, Repr

/-- The test on the number of options (include/VPCParameters.hpp:791-797). -/
def countOptions (mode : Mode) (rounds : ℤ) (vs : List ℤ) : DisjParse :=
  if mode ≠ .DISJ_SET_PBB ∧ (vs.length : ℤ) ≠ rounds then ⟨errorStatus, vs, true⟩
  else ⟨okStatus, vs, false⟩

/-- `parseDisjOptions` (include/VPCParameters.hpp:768-800), with the default separator. -/
def parseDisjOptions (text : List Char) (mode : Mode) (rounds : ℤ) : Res DisjParse :=
  if text = [] then .ok ⟨okStatus, [], false⟩
  else (stoiAll (tokensOf ':' [] text)).bind fun vs => .ok (countOptions mode rounds vs)

/-- How the main program goes on after the options are read (src/main.cpp:374-377): it ends with an
error code, or cuts are generated. -/
inductive AfterOpts
  | stops (code : ℤ)
  | goesOn (opts : List ℤ)
deriving DecidableEq, Repr

/-- The main program from the reading of the options on (src/main.cpp:374-377). `logOpen`: a log file
was opened; everything that the program does afterwards ends with printing to it
(src/main.cpp:859-975, :1127), which is undefined if it was closed by `writeErrorToLog`
(include/common/utility.hpp:141-146). -/
def mainOptions (logOpen : Bool) (text : List Char) (mode : Mode) (rounds : ℤ) : Res AfterOpts :=
  (parseDisjOptions text mode rounds).bind fun p =>
    if logOpen && p.message then .undef
    else if p.status ≠ 0 then .ok (.stops 1) else .ok (.goesOn p.opts)

end VPC
