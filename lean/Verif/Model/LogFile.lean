import Verif.Model.LogTable

/-!
# The log file over several runs (src/main.cpp:1010-1050, :1060-1131; include/common/utility.hpp:141-146)

The file is the list of its characters, `none` if it does not exist. The text of a run is printed in
several pieces, with `fflush` in between; a run that is killed leaves a prefix of it.
-/
namespace VPC

/-- How a run ends. -/
inductive RunEnd
  /-- before the log is opened (src/main.cpp:985-1006): wrong arguments, no instance -/
  | early
  /-- `wrapUp` closes the line (src/main.cpp:1127-1128) -/
  | done
  /-- `writeErrorToLog` (include/common/utility.hpp:141-146) after `k` characters of the line, then
  `exit(1)` -/
  | error (k : ℕ) (msg : List Char)
  /-- `exit(1)` without a message in the log (for instance include/VPCParameters.hpp:393,
  src/test/analysis.cpp:1325), or killed, after `k` characters in all -/
  | cut (k : ℕ)

/-- A run as the log sees it: the header it would write, its line without the newline, its end. -/
structure LogRun where
  header : List Char
  line : List Char
  fate : RunEnd

/-- The header, two lines (src/test/analysis.cpp:51-97, :99-278; src/utility/preprocess.cpp:435-548). -/
def headerChars (titles names : List String) : List Char :=
  lineChars (titles.map String.toList) ++ lineChars (names.map String.toList)

/-- One run appends to the file: `fexists`, `fopen(.., "a")`, the header if the file did not exist
(src/main.cpp:1012-1016, :1037-1050), then the line. -/
def appendRun (f : Option (List Char)) (r : LogRun) : Option (List Char) :=
  let h := if f.isNone then r.header else []
  match r.fate with
  | .early => f
  | .done => some (f.getD [] ++ h ++ r.line ++ ['\n'])
  | .error k msg => some (f.getD [] ++ h ++ r.line.take k ++ ['|', '|', ','] ++ msg)
  | .cut k => some (f.getD [] ++ (h ++ r.line ++ ['\n']).take k)

/-- Runs one after the other. -/
def logHistory (f : Option (List Char)) (rs : List LogRun) : Option (List Char) := rs.foldl appendRun f

end VPC
