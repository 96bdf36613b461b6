import Mathlib.Data.List.Basic
import Mathlib.Algebra.Order.Field.Rat

/-!
# File names and small data files (src/utility/utility.cpp:187-340)

Strings are lists of characters.  A file is `none` when it cannot be opened and otherwise the list
of lines that `std::getline` delivers.  `std::stod` is a parameter (`none` = it throws).
-/
namespace VPC

/-- `s.find_last_of(chars)` together with the two substrings around it
(`substr(0, pos)`, `substr(pos + 1)`); `none` is `npos`.
Used at src/utility/utility.cpp:197-198, 211, 214-216, 228-230. -/
def lastSplit (p : Char → Bool) (s : List Char) : Option (List Char × List Char) :=
  match s.reverse.dropWhile (fun c => !p c) with
  | [] => none
  | _ :: pre => some (pre.reverse, (s.reverse.takeWhile fun c => !p c).reverse)

/-- The three output arguments of `parseFilename`. -/
structure FileParts where
  dir : List Char
  inst : List Char
  ext : List Char
deriving DecidableEq, Repr

/-- Last three statements of `parseFilename` (src/utility/utility.cpp:228-230). -/
def finishParts (filename ext : List Char) : FileParts :=
  match lastSplit (fun c => c = '/' || c = '\\') filename with
  | some (d, n) => ⟨d, n, ext⟩
  | none => ⟨['.'], filename, ext⟩

/-- `parseFilename` (src/utility/utility.cpp:185-232): return code and outputs, given what the
output arguments held before. Not modelled: line 214 stores a position in an `unsigned`
(only matters for names longer than 2^32 characters). -/
def parseFilename (out : FileParts) (full : List Char) : ℕ × FileParts :=
  match lastSplit (fun c => c = '.') full with
  | none => (1, out)
  | some (filename, ext) =>
    if ext = ['g', 'z'] ∨ ext = ['b', 'z', '2'] then
      match lastSplit (fun c => c = '.') filename with
      | some (filename2, ext2) => (0, finishParts filename2 ext2)
      | none => (1, { out with ext := ext })
    else (0, finishParts filename ext)

/-- `std::getline(iss, token, delim)`: `none` when nothing can be extracted; otherwise the token
and what is left in the stream (`none` = end of input reached). -/
def getTok (delim : Char) : Option (List Char) → Option (List Char × Option (List Char))
  | none => none
  | some [] => none
  | some s =>
    match s.dropWhile (fun c => c ≠ delim) with
    | [] => some (s, none)
    | _ :: rest => some (s.takeWhile fun c => c ≠ delim, some rest)

/-- Outcomes of `getObjValueFromFile`. -/
inductive ObjLookup where
  /-- a value read from the file -/
  | value (v : ℚ)
  /-- `std::numeric_limits<double>::lowest()` -/
  | lowest
  /-- `exit(1)` -/
  | exit1
  /-- `throw;` without a current exception: `std::terminate` -/
  | terminate
deriving DecidableEq, Repr

/-- The reading loop of `getObjValueFromFile` (src/utility/utility.cpp:246-272). -/
def objLoop (stod : List Char → Option ℚ) (inst : List Char) : List (List Char) → ObjLookup
  | [] => .lowest
  | line :: lines =>
    if line = [] then objLoop stod inst lines
    else match getTok ',' (some line) with
      | none => objLoop stod inst lines
      | some (name, rest) =>
        if name = inst then
          match getTok ',' rest with
          | none => .terminate
          | some (tok, _) =>
            match stod tok with
            | some v => .value v
            | none => objLoop stod inst lines
        else objLoop stod inst lines

/-- `getObjValueFromFile(opt_filename, fullfilename, logfile)`
(src/utility/utility.cpp:235-282). The return code of `parseFilename` is ignored (line 240). -/
def getObjValueFromFile (stod : List Char → Option ℚ) (optFilename fullfilename : List Char)
    (file : Option (List (List Char))) : ObjLookup :=
  let inst := (parseFilename ⟨[], [], []⟩ fullfilename).2.inst
  if optFilename = [] then .lowest
  else match file with
    | none => .exit1
    | some lines => objLoop stod inst lines

/-- One line of `getSolFromFile` (src/utility/utility.cpp:299-327): what it appends to the
solution. -/
def solLine (stod : List Char → Option ℚ) (line : List Char) : List ℚ :=
  match line with
  | [] => []
  | c :: _ =>
    if c = '#' ∨ c = '*' then []
    else match getTok ' ' (some line) with
      | none => []
      | some (_, rest) =>
        match getTok ' ' rest with
        | none => []
        | some (tok, _) =>
          (if tok = [] ∨ tok = [' '] then [0] else []) ++
          (match stod tok with
            | some v => [v]
            | none => [])

/-- `getSolFromFile` (src/utility/utility.cpp:284-336) for a given file name and previous content
of `sol`; `none` is `exit(1)`. `file = none` means it cannot be opened. -/
def getSolFromFile (stod : List Char → Option ℚ) (filename : Option (List Char))
    (file : Option (List (List Char))) (sol : List ℚ) : Option (List ℚ) :=
  match filename with
  | none => some sol
  | some _ =>
    match file with
    | none => none
    | some lines => some (lines.flatMap (solLine stod))

end VPC
