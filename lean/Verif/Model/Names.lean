import Verif.Model.SolverOps
import Mathlib.Data.Rat.Floor

/-!
# The name of a disjunction (src/disjunction/Disjunction.cpp:266-356,
src/disjunction/SplitDisjunction.cpp:281-299, src/branch/VPCEventHandler.cpp:1112-1131, :1276-1283)

Strings are lists of characters.  `fmt` is the text `std::to_string(double)` makes of a number
(`%f` of the C library); it is a parameter.
-/
namespace VPC

/-- `std::to_string` of a nonnegative integer. -/
def natStr (n : ℕ) : List Char := Nat.toDigits 10 n

/-- `std::to_string(int)`. -/
def intStr (n : ℤ) : List Char := if n < 0 then '-' :: natStr n.natAbs else natStr n.natAbs

/-- `static_cast<int>(double)`: truncation; undefined behaviour if the result is not an `int`. -/
def truncInt (q : ℚ) : Res ℤ :=
  if -(2 ^ 31) ≤ (if 0 ≤ q then ⌊q⌋ else ⌈q⌉) ∧ (if 0 ≤ q then ⌊q⌋ else ⌈q⌉) < 2 ^ 31 then
    .ok (if 0 ≤ q then ⌊q⌋ else ⌈q⌉)
  else .undef

/-- `setCgsName(cgsName, disjTermName)` (src/disjunction/Disjunction.cpp:270-281). -/
def cgsTerm (name term : List Char) : List Char :=
  if term = [] then name
  else (if name = [] then name else name ++ " V ".toList) ++ ("(".toList ++ term ++ ")".toList)

/-- Is the number written as an integer? (src/disjunction/Disjunction.cpp:311-312, :324-325) -/
def nearInt (q : ℚ) : Bool := decide (|q - ⌊q⌋| < defEps) || decide (|q - ⌈q⌉| < defEps)

/-- A number in the name (src/disjunction/Disjunction.cpp:311-316, :324-328). -/
def numText (fmt : ℚ → List Char) (q : ℚ) : Res (List Char) :=
  if nearInt q then (truncInt q).bind fun n => .ok (intStr n) else .ok (fmt q)

/-- The factor of a variable (src/disjunction/Disjunction.cpp:310-318). -/
def factorText (fmt : ℚ → List Char) (c : ℚ) : Res (List Char) :=
  if |(|c| - 1)| < defEps then .ok []
  else (numText fmt |c|).bind fun t => .ok (t ++ " ".toList)

/-- One summand (src/disjunction/Disjunction.cpp:308-320). -/
def summandText (fmt : ℚ → List Char) (t : ℕ × ℚ) : Res (List Char) :=
  (factorText fmt t.2).bind fun f =>
    .ok ((if 0 < t.2 then "+".toList else "-".toList) ++ f ++ "x".toList ++ natStr t.1)

/-- All summands (the loop src/disjunction/Disjunction.cpp:307-321). -/
def sumText (fmt : ℚ → List Char) : List (ℕ × ℚ) → Res (List Char)
  | [] => .ok []
  | t :: ts => (summandText fmt t).bind fun a => (sumText fmt ts).bind fun b => .ok (a ++ b)

/-- The text of one inequality (src/disjunction/Disjunction.cpp:306-329). -/
def ineqText (fmt : ℚ → List Char) (cs : List (ℕ × ℚ)) (rhs : ℚ) : Res (List Char) :=
  (sumText fmt cs).bind fun a => (numText fmt rhs).bind fun b => .ok (a ++ " >= ".toList ++ b)

/-- What is put before a new inequality or group (src/disjunction/Disjunction.cpp:297-305 and
:342-350). -/
def cgsOpen (name : List Char) (append : Bool) : List Char :=
  (if name = [] then name
   else if append then name.dropLast ++ "; ".toList else name ++ " V ".toList) ++
  (if append then [] else "(".toList)

/-- `setCgsName(cgsName, num_coeff, indices, coeff, rhs, append)`
(src/disjunction/Disjunction.cpp:291-330). -/
def cgsIneq (fmt : ℚ → List Char) (name : List Char) (cs : List (ℕ × ℚ)) (rhs : ℚ)
    (append : Bool) : Res (List Char) :=
  if cs = [] then .ok name
  else (ineqText fmt cs rhs).bind fun t => .ok (cgsOpen name append ++ t ++ ")".toList)

/-- The loop of the third version (src/disjunction/Disjunction.cpp:351-354): the first inequality is
passed on with `append = false`, the later ones with `append = true`. -/
def cgsLoop (fmt : ℚ → List Char) : Bool → List (List (ℕ × ℚ) × ℚ) → List Char → Res (List Char)
  | _, [], name => .ok name
  | app, i :: is, name => (cgsIneq fmt name i.1 i.2 app).bind fun n => cgsLoop fmt true is n

/-- `setCgsName(cgsName, num_ineq_per_term, indices, coeff, rhs, append)`
(src/disjunction/Disjunction.cpp:335-356). -/
def cgsIneqs (fmt : ℚ → List Char) (name : List Char) (is : List (List (ℕ × ℚ) × ℚ))
    (append : Bool) : Res (List Char) :=
  if is = [] then .ok name
  else (cgsLoop fmt false is (cgsOpen name append)).bind fun n => .ok (n ++ ")".toList)

/-- `SplitDisjunction::setCgsName(var, val)` (src/disjunction/SplitDisjunction.cpp:281-299). -/
def splitName (name : List Char) (var : ℤ) (val : ℚ) : Res (List Char) :=
  if var < 0 then .ok name
  else (truncInt (⌊val⌋ : ℤ)).bind fun f => (truncInt (⌈val⌉ : ℤ)).bind fun c =>
    .ok (cgsTerm (cgsTerm name ("x".toList ++ intStr var ++ " <= ".toList ++ intStr f))
      ("x".toList ++ intStr var ++ " >= ".toList ++ intStr c))

/-- A bound on a variable as the event handler keeps it: `lower` if it is a lower bound. -/
structure NBound where
  lower : Bool
  var : ℕ
  value : ℚ
deriving DecidableEq, Repr

/-- Coefficient and right-hand side of a bound (src/branch/VPCEventHandler.cpp:1123-1125 and
:1334-1338). -/
def NBound.row (b : NBound) : List (ℕ × ℚ) × ℚ :=
  ([(b.var, if b.lower then 1 else -1)], (if b.lower then 1 else -1) * b.value)

/-- The beginning of `setupDisjunctiveTermFromStats` (src/branch/VPCEventHandler.cpp:1123-1130): the
name for one more term with the branching bound `br` and the bounds `parents` changed on the way. -/
def termName (fmt : ℚ → List Char) (name : List Char) (br : NBound) (parents : List NBound) :
    Res (List Char) :=
  (cgsIneq fmt name br.row.1 br.row.2 false).bind fun n =>
    if parents.length > 0 then cgsIneqs fmt n (parents.map NBound.row) true else .ok n

/-- The names of all terms of a tree, one after the other. -/
def termNames (fmt : ℚ → List Char) : List (NBound × List NBound) → List Char → Res (List Char)
  | [], name => .ok name
  | t :: ts, name => (termName fmt name t.1 t.2).bind fun n => termNames fmt ts n

/-- The name after `saveInformation` (src/branch/VPCEventHandler.cpp:1258 clears it, :1276-1283 adds
the integer solution) with the terms `ts`. -/
def treeName (fmt : ℚ → List Char) (intSol : Bool) (ts : List (NBound × List NBound)) :
    Res (List Char) :=
  termNames fmt ts (if intSol then cgsTerm [] "feasSol0".toList else [])

end VPC
