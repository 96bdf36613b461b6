import Mathlib.Algebra.Order.Field.Rat

/-!
# Timers (include/common/TimeStats.hpp)

`clock()` is an argument (`now : Int`, in ticks): the machine model does not assume that it is
monotone. A failing `assert` aborts: `none`. `clock_t` is unbounded.
-/
namespace VPC

/-- The entries of the three parallel vectors `timer_start`, `value`, `timer_running`
(include/common/TimeStats.hpp:112-114) at one id. -/
structure Tmr where
  start : Int
  value : Int
  running : Bool
deriving DecidableEq, Repr

/-- `TimeStats` (include/common/TimeStats.hpp:42-115). `names` is the `std::map` ordered by
`strcmp`. -/
structure TimeStats where
  names : List (String × Nat)
  tmrs : List Tmr
deriving DecidableEq, Repr

/-- A fresh object (include/common/TimeStats.hpp:45-49). -/
def TimeStats.empty : TimeStats := ⟨[], []⟩

/-- `name_to_id[name].id = id` on a map ordered by key. -/
def insertName (nm : String) (id : Nat) : List (String × Nat) → List (String × Nat)
  | [] => [(nm, id)]
  | (k, i) :: t =>
    if k = nm then (nm, id) :: t
    else if nm < k then (nm, id) :: (k, i) :: t
    else (k, i) :: insertName nm id t

/-- `get_id` (include/common/TimeStats.hpp:235-245): `none` stands for -1. The ids stored are never
`UNINITIALIZED_STAT` because entries are created only by `register_name`. -/
def TimeStats.getId (s : TimeStats) (nm : String) : Option Nat :=
  (s.names.find? (fun p => p.1 = nm)).map (·.2)

/-- `register_name` (include/common/TimeStats.hpp:118-125). -/
def TimeStats.register (s : TimeStats) (nm : String) (init now : Int) : TimeStats :=
  ⟨insertName nm s.tmrs.length s.names, s.tmrs ++ [⟨now, init, false⟩]⟩

/-- `start_timer(int)` (include/common/TimeStats.hpp:131-138): ignored for a bad id; the `assert`
fails when the timer is running. -/
def TimeStats.startId (s : TimeStats) (id : Option Nat) (now : Int) : Option TimeStats :=
  match id with
  | none => some s
  | some i =>
    match s.tmrs[i]? with
    | none => some s
    | some t =>
      if t.running then none
      else some { s with tmrs := s.tmrs.set i { t with start := now, running := true } }

/-- `end_timer(int)` (include/common/TimeStats.hpp:144-151). -/
def TimeStats.endId (s : TimeStats) (id : Option Nat) (now : Int) : Option TimeStats :=
  match id with
  | none => some s
  | some i =>
    match s.tmrs[i]? with
    | none => some s
    | some t =>
      if t.running then
        some { s with
          tmrs := s.tmrs.set i { t with value := t.value + (now - t.start), running := false } }
      else none

/-- `end_all` (include/common/TimeStats.hpp:153-159), one clock reading for the whole loop. -/
def TimeStats.endAll (s : TimeStats) (now : Int) : TimeStats :=
  { s with tmrs := s.tmrs.map fun t =>
      if t.running then { t with value := t.value + (now - t.start), running := false } else t }

/-- `add_value(int, val)` (include/common/TimeStats.hpp:165-169). -/
def TimeStats.addId (s : TimeStats) (id : Option Nat) (v : Int) : TimeStats :=
  match id with
  | none => s
  | some i =>
    match s.tmrs[i]? with
    | none => s
    | some t => { s with tmrs := s.tmrs.set i { t with value := t.value + v } }

/-- `CLOCKS_PER_SEC` (POSIX). -/
def clocksPerSec : Int := 1000000

/-- The operations of the public interface that change the object, by name
(include/common/TimeStats.hpp:127-179). -/
inductive TOp
  | register (nm : String) (init : Int)
  | start (nm : String)
  | stop (nm : String)
  | endAll
  | addValue (nm : String) (v : Int)
  | addTime (nm : String) (v : Int)
deriving DecidableEq

/-- One operation at clock reading `now`. -/
def TimeStats.step (s : TimeStats) (x : TOp × Int) : Option TimeStats :=
  match x.1 with
  | .register nm init => some (s.register nm init x.2)
  | .start nm => s.startId (s.getId nm) x.2
  | .stop nm => s.endId (s.getId nm) x.2
  | .endAll => some (s.endAll x.2)
  | .addValue nm v => some (s.addId (s.getId nm) v)
  | .addTime nm v => some (s.addId (s.getId nm) (v * clocksPerSec))

/-- A history of timed operations. -/
def TimeStats.run (s : TimeStats) (h : List (TOp × Int)) : Option TimeStats :=
  h.foldlM TimeStats.step s

/-- `get_value(name)` (include/common/TimeStats.hpp:181-191). -/
def TimeStats.getValue (s : TimeStats) (nm : String) : Int :=
  match s.getId nm with
  | none => -1
  | some i => match s.tmrs[i]? with
    | none => -1
    | some t => t.value

/-- `get_total_time(name)` in ticks (include/common/TimeStats.hpp:217-232); -1 second for an unknown
name. -/
def TimeStats.totalTicks (s : TimeStats) (nm : String) (now : Int) : Int :=
  match s.getId nm with
  | none => -clocksPerSec
  | some i => match s.tmrs[i]? with
    | none => -clocksPerSec
    | some t => if t.running then t.value + now - t.start else t.value

/-- `get_total_time(name)` in seconds (include/common/TimeStats.hpp:217-232). -/
def TimeStats.totalTime (s : TimeStats) (nm : String) (now : Int) : ℚ :=
  (s.totalTicks nm now : ℚ) / clocksPerSec

/-- `reachedTimeLimit` (include/common/TimeStats.hpp:106-108). -/
def TimeStats.reachedTimeLimit (s : TimeStats) (nm : String) (maxTime : ℚ) (now : Int) : Bool :=
  s.totalTime nm now > maxTime

/-- The loop of `get_name` (include/common/TimeStats.hpp:247-257) with fuel: the iterator starts at
the first entry and is never advanced. `none`: still running when the fuel is used up. -/
def TimeStats.getNameFuel (s : TimeStats) (id : Nat) : Nat → Option String
  | 0 => none
  | fuel + 1 =>
    match s.names with
    | [] => some ""
    | (nm, i) :: _ => if i = id then some nm else s.getNameFuel id fuel

end VPC
