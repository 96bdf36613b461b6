import Verif.Model.Timer

/-!
# Which timers run when: the generator (src/cut/CglVPC.cpp, src/cut/PRLP.cpp) and the program (src/main.cpp)

Each function gives the list of calls to the timer object, in the order of the code. How the run goes (which limits are
reached, how many LPs are solved, which heuristics are on) is an argument. Functions that end the process are not
followed further. Questions to a timer are not listed: they do not change it.
-/
namespace VPC

/-- A call, by name or by number (include/common/TimeStats.hpp:56-65). -/
inductive TmOp
  | op (o : TOp)
  | startIx (i : ℕ)
  | stopIx (i : ℕ)
deriving DecidableEq

/-- One call at clock reading `x.2` (include/common/TimeStats.hpp:118-151). -/
def TimeStats.stepG (s : TimeStats) (x : TmOp × ℤ) : Option TimeStats :=
  match x.1 with
  | .op o => s.step (o, x.2)
  | .startIx i => s.startId (some i) x.2
  | .stopIx i => s.endId (some i) x.2

/-- A history of calls (include/common/TimeStats.hpp:118-179). -/
def TimeStats.runG (s : TimeStats) (h : List (TmOp × ℤ)) : Option TimeStats := h.foldlM TimeStats.stepG s

/-- The `k`-th call reads the clock `cl k` (`clock()` in include/common/TimeStats.hpp:135, :148). -/
def stamp {α : Type} (cl : ℕ → ℤ) : ℕ → List α → List (α × ℤ)
  | _, [] => []
  | k, o :: os => (o, cl k) :: stamp cl (k + 1) os

/-- Start by name. -/
def gStart (nm : String) : TmOp := .op (.start nm)
/-- Stop by name. -/
def gStop (nm : String) : TmOp := .op (.stop nm)

/-! ## The generator -/

/-- `VPCTimeStatsName`, in the order of the enumeration (src/cut/CglVPC.cpp:63-71, include/CglVPC.hpp:59-68). -/
def vpcTimeNames : List String :=
  ["TOTAL_TIME", "INIT_SOLVE_TIME", "DISJ_SETUP_TIME", "GEN_DISJ_TIME", "PRLP_SETUP_TIME", "PRLP_SOLVE_TIME",
   "GEN_CUTS_TIME"]

/-- `ObjectiveTypeName[t] + "_TIME"` (src/cut/CglVPC.cpp:75-89). -/
def objTimeNames : List String :=
  ["DUMMY_OBJ_TIME", "ALL_ONES_TIME", "CUT_VERTICES_TIME", "ITER_BILINEAR_TIME", "UNIT_VECTORS_TIME", "DISJ_LB_TIME",
   "TIGHT_POINTS_TIME", "TIGHT_RAYS_TIME", "TIGHT_POINTS2_TIME", "TIGHT_RAYS2_TIME", "USER_TIME", "OBJ_CUT_TIME",
   "ONE_SIDED_TIME"]

/-- Registration in a new generator (src/cut/CglVPC.cpp:680-685). -/
def genRegister : List TmOp := (vpcTimeNames ++ objTimeNames).map fun nm => .op (.register nm 0)

/-- `genCut` (src/cut/PRLP.cpp:580-636, :764-765): every return goes through `exitGenCut`. -/
def genCutOps : List TmOp := [gStart "PRLP_SOLVE_TIME", gStop "PRLP_SOLVE_TIME"]

/-- `k` objectives tried one after the other (src/cut/PRLP.cpp:436, :503, :1753, :1968). -/
def solvesOps : ℕ → List TmOp
  | 0 => []
  | k + 1 => genCutOps ++ solvesOps k

/-- A heuristic of `targetStrongAndDifferentCuts`: how many objectives it tries (`none`: it is switched off), and whether
cut generation is abandoned in it or after it. -/
structure PhaseW where
  solves : Option ℕ
  stop : Bool

/-- A heuristic, followed by the rest (src/cut/PRLP.cpp:1370-1391, and likewise :1394-1418, :1439-1460,
:1463-1503, :1506-1561, :1565-1611, :1614-1660, :1663-1698). The loops stop the timer before they abandon. Simplified: a
heuristic that is switched off may also be followed by the test. -/
def phaseOps (nm : String) (p : PhaseW) (rest : List TmOp) : List TmOp :=
  (match p.solves with
    | none => []
    | some k => gStart nm :: (solvesOps k ++ [gStop nm])) ++
  (if p.stop then [] else rest)

/-- How a run of `targetStrongAndDifferentCuts` goes. -/
structure TargetW where
  atOnce : Bool
  ones : PhaseW
  bilinear : PhaseW
  disjLB : PhaseW
  points : PhaseW
  units : PhaseW
  rays : PhaseW
  points2 : PhaseW
  rays2 : PhaseW

/-- `targetStrongAndDifferentCuts` (src/cut/PRLP.cpp:1332-1701). -/
def targetOps (w : TargetW) : List TmOp :=
  if w.atOnce then []
  else
    phaseOps "ALL_ONES_TIME" w.ones <|
    phaseOps "ITER_BILINEAR_TIME" w.bilinear <|
    genCutOps ++
    (phaseOps "DISJ_LB_TIME" w.disjLB <|
    phaseOps "TIGHT_POINTS_TIME" w.points <|
    phaseOps "UNIT_VECTORS_TIME" w.units <|
    phaseOps "TIGHT_RAYS_TIME" w.rays <|
    phaseOps "TIGHT_POINTS2_TIME" w.points2 <|
    phaseOps "TIGHT_RAYS2_TIME" w.rays2 [])

/-- `PRLP::setup` (src/cut/PRLP.cpp:64-65, :345-349, :364-377): the first timer by its number. -/
def prlpSetupOps (solved : Bool) : List TmOp :=
  [.startIx 4, .stopIx 4] ++ if solved then [gStart "DUMMY_OBJ_TIME", gStop "DUMMY_OBJ_TIME"] else []

/-- How `tryObjectives` goes: `setup` `none`: it returns before (limits or a useless disjunction); `user`: objectives of the
user that are tried; `target` `none`: the status does not allow more. -/
structure TryW where
  setup : Option Bool
  user : ℕ
  target : Option TargetW

/-- `tryObjectives` (src/cut/CglVPC.cpp:1437-1560). -/
def tryOps (w : TryW) : List TmOp :=
  match w.setup with
  | none => []
  | some solved => prlpSetupOps solved ++ (solvesOps w.user ++
      match w.target with
      | none => []
      | some t => gStart "GEN_CUTS_TIME" :: (targetOps t ++ [gStop "GEN_CUTS_TIME"]))

/-- `time_T1 + std::to_string(i)` (src/cut/CglVPC.cpp:111, :1205). -/
def t1Name (i : ℕ) : String := "TIME_TYPE1_" ++ toString i
/-- `time_T2 + std::to_string(i)` (src/cut/CglVPC.cpp:112, :1206). -/
def t2Name (i : ℕ) : String := "TIME_TYPE2_" ++ toString i

/-- The loop over the terms (src/cut/CglVPC.cpp:1087-1225) from number `i` on; for each term: feasible, and not
skipped by the time limit. -/
def termsOps : ℕ → List (Bool × Bool) → List TmOp
  | _, [] => []
  | i, (feasible, inTime) :: ts =>
    (if feasible then
      [.op (.register (t1Name i) 0), .op (.register (t2Name i) 0)] ++
      if inTime then
        [gStart "TIME_TYPE1_TOTAL", gStart (t1Name i), gStop "TIME_TYPE1_TOTAL", gStop (t1Name i)]
      else []
    else []) ++ termsOps (i + 1) ts

/-- One disjunction: terms saved as integer points (they have no timer), the other terms, and the objectives (`none`:
setting up failed). -/
structure DisjW where
  points : ℕ
  terms : List (Bool × Bool)
  try? : Option TryW

/-- One disjunction (src/cut/CglVPC.cpp:521-549, :1044-1290). -/
def disjOps (w : DisjW) : List TmOp :=
  termsOps w.points w.terms ++ match w.try? with
    | none => []
    | some t => tryOps t

/-- The loop over the disjunctions (src/cut/CglVPC.cpp:507-550); fewer are treated if a limit is reached. -/
def disjsOps : List DisjW → List TmOp
  | [] => []
  | w :: ws => disjOps w ++ disjsOps ws

/-- Preparing one disjunction. `split var core`: the variable asked for (-1: any), and the number of candidates. -/
inductive PrepW
  | tooFew
  | tree
  | split (var : ℤ) (core : ℕ)

/-- `prepareDisjunction` (src/disjunction/PartialBBDisjunction.cpp:97-109, :173-190,
src/disjunction/SplitDisjunction.cpp:83-169): without candidates it returns without stopping its timer. -/
def prepOps : PrepW → List TmOp
  | .tooFew => []
  | .tree => [gStart "GEN_DISJ_TIME", gStop "GEN_DISJ_TIME"]
  | .split var core =>
    if var < 0 ∧ core = 0 then [gStart "GEN_DISJ_TIME"] else [gStart "GEN_DISJ_TIME", gStop "GEN_DISJ_TIME"]

/-- Preparing the members of a set (src/disjunction/Disjunction.cpp:436-452); it may stop early, so the list is that of the
members prepared. -/
def prepsOps : List PrepW → List TmOp
  | [] => []
  | p :: ps => prepOps p ++ prepsOps ps

/-- How a call of `generateCuts` goes: `prep` `none`: it returns before preparing; `disjs` `none`: it
returns after preparing. -/
structure GenW where
  prep : Option (List PrepW)
  disjs : Option (List DisjW)

/-- `generateCuts` and `finish` (src/cut/CglVPC.cpp:235-553, :1687-1698). -/
def generateOps (w : GenW) : List TmOp :=
  gStart "TOTAL_TIME" ::
  ((match w.prep with
    | none => []
    | some ps => prepsOps ps ++ match w.disjs with
      | none => []
      | some ds => disjsOps ds) ++
  [gStop "TOTAL_TIME"])

/-- Calls of `generateCuts` one after the other. -/
def callsOps : List GenW → List TmOp
  | [] => []
  | w :: ws => generateOps w ++ callsOps ws

/-! ## The program -/

/-- `OverallTimeStatsName`, in the order of the enumeration (src/main.cpp:54-88). -/
def mainTimeNames : List String :=
  ["INIT_SOLVE_TIME", "GOMORY_GEN_TIME", "GOMORY_APPLY_TIME", "CUT_TOTAL_TIME", "VPC_GEN_TIME", "VPC_APPLY_TIME",
   "VPC_INIT_SOLVE_TIME", "VPC_DISJ_SETUP_TIME", "VPC_DISJ_GEN_TIME", "VPC_PRLP_SETUP_TIME", "VPC_PRLP_SOLVE_TIME",
   "VPC_GEN_CUTS_TIME", "BB_TIME", "TOTAL_APPLY_TIME", "TOTAL_TIME"]

/-- Registration (src/main.cpp:183-186). -/
def mainRegister : List TmOp := mainTimeNames.map fun nm => .op (.register nm 0)

/-- A round: Gomory cuts, VPCs, cuts applied. -/
structure RoundW where
  gomory : Bool
  vpc : Bool
  apply : Bool

/-- A round of cuts (src/main.cpp:475-697). The values of the generator are added to timers that are never started
(`add_value`, src/main.cpp:631-636, see C122); these calls are left out. -/
def roundOps (w : RoundW) : List TmOp :=
  .startIx 3 ::
  ((if w.gomory then [.startIx 1, .stopIx 1, .startIx 2, .stopIx 2] else []) ++
   ((if w.vpc then [.startIx 4, .stopIx 4] else []) ++
    (.stopIx 3 :: .startIx 13 ::
     ((if w.apply then [.startIx 5, .stopIx 5] else []) ++ [.stopIx 13]))))

/-- The rounds (src/main.cpp:462-838). -/
def roundsOps : List RoundW → List TmOp
  | [] => []
  | w :: ws => roundOps w ++ roundsOps ws

/-- How the program goes on after the LP relaxation: it ends because the solution is integral; it preprocesses; an option is
wrong; or it does rounds of cuts (and branch-and-bound tests). -/
inductive MainW
  | integral
  | preprocess
  | badOption
  | rounds (ws : List RoundW) (bb : Bool)

/-- `main` up to `wrapUp`, which writes the times (src/main.cpp:183-204, :288-291, :312, :357, :361-378,
:462-866). -/
def mainOps (w : MainW) : List TmOp :=
  [.startIx 14, .startIx 0, .stopIx 0] ++
  match w with
  | .integral => []
  | .preprocess => [.stopIx 14, .startIx 14]
  | .badOption => [.stopIx 14, .startIx 14]
  | .rounds ws bb =>
    [.stopIx 14, .startIx 14] ++ (roundsOps ws ++ ((if bb then [.startIx 12, .stopIx 12] else []) ++ [.stopIx 14]))

end VPC
