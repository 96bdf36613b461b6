import Verif.Model.BB
import Verif.Model.Params
import Verif.Model.SetupList

/-!
# Settings of the partial tree and its preparation
(src/disjunction/PartialBBDisjunction.cpp:92-283, :304-464)
-/
namespace VPC

/-- Branching decision objects (src/disjunction/PartialBBDisjunction.cpp:357-366). -/
inductive BrDec | default | dynamic | strong
deriving DecidableEq, Repr

/-- Node comparison objects (src/disjunction/PartialBBDisjunction.cpp:371-382). -/
inductive NodeCmp | default | bfs | depth | estimate | objective
deriving DecidableEq, Repr

/-- The custom variable chooser (src/disjunction/PartialBBDisjunction.cpp:399-407): its method and,
where set, the number of candidates and the number of trials before pseudocosts are trusted. -/
structure ChooserSet where
  method : ℤ
  strong : Option ℤ
  trust : Option ℤ
deriving DecidableEq, Repr

/-- What `setCbcParametersForPartialBB` sets in the model (src/disjunction/PartialBBDisjunction.cpp:328-430);
`none`: left as it is in Cbc. -/
structure TreeSet where
  branch : Option BrDec
  compare : NodeCmp
  strong : Option ℤ
  trust : Option ℤ
  chooser : Option ChooserSet
  presolve : ℤ
  maxSeconds : ℚ
  cutPassesRoot : ℤ
  cutPasses : ℤ
  whenCuts : ℤ
  hotStartIterations : ℤ
deriving DecidableEq, Repr

/-- src/disjunction/PartialBBDisjunction.cpp:357-366. -/
def branchOf (branchStrategy : ℤ) : Option BrDec :=
  if branchStrategy = 1 then some .dynamic
  else if branchStrategy = 2 then some .strong
  else if branchStrategy = 3 then none
  else some .default

/-- src/disjunction/PartialBBDisjunction.cpp:371-382. -/
def compareOf (compareStrategy : ℤ) : NodeCmp :=
  if compareStrategy = 1 then .bfs
  else if compareStrategy = 2 then .depth
  else if compareStrategy = 3 then .estimate
  else if compareStrategy = 4 then .objective
  else .default

/-- `if (n >= 0) set(n)` (src/disjunction/PartialBBDisjunction.cpp:389-396, :400-405). -/
def setIfNonneg (n : ℤ) : Option ℤ := if n ≥ 0 then some n else none

/-- `setCbcParametersForPartialBB` (src/disjunction/PartialBBDisjunction.cpp:328-430). The fallback
chooser (:409-414) is never used because a chooser has just been set (:408). The event handler and the
print settings are left out. -/
def treeSettings (compare branch choose numStrong numTrust : ℤ) (maxTime : ℚ) : TreeSet where
  branch := branchOf branch
  compare := compareOf compare
  strong := setIfNonneg numStrong
  trust := setIfNonneg numTrust
  chooser := (branchOf branch).map fun _ =>
    { method := choose, strong := setIfNonneg numStrong, trust := setIfNonneg numTrust }
  presolve := 0
  maxSeconds := maxTime
  cutPassesRoot := 0
  cutPasses := 0
  whenCuts := 0
  hotStartIterations := 100

/-- The settings with which the tree is made (src/disjunction/PartialBBDisjunction.cpp:176-187 and
:433-449): `none` is the undefined behaviour of `getCbcStrategies`. -/
def treeSettingsOf (strategy numStrong : ℤ) (cols : ℕ) : Option TreeSet :=
  (getCbcStrategies strategy).map fun s =>
    treeSettings s.1 s.2.1 s.2.2 (numStrongOf numStrong cols) intMax dblMax

/-- One search: the saves made at its `treeStatus` events, in order (each starts with
`owner->setupAsNew()`, src/branch/VPCEventHandler.cpp:1240-1258), and what is read at its end. -/
structure TreeRun where
  saves : List SaveSt
  numLeaf : ℤ
  found : Bool
  fin : CbcEnd

/-- `PartialBBDisjunction::prepareDisjunction` (src/disjunction/PartialBBDisjunction.cpp:92-283) on a
disjunction that holds `D`: the disjunction is not reset at the start (:94). -/
def prepareTree (disjTerms : ℤ) (keep : Bool) (D : Disj) (run : TreeRun) : Res (DisjExit × Disj) :=
  if disjTerms < 2 then .ok (.NO_DISJUNCTION, D)
  else pbbFinish keep ((run.saves.getLast?.map SaveSt.D).getD D) run.numLeaf run.found run.fin

/-- Preparing the same object again and again. -/
def prepareTrees (disjTerms : ℤ) (keep : Bool) : Disj → List TreeRun → Res Disj
  | D, [] => .ok D
  | D, r :: rs => (prepareTree disjTerms keep D r).bind fun x => prepareTrees disjTerms keep x.2 rs

end VPC
