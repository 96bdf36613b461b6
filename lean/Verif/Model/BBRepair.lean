import Verif.Model.BB

/-!
# The repair of a node that was taken for pruned (src/branch/VPCEventHandler.cpp:494-565)

Without a branching method with a choose method the `node` event can find the LP of the child infeasible although Cbc creates
the child. The event then records a pruned node; the next `treeStatus` event notices it, because its own count and Cbc's
differ, and moves the entry from `pruned_stats_` to `stats_`.
-/
namespace VPC

/-- A child taken for pruned: the objective value recorded by the `node` event, the bounds recorded then (only if the point of the
solver passed for an integer solution, src/branch/VPCEventHandler.cpp:646-663, :170-172) and the node that Cbc makes. -/
structure Missed where
  obj : ℚ
  pre : List BChange := []
  node : NewNode
deriving DecidableEq, Repr

/-- The entry in `pruned_stats_` (src/branch/VPCEventHandler.cpp:148-188). -/
def missedStat (s : BB) (p : CNode) (m : Missed) : NStat := { prunedStat s p m.obj with changes := m.pre }

/-- The `node` event for such a child (src/branch/VPCEventHandler.cpp:613-846) and what Cbc does after it: the entry of the parent
gets the number after the last entry (`will_create_child` is false, :98), Cbc gives that number to the child and the next one to
the parent. -/
def missStep (s : BB) (pick : ℕ) (m : Missed) : Res BB :=
  match s.tree[pick]? with
  | none => .undef
  | some p =>
    let rest := s.tree.eraseIdx pick ++ [m.node.node s.count2 (some p.first)]
    let p' : CNode := { p with branchIndex := p.branchIndex + 1 }
    if (0 : ℤ) < p'.branchesLeft then
      (pushStat s.stats (nodeStat p' s.count2 p.number (parentNo s p) [])).bind fun stats =>
      .ok { s with tree := rest ++ [{ p' with number := s.count2 + 1 }], stats := stats
                   pruned := s.pruned ++ [missedStat s p m], count2 := s.count2 + 2
                   cur := ((s.cur ++ [s.count2]).set p.first (s.count2 + 1)) ++ [s.count2 + 1] }
    else .ok { s with tree := rest, pruned := s.pruned ++ [missedStat s p m], count2 := s.count2 + 1
                      cur := s.cur ++ [s.count2] }

/-- The entry of a node found on the tree, made from the entry `q` of the pruned nodes
(src/branch/VPCEventHandler.cpp:516-552): the bounds of the solver are appended to those that were there. -/
def repairedStat (s : BB) (q : NStat) (nd : CNode) (lo hi : List (Option ℚ)) : NStat :=
  { q with
    bvar := nd.var, branchIndex := nd.branchIndex, way := nd.way, obj := nd.obj, value := nd.value
    lb := if nd.way > 0 then (⌈nd.value⌉ : ℤ) else nd.prevLB
    ub := if nd.way > 0 then nd.prevUB else (⌊nd.value⌋ : ℤ)
    changes := q.changes ++ changedBounds lo hi s.oLo s.oHi }

/-- The repair at a `treeStatus` event (src/branch/VPCEventHandler.cpp:494-565), after the point where the disjunction is saved
(:476-492). `choose`: there is a branching method with a choose method; `objKnown`: the branching object knows its original object
(otherwise the process is ended, :540-544); `lo`, `hi`: bounds of the solver at this moment (:550-551, "I am not sure the solver is
reflecting the node soluton any more... but let's hope"). Simplified: a failed assertion and a branching object that is not one of
Cbc's are an exit. -/
def repair (choose objKnown : Bool) (lo hi : List (Option ℚ)) (s : BB) : Res BB :=
  if choose then .ok s
  else
    match s.stats.getLast? with
    | none => .undef
    | some last =>
      if s.count2 = last.id + 1 then .ok s
      else
        match s.pruned.getLast? with
        | none => .undef
        | some q =>
          match s.tree.find? fun n => n.number == q.id with
          | none => .exit
          | some nd =>
            if nd.osi then .exit
            else if !objKnown then .exit
            else
              let st := repairedStat s q nd lo hi
              .ok { s with
                pruned := s.pruned.dropLast
                stats := if last.id = st.id then s.stats.dropLast ++ [st, { last with id := st.id + 1 }]
                  else s.stats ++ [st] }

/-- What happens between two `treeStatus` events: a step whose child is recorded correctly, or one whose child is taken for
pruned, with the solver's bounds at the following event. -/
inductive RStep
  | plain (e : BBStep)
  | missed (pick : ℕ) (m : Missed) (lo hi : List (Option ℚ))
deriving DecidableEq, Repr

/-- A step and the repair at the next `treeStatus` event (src/branch/VPCEventHandler.cpp:434-565, :566-847), when the search goes
on. -/
def rStep (choose objKnown : Bool) (s : BB) : RStep → Res BB
  | .plain e => (bbStep s e).bind fun s => repair choose objKnown s.oLo s.oHi s
  | .missed pick m lo hi => (missStep s pick m).bind fun s => repair choose objKnown lo hi s

/-- A history with the repairs (src/branch/VPCEventHandler.cpp:429-847). -/
def rRun (choose objKnown : Bool) : BB → List RStep → Res BB
  | s, [] => .ok s
  | s, e :: es => (rStep choose objKnown s e).bind fun s => rRun choose objKnown s es

end VPC
