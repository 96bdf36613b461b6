import Verif.Model.TreePlot

/-!
# From the tables to the drawing (src/utility/vpc_debug.cpp:207-293, :438-465)

The last correction of the tables of `generateTikzTreeString` and the recursion that writes the nodes.
-/
namespace VPC

/-- One row of the correction (src/utility/vpc_debug.cpp:444-454): an explored child (location 0) that is a leaf gets location 2.
`leaf` is `isLeafNode`; `.undef` outside of it. -/
def dangleRow (leaf : List Bool) : List (ℤ × ℤ) → Res (List (ℤ × ℤ))
  | [] => .ok []
  | c :: l =>
    if c.2 = 0 then
      if c.1 < 0 then .undef else
      match leaf[c.1.toNat]? with
      | none => .undef
      | some b => (dangleRow leaf l).bind fun r => .ok ((if b then (c.1, 2) else c) :: r)
    else (dangleRow leaf l).bind fun r => .ok (c :: r)

/-- The loop `for (int i = numNodes - 1; i >= 0; i--)` (src/utility/vpc_debug.cpp:441-458); the first argument is `i + 1`. A node is
a leaf if no place of its row is taken. -/
def dangleLoop : ℕ → List Bool → List (List (ℤ × ℤ)) → Res (List (List (ℤ × ℤ)))
  | 0, _, rows => .ok rows
  | i + 1, leaf, rows =>
    match rows[i]? with
    | none => .undef
    | some row => (dangleRow leaf row).bind fun row' =>
      dangleLoop i (if row.all (fun c => decide (c.2 < 0)) then leaf.set i true else leaf) (rows.set i row')

/-- "In the case that there are no leaf nodes, move the dangling ones to pruned" (src/utility/vpc_debug.cpp:438-459); `n` is
`numNodes`. -/
def dangle (n : ℕ) (t : Tikz) : Res Tikz :=
  (dangleLoop n (List.replicate n false) t.rows).bind fun rows => .ok { t with rows := rows }

/-- What is written for one node (src/utility/vpc_debug.cpp:228-260): its parent, its number, the depth, the colour, the variable at the
edge (`variable[node]`), and whether the side of the label is swapped. A dashed edge without label leads to a solution found by strong
branching. The objective value shown is left out. -/
structure Drawn where
  par : ℕ
  node : ℕ
  depth : ℕ
  loc : ℤ
  color : String
  label : Option ℤ
  swap : Bool
deriving DecidableEq, Repr

/-- The colour of a node (src/utility/vpc_debug.cpp:239-245). -/
def drawColor (loc : ℤ) : String :=
  if loc = 1 ∨ loc = 4 then "green!75!black" else if loc = 2 then "red" else if loc = 3 then "blue" else ""

/-- The text of one node (src/utility/vpc_debug.cpp:228-260): `variable[node_ind]` is read for all nodes but the root and those with
location 4. -/
def drawItem (t : Tikz) (par node depth slot : ℕ) (loc : ℤ) : Res Drawn :=
  if node = 0 ∨ loc = 4 then .ok ⟨par, node, depth, loc, drawColor loc, none, false⟩
  else match t.vars[node]? with
    | none => .undef
    | some v => .ok ⟨par, node, depth, loc, drawColor loc, some v, slot == 0⟩

/-- The loop over the places of a row (src/utility/vpc_debug.cpp:264-283). -/
def drawKids (g : ℕ → ℕ → ℤ → Res (List Drawn)) : List ((ℤ × ℤ) × ℕ) → Res (List Drawn)
  | [] => .ok []
  | c :: l =>
    if c.1.1 < 0 ∨ c.1.2 < 0 then drawKids g l
    else (g c.1.1.toNat c.2 c.1.2).bind fun a => (drawKids g l).bind fun b => .ok (a ++ b)

/-- `generateTikzTreeStringHelper` (src/utility/vpc_debug.cpp:217-293): the nodes in the order written. The first argument bounds the
depth of the recursion; `.undef` stands for a recursion that does not end (and for a read outside of a table). -/
def drawNode (n : ℕ) (t : Tikz) : ℕ → ℕ → ℕ → ℕ → ℕ → ℤ → Res (List Drawn)
  | 0, _, _, _, _, _ => .undef
  | f + 1, par, node, depth, slot, loc =>
    (drawItem t par node depth slot loc).bind fun d =>
    if node < n ∧ loc ≠ 4 then
      match t.rows[node]? with
      | none => .undef
      | some row => (drawKids (fun c j l => drawNode n t f node c (depth + 1) j l) row.zipIdx).bind fun ds => .ok (d :: ds)
    else .ok [d]

/-- The drawing of `generateTikzTreeString` when the tree of Cbc is empty at the end (src/utility/vpc_debug.cpp:311-465); `root` is
`stats[0].found_integer_solution`. -/
def drawClosed (same : ℚ → ℚ → Bool) (s : PTree) (root : Bool) : Res (List Drawn) :=
  (tikzTable same s []).bind fun t => (dangle (s.count + 1) t).bind fun t =>
  drawNode (s.count + 1) t (s.count + 2) 0 0 0 0 (if root then 1 else 0)

/-- The drawing when nodes are open (src/utility/vpc_debug.cpp:311-465): no correction is made. -/
def drawOpen (same : ℚ → ℚ → Bool) (s : PTree) (root : Bool) : Res (List Drawn) :=
  (tikzTable same s s.active).bind fun t =>
  drawNode (s.count + 1) t (s.count + 2) 0 0 0 0 (if root then 1 else 0)

end VPC
