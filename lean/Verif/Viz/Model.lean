import Verif.Nearest.Model

/-!
# Model of the output of a tree for drawing

Models `visitAllIterative` and `GraphvizVisitor` of `src/spatial/detail/ArborX_TreeVisualization.hpp`. Statements of the output are
values, not strings.
-/

namespace ArborX.Viz

variable {α V β : Type}

/-- `getNodeLabel` (lines 36-46): `l` and the index of the value for a leaf, `i` and the number of the node otherwise. -/
inductive Label where
  | leaf (index : ℕ)
  | internal (node : ℕ)
  deriving DecidableEq, Repr

/-- A line of the output: a node with its attribute (lines 48-52, 79-86) or an edge with its attribute (lines 54-60, 88-105). -/
inductive Stmt where
  | node (l : Label) (isLeaf : Bool)
  | edge (a b : Label) (pendant : Bool)
  deriving DecidableEq, Repr

/-- `getNodeLabel` (lines 36-46). `index` is the member of a value. -/
def label (mem : Mem α V) (index : α → ℕ) (node : ℕ) : Option Label :=
  if node < mem.size then (mem.leaf node).map (fun x => .leaf (index x.value)) else some (.internal node)

/-- `GraphvizVisitor::visit` (lines 72-105). -/
def graphviz (mem : Mem α V) (index : α → ℕ) (node : ℕ) : Option (List Stmt) :=
  match label mem index node with
  | none => none
  | some l =>
    if node < mem.size then some [.node l true]
    else match Nearest.children mem node with
      | none => none
      | some (a, b) =>
        match label mem index a, label mem index b with
        | some la, some lb =>
          some [.node l false, .edge l la (decide (a < mem.size)), .edge l lb (decide (b < mem.size))]
        | _, _ => none

/-- The loop of `visitAllIterative` (lines 139-151) with a stack of `cap` entries (`src/misc/ArborX_Stack.hpp` 25: 64); `acc` is the output
so far. -/
def visitLoop (mem : Mem α V) (visit : ℕ → Option (List β)) (cap : ℕ) : ℕ → List ℕ → List β → Res (List β)
  | 0, _, _ => .timeout
  | _ + 1, [], acc => .done acc
  | fuel + 1, node :: st, acc =>
    match visit node with
    | none => .fault
    | some out =>
      if node < mem.size then visitLoop mem visit cap fuel st (acc ++ out)
      else match Nearest.children mem node with
        | none => .fault
        | some (l, r) =>
          if st.length + 2 ≤ cap then visitLoop mem visit cap fuel (r :: l :: st) (acc ++ out) else .fault

/-- `visitAllIterative` (lines 133-152). `getRoot` requires at least two values
(`src/spatial/detail/ArborX_HappyTreeFriends.hpp` 25-30). -/
def visitAll (mem : Mem α V) (visit : ℕ → Option (List β)) (cap fuel : ℕ) : Res (List β) :=
  if mem.size ≤ 1 then .fault else visitLoop mem visit cap fuel [mem.size] []

end ArborX.Viz
