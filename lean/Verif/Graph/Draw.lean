import Verif.Common
import Verif.Deps.Model

/-!
# Drawings of dependency graphs: `create_d3`, `reorder_dot` and `create_dot` in `ofequivalence/graph_ruleset_deps.py`

A pydot graph is the list of its nodes and edges in the order in which it has them; nodes are found by their names.
-/

namespace OFE.Draw
open Deps (sortBy)

/-! ### Web pages -/

/-- `list.index`, graph_ruleset_deps.py:584-585: the first element that is equal. -/
def indexOf {α : Type} (eq : α → α → Bool) (x : α) : List α → Except PyErr Nat
  | [] => .error .valueError
  | y :: ys => if eq y x then .ok 0 else do return (← indexOf eq x ys) + 1

/-- `create_d3`, graph_ruleset_deps.py:578-590, as far as it concerns the links: `nodes` and `links` are those of node_link_data, `eq` is `Rule.__eq__`. -/
def d3Links {α : Type} (eq : α → α → Bool) (nodes : List α) : List (α × α) → Except PyErr (List (Nat × Nat))
  | [] => .ok []
  | (s, t) :: rest => do
    let i ← indexOf eq s nodes
    let j ← indexOf eq t nodes
    return (i, j) :: (← d3Links eq nodes rest)

/-! ### Sequence numbers -/

/-- `sequences.pop()` for each item in turn, graph_ruleset_deps.py:490-491: the last number of the list, which is sorted downwards. -/
def popAll {ι : Type} : List ι → List Nat → Except PyErr (List (ι × Nat))
  | [], _ => .ok []
  | x :: xs, seqs =>
    match seqs.getLast? with
    | none => .error .indexError
    | some n => do return (x, n) :: (← popAll xs seqs.dropLast)

/-- `reorder_dot`, graph_ruleset_deps.py:487-491: the items, in the order of the sort key, with their new sequence numbers.  `le` compares the keys. -/
def reorderDot {ι : Type} (le : ι → ι → Bool) (items : List (ι × Nat)) : Except PyErr (List (ι × Nat)) :=
  popAll (sortBy (fun a b => le a.1 b.1) items |>.map (·.1)) (sortBy (fun a b => decide (b ≤ a)) (items.map (·.2)))

/-! ### Boxes and constraints -/

/-- A node of a pydot graph, with the attributes `cluster` and `group` (graph_ruleset_deps.py:521-527). -/
structure Node where
  name : String
  cluster : Nat
  group : Nat
deriving DecidableEq, Repr

/-- `clusters[key].add(node)` for all nodes, graph_ruleset_deps.py:520-527, for `clusters` or `groups`.  Sets are lists here. -/
def gather (key : Node → Nat) : List Node → List (Nat × List Node) → List (Nat × List Node)
  | [], d => d
  | n :: rest, d => gather key rest (dictSet (key n) ((d.lookup (key n)).getD [] ++ [n]) d)

/-- `sorted(clusters.items(), key=lambda x: int(x[0]))`, graph_ruleset_deps.py:529, 539 -/
def byNumber (d : List (Nat × List Node)) : List (Nat × List Node) := sortBy (fun a b => decide (a.1 ≤ b.1)) d

/-- The subgraphs, graph_ruleset_deps.py:528-535; `order` is the order in which a set is iterated over. -/
def boxes (order : List Node → List Node) (nodes : List Node) : List (Nat × List String) :=
  (byNumber (gather (·.cluster) nodes [])).map fun x => (x.1, (order x.2).map (·.name))

/-- `add_constraint`, graph_ruleset_deps.py:501-508 -/
def addConstraint (edges : List (String × String)) (src dst : Node) : List (String × String) :=
  if (src.name, dst.name) ∈ edges then edges else edges ++ [(src.name, dst.name)]

/-- The loop, graph_ruleset_deps.py:537-542; `next(iter(nodes))` of an empty set is StopIteration (a runtime error here). -/
def constrain (order : List Node → List Node) : List (Nat × List Node) → Option Node → List (String × String) → Except PyErr (List (String × String))
  | [], _, edges => .ok edges
  | (_, ns) :: rest, prev, edges =>
    match (order ns).head? with
    | none => .error .runtimeError
    | some n =>
      constrain order rest (some n) (match prev with | none => edges | some p => addConstraint edges p n)

/-- The edges after `create_dot`, graph_ruleset_deps.py:537-542, with `--group`. -/
def constraints (order : List Node → List Node) (nodes : List Node) (edges : List (String × String)) : Except PyErr (List (String × String)) :=
  constrain order (byNumber (gather (·.group) nodes [])) none edges

end OFE.Draw
