import Verif.Graph.Build

/-! # Specification of dependency graphs -/

namespace OFE
namespace Graph

variable {π : Type}

/-- Specification: the rule neither depends on another nor does another on it. -/
def Alone (deps : List (Nat × Nat)) (i : Nat) : Prop := ∀ j, (i, j) ∉ deps ∧ (j, i) ∉ deps

/-- Specification: the graph has the rules that are not alone as nodes and the dependencies as edges, those between tables in red; nodes are labelled with
their numbers in the ruleset. -/
structure Shows (rules : List (Rule π)) (deps : List (Nat × Nat)) (g : DepGraph) : Prop where
  nodup : g.nodes.Nodup
  nodes : ∀ i, i ∈ g.nodes ↔ i < rules.length ∧ ¬ Alone deps i
  once : (g.edges.map (·.1)).Nodup
  edges : ∀ i j red, ((i, j), red) ∈ g.edges ↔ (i, j) ∈ deps ∧ ∀ r s, rules[i]? = some r → rules[j]? = some s → (red = true ↔ r.table ≠ s.table)
  labels : ∀ i n, (i, n) ∈ g.label ↔ i ∈ g.nodes ∧ n = i
  unreachable : ∀ i, i ∈ g.unreachable ↔ i < rules.length ∧ Alone deps i

/-- Specification: the nodes, and only they, are numbered from 1 without gaps, in an order of the rules. -/
structure Numbered (rules : List (Rule π)) (nodes : List Nat) (lt : Rule π → Rule π → Prop) (d : List (Nat × Nat)) : Prop where
  all : ∀ i, (d.lookup i).isSome ↔ i ∈ nodes
  order : ∀ i j a b r s, d.lookup i = some a → d.lookup j = some b → rules[i]? = some r → rules[j]? = some s → (a < b ↔ lt r s)
  dense : ∀ i a, d.lookup i = some a → 1 ≤ a ∧ ∀ c, 1 ≤ c → c ≤ a → ∃ k, d.lookup k = some c

/-- Specification: the numbers for each kind of clusters and groups but `compressed`. -/
def NumberedBy (rules : List (Rule π)) (nodes : List Nat) : Grouping → List (Nat × Nat) → Prop
  | .none, d => d = []
  | .table, d => Numbered rules nodes (fun r s => r.table < s.table) d
  | .priority, d => Numbered rules nodes (fun r s => r.table < s.table ∨ (r.table = s.table ∧ s.priority < r.priority)) d
  | .compressed, _ => False

/-- Specification: the ruleset is sorted by table and priority. -/
def Sorted (rules : List (Rule π)) : Prop := rules.Pairwise fun r s => r.table < s.table ∨ (r.table = s.table ∧ s.priority ≤ r.priority)

end Graph
end OFE
