import Verif.Graph.Layout

/-! # Specification of the layout -/

namespace OFE
namespace Graph

variable {α : Type}

/-- The order in which nodes are taken is total, and edges lead to later nodes. -/
structure Ordered (le : α → α → Bool) (g : DiGraph α) : Prop where
  total : ∀ a b, le a b = true ∨ le b a = true
  trans : ∀ a b c, le a b = true → le b c = true → le a c = true
  nodup : g.nodes.Nodup
  ne : g.nodes ≠ []
  ends : ∀ e ∈ g.edges, e.1 ∈ g.nodes ∧ e.2 ∈ g.nodes
  forward : ∀ e ∈ g.edges, le e.2 e.1 = false

/-- Specification: a position for each node and for nothing else, all different and within the open box. -/
structure Drawn (scale : ℚ) (nodes : List α) (pos : List (α × (ℚ × ℚ))) : Prop where
  keys : (pos.map (·.1)).Perm nodes
  apart : (pos.map (·.2)).Nodup
  box : ∀ x ∈ pos, (0 < x.2.1 ∧ x.2.1 < scale) ∧ (0 < x.2.2 ∧ x.2.2 < scale)

/-- Specification: `u` is drawn higher than `v`. -/
def Above (pos : List (α × (ℚ × ℚ))) (u v : α) : Prop := ∀ a b, (u, a) ∈ pos → (v, b) ∈ pos → b.2 < a.2

end Graph
end OFE
