import Verif.Store.Model
import Verif.Bdd.Spec

/-!
# Specification for the shared node table
-/

namespace OFE
namespace Store
variable {α : Type} [DecidableEq α]

/-- Looking a packet up by following references: `Walk nodes n p r x` says that from reference `r` packet `p` ends at
terminal action `x`, or at `None`. -/
inductive Walk (nodes : List (Obj α)) (n : Nat) (p : Packet) : Ref → Option α → Prop where
  | none : Walk nodes n p none none
  | term {i a} : nodes[i]? = some (.term a) → Walk nodes n p (some i) (some a)
  | zero {i num z o h x} : nodes[i]? = some (.node num z o h) → p (n - 1 - num) = false → Walk nodes n p z x →
      Walk nodes n p (some i) x
  | one {i num z o h x} : nodes[i]? = some (.node num z o h) → p (n - 1 - num) = true → Walk nodes n p o x →
      Walk nodes n p (some i) x

/-- The tree-level operation an operation of the node table must implement. -/
def Op.tree (d : α) : Op → DD α → DD α → DD α
  | .meld => DD.meld
  | .difference => DD.difference d
  | .subtract => DD.subtract
  | .intersection => DD.intersection

/-- One call at the level of trees. -/
def stepT (n : Nat) (d : α) (x : List (DD α)) (c : Call α) : List (DD α) :=
  match c with
  | .wc wc act =>
    match DD.wcToDD n wc act with
    | some t => x ++ [t]
    | none => x
  | .op op i j =>
    match x[i]?, x[j]? with
    | some a, some b => x ++ [op.tree d a b]
    | _, _ => x

/-- A history at the level of trees. -/
def runT (n : Nat) (d : α) (h : List (Call α)) : List (DD α) := h.foldl (stepT n d) []

/-- Eviction only ever drops entries. -/
structure Evict.Sound (e : Evict) : Prop where
  memo : ∀ t l, ∀ m ∈ e.memo t l, m ∈ l
  rules : ∀ t l, ∀ m ∈ e.rules t l, m ∈ l

end Store
end OFE
