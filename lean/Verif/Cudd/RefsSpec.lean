import Verif.Cudd.Refs

/-!
# Specification: which nodes stay, and what is forgotten
-/

namespace OFE
namespace Cudd
open DD

/-- Specification: `x` is a node of the diagram `t`. -/
inductive Sub {α : Type} (x : DD α) : DD α → Prop
  | self : Sub x x
  | zero {i z o} : Sub x z → Sub x (node i z o)
  | one {i z o} : Sub x o → Sub x (node i z o)

/-- Specification: the node stays in the table, some external reference reaches it. -/
def Kept (s : RefState) (x : DD Nat) : Prop := ∃ r ∈ s.ext, Sub x r

/-- Specification: the diagrams on the way to a wildcard's diagram: for each bit that is 0 or 1, the diagram of the bits
below it. -/
def wcBelow (n wc t : Nat) : List (DD Nat) :=
  ((List.range n).filter fun b => (wc >>> (b * 2)) &&& 3 = 1 ∨ (wc >>> (b * 2)) &&& 3 = 2).map
    fun b => Cudd.wcLoop n wc 0 b (addConst (encode t 0))

/-- Specification: the references an operation takes and leaves to nobody. -/
def forgets (s : RefState) : RefOp → List (DD Nat)
  | .wc n w t => wcBelow n w t
  | .reinit a _ => (s.objs.lookup a).toList
  | _ => []

/-- Specification: the references forgotten over a history. -/
def forgotten (s : RefState) : List RefOp → List (DD Nat)
  | [] => []
  | op :: ops =>
    forgets s op ++
      match s.step op with
      | .error _ => []
      | .ok s' => forgotten s' ops

/-- Specification: what a binary operation gives for a packet, from what its operands hold there. -/
def Gives (op : BinOp) (x y z : Option Nat) : Prop :=
  match op with
  | .meld => z = x.or y
  | .intersection => ∀ v, z = some v ↔ x = some v ∧ y = some v
  | .subtract => ∀ v, z = some v ↔ x = some v ∧ y ≠ some v
  | .difference => (x ≠ y → z = some 1) ∧ (∀ v, x = some v → y = some v → z = none) ∧ ∀ v, z = some v → v = 1
  | .diffTagged => (x = y → z = none) ∧ (x ≠ y → ∃ v, z = some v ∧ decode v = (x.getD 0, y.getD 0))

end Cudd
end OFE
