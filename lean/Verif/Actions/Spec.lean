import Verif.Actions.Model

/-!
# Specification: sequences up to swapping neighbours that do not depend on each other
-/

namespace OFE

/-- `Swap dep s t`: `t` comes from `s` by finitely many swaps of neighbouring, independent items (independent of the code's
level structure). -/
inductive TraceEq {α : Type} (dep : α → α → Bool) : List α → List α → Prop where
  | refl (s) : TraceEq dep s s
  | swap (l r : List α) (a b : α) (t : List α) : dep a b = false → TraceEq dep (l ++ b :: a :: r) t →
      TraceEq dep (l ++ a :: b :: r) t

/-- The dependency relation of the table, read off openflow_desc.py:307-399: two actions may not be swapped.  `known` actions are
those whose type has a table entry. -/
def Action.known : Action → Bool
  | .setField f _ => decide (f < 40)
  | _ => true

end OFE
