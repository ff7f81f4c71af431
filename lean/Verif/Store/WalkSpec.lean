import Verif.Store.Model
import Verif.Bdd.Spec

/-! # Specification: nodes that can be reached, diagrams that need not be reduced -/

namespace OFE
namespace Store
variable {α : Type}

/-- Specification: node `i` has `c` on its branch `b`. -/
inductive Branch (nodes : List (Obj α)) : Nat → Bool → Nat → Prop where
  | zero {i num c o h} : nodes[i]? = some (.node num (some c) o h) → Branch nodes i false c
  | one {i num z c h} : nodes[i]? = some (.node num z (some c) h) → Branch nodes i true c

/-- Specification: `j` can be reached from `i`. -/
inductive Reach (nodes : List (Obj α)) (i : Nat) : Nat → Prop where
  | self : Reach nodes i i
  | step {j c b} : Reach nodes i j → Branch nodes j b c → Reach nodes i c

/-- Specification: `i` is a node of the diagram with this root. -/
def NodeOf (nodes : List (Obj α)) (root : Ref) (i : Nat) : Prop := ∃ r, root = some r ∧ Reach nodes r i

/-- Specification: an ordered diagram over the numbers from `k` up to `n`; nodes may be repeated or do nothing. -/
inductive OrdFrom (nodes : List (Obj α)) (n : Nat) : Nat → Ref → Prop where
  | none {k} : OrdFrom nodes n k none
  | term {k i a} : nodes[i]? = some (.term a) → OrdFrom nodes n k (some i)
  | node {k i num z o h} : nodes[i]? = some (.node num z o h) → k ≤ num → num < n → OrdFrom nodes n (num + 1) z → OrdFrom nodes n (num + 1) o →
      OrdFrom nodes n k (some i)

end Store

namespace DD
variable {α : Type}

/-- Specification: a tree below another that is not empty. -/
inductive Sub : DD α → DD α → Prop where
  | self {t} : t ≠ bot → Sub t t
  | zero {s num z o} : Sub s z → Sub s (node num z o)
  | one {s num z o} : Sub s o → Sub s (node num z o)

end DD
end OFE
