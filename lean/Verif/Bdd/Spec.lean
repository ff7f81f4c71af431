import Verif.Bdd.Model
import Verif.Wildcard.Spec

/-!
# Specification of diagrams: the partial function packet → action
-/

namespace OFE.DD
variable {α : Type}

/-- Follow a valuation of the node numbers from the root to a leaf. -/
def eval : DD α → (Nat → Bool) → Option α
  | bot, _ => none
  | term a, _ => some a
  | node num z o, q => if q num then o.eval q else z.eval q

/-- Look a packet up in a diagram over `n` header bits: node number `num` tests header bit `n-1-num` (most significant
bit first). -/
def lookup (n : Nat) (t : DD α) (p : Packet) : Option α := t.eval fun num => p (n - 1 - num)

/-- Ordered and reduced diagrams with node numbers in `[k, n)`. -/
def WF (n : Nat) : Nat → DD α → Prop
  | _, bot => True
  | _, term _ => True
  | k, node num z o => k ≤ num ∧ num < n ∧ z ≠ o ∧ WF n (num + 1) z ∧ WF n (num + 1) o

end OFE.DD
