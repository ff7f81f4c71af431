import Verif.Groups.Model
import Verif.Rule.Spec

/-! # Specification: similar rules, stable partitions -/

namespace OFE
namespace Groups

/-- The match does not look at bit `i` of the header. -/
def Free (m : Match) (i : Nat) : Prop := ∀ p q : Packet, (∀ j, j ≠ i → p j = q j) → (MatchesAll m.items p ↔ MatchesAll m.items q)

/-- A rule has an action of this type. -/
def HasType {π : Type} (r : Rule π) (ty : TypeKey) : Prop := ∃ a, (a ∈ r.inst.write.iter ∨ a ∈ r.inst.apply.iter) ∧ a.toType = ty

/-- Rules that look alike: same table and priority, same bits matched on (whatever the values), same next table (table 0 counts as none) and same types of
actions. -/
structure Alike {π : Type} (r s : Rule π) : Prop where
  table : r.table = s.table
  priority : r.priority = s.priority
  bits : ∀ i < totBits, Free r.mat i ↔ Free s.mat i
  goto : r.inst.goto.getD 0 = s.inst.goto.getD 0
  types : ∀ ty, HasType r ty ↔ HasType s ty

/-- Comparing the two lists of action types meets a string and a tuple. -/
def Mixed (a b : List TypeKey) : Prop :=
  ∃ p x y, ∃ f i, (a = p ++ .s f :: x ∧ b = p ++ .t i :: y) ∨ (b = p ++ .s f :: x ∧ a = p ++ .t i :: y)

variable {ν : Type}

/-- A relation between rules that only relates rules that look alike, and for related rules relates each parent (child) of one to a parent (child) of the
other. -/
structure Stable (alike : ν → ν → Prop) (par chi : ν → List ν) (S : ν → ν → Prop) : Prop where
  alike : ∀ r s, S r s → alike r s
  parents : ∀ r s, S r s → (∀ p ∈ par r, ∃ q ∈ par s, S p q) ∧ ∀ q ∈ par s, ∃ p ∈ par r, S p q
  children : ∀ r s, S r s → (∀ p ∈ chi r, ∃ q ∈ chi s, S p q) ∧ ∀ q ∈ chi s, ∃ p ∈ chi r, S p q

/-- Two rules are in the same group. -/
def Together (groups : List (ν × List ν)) (r s : ν) : Prop := ∃ g ∈ groups, r ∈ g.2 ∧ s ∈ g.2

end Groups
end OFE
