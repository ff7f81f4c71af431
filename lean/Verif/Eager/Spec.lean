import Verif.Eager.Model
import Verif.Check.Spec

/-!
# Specification for the eager treatment of set-fields
-/

namespace OFE

/-- Nothing in the list but other set-fields of the same field can interfere with a set-field before the packet is sent: in particular no header
the field belongs to is pushed or popped. -/
def FreeSets (s : List Action) : Prop :=
  ∀ f v, Action.setField f v ∈ s → ∀ a ∈ s, a.emits = false → a.setF ≠ some f → depends (.setField f v) a = .ok false

/-- Set-fields have values of the width of the field. -/
def SetsInRange (s : List Action) : Prop := ∀ f v, Action.setField f v ∈ s → v < 2 ^ width f

/-- The rules for which the eager treatment is right. -/
structure EagerRule {π : Type} (r : Rule π) : Prop where
  plain : PlainRule r
  free : FreeSets r.acts
  range : SetsInRange r.acts

/-- The set-field writes what the packet has already. -/
def isNoOp (p : Pkt) : Action → Bool
  | .setField f v => p.fld f 0 == v
  | _ => false

/-- What is sent to each port, without the set-fields that write what the packet has already. -/
def stripNoOps (p : Pkt) (L : Label) : Label := L.map fun x => (x.1, x.2.filter fun a => !isNoOp p a)

/-- The description of what the first matching rule does with a packet, without set-fields that change nothing; none if no rule matches. -/
def Stripped {π : Type} (rules : List (Rule π)) (p : Pkt) (x : Option Label) : Prop :=
  (∃ c L, FirstHit rules p c ∧ c.label = .ok L ∧ x = some (stripNoOps p L)) ∨ ((∀ r ∈ rules, ¬ r.mat.accepts p) ∧ x = none)

end OFE
