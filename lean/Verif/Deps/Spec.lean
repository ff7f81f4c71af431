import Verif.Deps.Model
import Verif.Bdd.Spec

/-!
# Specification: which rule depends on which, packet by packet
-/

namespace OFE
namespace Deps

/-- The packet matches the rule. -/
def DRule.hits (n : Nat) (r : DRule) (p : Packet) : Prop := Covers n r.wc p

/-- The packet is in the set a diagram stands for. -/
def Holds (n : Nat) (b : BDD) (p : Packet) : Prop := b.lookup n p = some ()

instance (n : Nat) (b : BDD) (p : Packet) : Decidable (Holds n b p) := inferInstanceAs (Decidable (_ = _))

/-- A packet that goes to the lower-priority rule `c` when `r` is taken away, looking only at `rs`: it matches both, and
no rule of a priority strictly between the two. -/
def FallsTo (n : Nat) (rs : List DRule) (r c : DRule) (p : Packet) : Prop :=
  c.priority < r.priority ∧ r.hits n p ∧ c.hits n p ∧
    ∀ q ∈ rs, c.priority < q.priority → q.priority < r.priority → ¬ q.hits n p

/-- The dict `reaches` records exactly the direct dependencies among `rs`: an edge for each pair of rules with a packet falling from
one to the other, labelled with exactly those packets. -/
def ExactDeps (n : Nat) (rs : List DRule) (reaches : Reaches BDD) : Prop :=
  ∀ r c, (∀ b, reaches.lookup ⟨r, c⟩ = some b → r ∈ rs ∧ c ∈ rs ∧ ∀ p, Holds n b p ↔ FallsTo n rs r c p) ∧
    ((reaches.lookup ⟨r, c⟩).isSome ↔ r ∈ rs ∧ c ∈ rs ∧ ∃ p, FallsTo n rs r c p)

/-- A table as OpenFlow has it: proper matches, all in one table, and rules of the same priority do not overlap. -/
structure TableOK (n : Nat) (rs : List DRule) : Prop where
  valid : ∀ r ∈ rs, WcValid n r.wc
  table : ∀ r ∈ rs, ∀ s ∈ rs, r.table = s.table
  ties : ∀ r ∈ rs, ∀ s ∈ rs, r.priority = s.priority → r ≠ s → ¬ ∃ p, r.hits n p ∧ s.hits n p

end Deps
end OFE
