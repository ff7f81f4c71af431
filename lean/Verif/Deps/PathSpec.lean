import Verif.Deps.Indirect
import Verif.Rule.Spec

/-! # Specification: rules on the way of a packet through the tables -/

namespace OFE
namespace Deps

/-- A packet that enters table `t` may be matched by these rules in turn, following gotos (not necessarily to the end, and whether or not
rules of higher priority match as well). -/
inductive Path {π : Type} (rs : List (URule π)) : Nat → Pkt → List (URule π) → Prop where
  | here {t p r} : r ∈ rs → r.2.table = t → r.2.mat.accepts p → Path rs t p [r]
  | next {t p r n l} : r ∈ rs → r.2.table = t → r.2.mat.accepts p → r.2.inst.goto = some n → Path rs n (r.2.inst.forward p) l →
      Path rs t p (r :: l)

/-- Well-built rules without push and pop; gotos lead to a later table that has rules. -/
structure GotoOK {π : Type} (rs : List (URule π)) : Prop where
  ok : ∀ r ∈ rs, RuleOK r.2
  flat : ∀ r ∈ rs, FlatActs r.2.inst.apply.iter
  goto : ∀ r ∈ rs, ∀ n, r.2.inst.goto = some n → r.2.table < n ∧ ∃ s ∈ rs, s.2.table = n

end Deps
end OFE
