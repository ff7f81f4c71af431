import Verif.Deps.PathSpec
import Verif.Ruleset.TunnelSpec

/-! # Specification: ways of packets through tables whose rules push and pop headers -/

namespace OFE
namespace Deps
variable {π : Type}

/-- Specification: pipelines of well-built rules that may push and pop.  Gotos lead to a later table that has rules; no rule pushes more than
two headers of a kind, or one if it also pops one; headers of a kind that is pushed are matched without masks. -/
structure TunnelGoto (rs : List (URule π)) : Prop where
  ok : ∀ r ∈ rs, RuleOK r.2
  goto : ∀ r ∈ rs, ∀ n, r.2.inst.goto = some n → r.2.table < n ∧ ∃ s ∈ rs, s.2.table = n
  noMeta : ∀ r ∈ rs, NoMeta r.2.inst.apply.iter
  each : ∀ r ∈ rs, ∀ k, pushCount k r.2.inst.apply.iter ≤ 2 ∧ (popCount k r.2.inst.apply.iter = 0 ∨ pushCount k r.2.inst.apply.iter ≤ 1)
  exact : ∀ k, PushedKind (rs.map (·.2)) k → ∀ r ∈ rs, ∀ f ∈ k.fields, ExactOrFree r.2.mat f

/-- Specification: the rules of a way that go on to another table. -/
def onward (l : List (URule π)) : List (Rule π) := (l.map (·.2)).filter fun r => r.inst.goto.isSome

/-- Specification: the ways of packets that the code can follow.  On the way no more than two headers of a kind are pushed, or one if one is
also popped.  Of a kind that is pushed on the way, the packet that sets out has no header, or one that the first rule matches exactly. -/
structure KnownWay (p : Pkt) (l : List (URule π)) : Prop where
  counts : ∀ k, pushedBy k (onward l) ≤ 2 ∧ (poppedBy k (onward l) = 0 ∨ pushedBy k (onward l) ≤ 1)
  headers : ∀ k, 0 < pushedBy k (onward l) → ∀ f ∈ k.fields, (∀ d, 1 ≤ d → p.fld f d = 0) ∧
    (p.fld f 0 = 0 ∨ ∃ r v, l.head? = some r ∧ r.2.mat.items.lookup f = some (v, none))

/-- Specification: as `DirectOK`, but the rules may push and pop as in `TunnelGoto`. -/
structure TunnelDirect (rs : List (URule π)) : Prop where
  ok : ∀ r ∈ rs, RuleOK r.2
  ids : (rs.map (·.1)).Nodup
  goto : ∀ r ∈ rs, ∀ n, r.2.inst.goto = some n → r.2.table < n
  ties : ∀ r ∈ rs, ∀ s ∈ rs, r.2.table = s.2.table → r.2.priority = s.2.priority → r.1 ≠ s.1 → ¬ ∃ p, r.2.mat.accepts p ∧ s.2.mat.accepts p
  noMeta : ∀ r ∈ rs, NoMeta r.2.inst.apply.iter
  each : ∀ r ∈ rs, ∀ k, pushCount k r.2.inst.apply.iter ≤ 2 ∧ (popCount k r.2.inst.apply.iter = 0 ∨ pushCount k r.2.inst.apply.iter ≤ 1)

/-- Specification: packets that the code can follow through one rule, as in `KnownWay`; headers that the rule pushes upon it matches without masks. -/
structure KnownStep (p : Pkt) (r : URule π) : Prop where
  way : KnownWay p [r]
  exact : ∀ k, 0 < pushedBy k [r.2] → ∀ f ∈ k.fields, ExactOrFree r.2.mat f

end Deps
end OFE
