import Verif.Ruleset.Spec
import Verif.Props.Redundant

/-!
# Specification: what a single table sends
-/

namespace OFE

/-- The packets a single table sends for a packet: those of the first rule that matches, none if no rule matches. -/
def Sends {π : Type} (rules : List (Rule π)) (p : Pkt) (out : List (Dest × Pkt)) : Prop :=
  (∃ c l, FirstHit rules p c ∧ c.inst.fullActions = .ok l ∧ out = (exec l.iter p).2) ∨
  ((∀ r ∈ rules, ¬ r.mat.accepts p) ∧ out = [])

/-- The header fields hold values of their width. -/
def Pkt.Sized (p : Pkt) : Prop := ∀ f, f < 40 → p.fld f 0 < 2 ^ width f

/-- The instructions of a rule that can be compared: no groups, no port named twice, none of the combinations for which C24 fails, and VLAN ids
written with the bit that says that there is a VLAN header (as OpenFlow asks for). -/
structure PlainActs (s : List Action) : Prop where
  nogroup : ∀ g, Action.group g ∉ s
  ports : (s.filterMap Action.portOf).Nodup
  ttl : (∃ e, Action.pushMpls e ∈ s) → (∃ e, Action.popMpls e ∈ s) → ∀ a ∈ s, a.mplsTtl = false
  pbb : (∃ e, Action.pushPbb e ∈ s) → Action.popVlan ∉ s
  vid : ∀ v, Action.setField 6 v ∈ s → 0x1000 ||| v = v

/-- A well-built rule with such instructions. -/
structure PlainRule {π : Type} (r : Rule π) : Prop where
  ok : RuleOK r
  acts : PlainActs (r.inst.apply.iter ++ r.inst.write.iter)

/-- All actions of a rule. -/
def Rule.acts {π : Type} (r : Rule π) : List Action := r.inst.apply.iter ++ r.inst.write.iter

/-- Rules that lead from table to table. -/
def GotoPath {π : Type} (rules P : List (Rule π)) : Prop :=
  (∀ r ∈ P, r ∈ rules) ∧ P.IsChain fun r s => r.inst.goto = some s.table

/-- The actions along any way through the tables can be compared. -/
def PlainPipeline {π : Type} (rules : List (Rule π)) : Prop := ∀ P, GotoPath rules P → PlainActs (P.flatMap Rule.acts)

end OFE
