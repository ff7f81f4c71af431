import Verif.Ruleset.Model
import Verif.Rule.Spec

/-!
# Specification: a packet in a pipeline of tables, and in a single table
-/

namespace OFE

/-- In table `t` the packet hits the rule `r`: it matches, and none of higher priority does. -/
def Hits {π : Type} (rules : List (Rule π)) (t : Nat) (p : Pkt) (r : Rule π) : Prop :=
  r ∈ rules ∧ r.table = t ∧ r.mat.accepts p ∧ ∀ s ∈ rules, s.table = t → s.mat.accepts p → s.priority ≤ r.priority

/-- A run through the tables from table `t` on: the rules hit and the state after the last. -/
inductive Runs {π : Type} (rules : List (Rule π)) : Nat → St → List (Rule π) → St → Prop where
  | last {t s r} : Hits rules t s.pkt r → r.inst.goto = none → Runs rules t s [r] (r.inst.run s)
  | next {t s r n rs s'} : Hits rules t s.pkt r → r.inst.goto = some n → Runs rules n (r.inst.run s) rs s' →
      Runs rules t s (r :: rs) s'

/-- The first rule of a list that a packet matches. -/
def FirstHit {π : Type} (l : List (Rule π)) (p : Pkt) (r : Rule π) : Prop :=
  ∃ before after, l = before ++ r :: after ∧ r.mat.accepts p ∧ ∀ b ∈ before, ¬ b.mat.accepts p

/-- A packet enters: nothing sent, empty action set. -/
def St.enter (p : Pkt) : St := ⟨p, [], []⟩

/-- No two rules of a table match the same packet with the same priority (OpenFlow leaves open which one is used). -/
def NoTies {π : Type} (rules : List (Rule π)) : Prop :=
  ∀ r ∈ rules, ∀ s ∈ rules, r.table = s.table → r.priority = s.priority → (∃ p, r.mat.accepts p ∧ s.mat.accepts p) → r = s

/-- The same for a list in which no rule is repeated. -/
def Separate {π : Type} (rules : List (Rule π)) : Prop :=
  rules.Pairwise fun r s => r.table = s.table → r.priority = s.priority → ¬ ∃ p, r.mat.accepts p ∧ s.mat.accepts p

/-- A pipeline: well-built rules with OpenFlow priorities; table 0 exists; gotos lead to a later table that exists; every packet
matches something in every table. -/
structure PipelineOK {π : Type} (rules : List (Rule π)) : Prop where
  ok : ∀ r ∈ rules, RuleOK r
  noMeta : ∀ r ∈ rules, NoMeta r.inst.apply.iter
  noMetaW : ∀ r ∈ rules, NoMeta r.inst.write.iter
  prio : ∀ r ∈ rules, r.priority < maxPriority
  path : ∀ r ∈ rules, r.path = []
  zero : ∃ r ∈ rules, r.table = 0
  goto : ∀ r ∈ rules, ∀ n, r.inst.goto = some n → r.table < n ∧ ∃ s ∈ rules, s.table = n
  covered : ∀ r ∈ rules, ∀ p, ∃ s ∈ rules, s.table = r.table ∧ s.mat.accepts p

/-- No rule that goes on to another table adds or removes headers in its apply-actions. -/
def FlatPipeline {π : Type} (rules : List (Rule π)) : Prop :=
  ∀ r ∈ rules, r.inst.goto ≠ none → FlatActs r.inst.apply.iter

end OFE
