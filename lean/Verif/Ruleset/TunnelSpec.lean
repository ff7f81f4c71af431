import Verif.Ruleset.Spec

/-!
# Specification: pipelines that push and pop headers
-/

namespace OFE

variable {π : Type}

/-- Specification: rules that lead from one to the next by their gotos, starting in table `t`; the goto of the last. -/
inductive Links (R : List (Rule π)) (t : Nat) : List (Rule π) → Option Nat → Prop where
  | one {r} : r ∈ R → r.table = t → Links R t [r] r.inst.goto
  | snoc {rs n r} : Links R t rs (some n) → r ∈ R → r.table = n → Links R t (rs ++ [r]) r.inst.goto

/-- Specification: how often headers of a kind are pushed on the way. -/
def pushedBy (k : Tun) (rs : List (Rule π)) : Nat := (rs.map fun r => pushCount k r.inst.apply.iter).sum

/-- Specification: how often headers of a kind are popped on the way. -/
def poppedBy (k : Tun) (rs : List (Rule π)) : Nat := (rs.map fun r => popCount k r.inst.apply.iter).sum

/-- Specification: headers of this kind are pushed by some rule that goes on to another table. -/
def PushedKind (R : List (Rule π)) (k : Tun) : Prop := ∃ r ∈ R, r.inst.goto ≠ none ∧ 0 < pushCount k r.inst.apply.iter

/-- Specification: the match does not look at the field, or at all of it. -/
def ExactOrFree (m : Match) (f : Nat) : Prop := m.items.lookup f = none ∨ ∃ v, m.items.lookup f = some (v, none)

/-- Specification: the pipelines for which the conversion can deal with pushes and pops.  On the way from the first table to any other
one, no more than two headers of a kind are pushed, or one if one is also popped, and not three more popped than pushed.  Headers that come
out from under popped ones are not matched.  Headers of a kind that is pushed are matched without masks. -/
structure TunnelPipeline (R : List (Rule π)) : Prop where
  counts : ∀ rs n, Links R 0 rs (some n) → ∀ k, pushedBy k rs ≤ 2 ∧ (poppedBy k rs = 0 ∨ pushedBy k rs ≤ 1) ∧ poppedBy k rs ≤ pushedBy k rs + 2
  hidden : ∀ rs n, Links R 0 rs (some n) → ∀ k, pushedBy k rs < poppedBy k rs → ∀ b ∈ R, b.table = n → ∀ f ∈ k.fields, b.mat.items.lookup f = none
  exact : ∀ k, PushedKind R k → ∀ r ∈ R, ∀ f ∈ k.fields, ExactOrFree r.mat f

/-- Specification: what has to be known of a packet's headers: of a kind that is pushed it has none, or one that the rule it hits in the first
table matches exactly. -/
def HeadersKnown (R : List (Rule π)) (p : Pkt) : Prop :=
  ∀ k, PushedKind R k → ∀ f ∈ k.fields, (∀ d, 1 ≤ d → p.fld f d = 0) ∧
    (p.fld f 0 = 0 ∨ ∀ r, Hits R 0 p r → r.inst.goto ≠ none → ∃ v, r.mat.items.lookup f = some (v, none))

end OFE
