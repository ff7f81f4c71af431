import Verif.Deps.Prefix
import Verif.Deps.Spec

/-! # Specification: tables of address prefixes -/

namespace OFE
namespace Deps

/-- An address prefix: the first `len` bits of the `W`-bit address `addr`, whose other bits are zero. -/
structure Prefix (W : Nat) where
  addr : Nat
  len : Nat
  lenLe : len ≤ W
  aligned : 2 ^ (W - len) ∣ addr
  small : addr < 2 ^ W

/-- The addresses of the prefix: those with the same first `len` bits. -/
def Prefix.Has {W : Nat} (f : Prefix W) (x : Nat) : Prop := x / 2 ^ (W - f.len) = f.addr / 2 ^ (W - f.len)

/-- The prefix `f` properly covers the prefix `g`. -/
def Prefix.Above {W : Nat} (f g : Prefix W) : Prop := f.len < g.len ∧ f.Has g.addr

/-- A table of prefixes: every rule matches the packets whose address (`field`, all `W`-bit values of which occur) is in its prefix; the match holds the
address of the prefix; prefixes are distinct; a rule has higher priority than the rules that properly cover it; the table has the
default route, of priority 0. -/
structure PrefixTable (n W : Nat) (field : Packet → Nat) (pre : DRule → Prefix W) (rs : List PRule) : Prop where
  nodup : rs.Nodup
  hits : ∀ r ∈ rs, ∀ p, r.rule.hits n p ↔ (pre r.rule).Has (field p)
  occurs : ∀ x, x < 2 ^ W → ∃ p, field p = x
  bound : ∀ p, field p < 2 ^ W
  dst : ∀ r ∈ rs, r.dst = some (pre r.rule).addr
  distinct : ∀ r ∈ rs, ∀ s ∈ rs, (pre r.rule).addr = (pre s.rule).addr → (pre r.rule).len = (pre s.rule).len → r.rule = s.rule
  prio : ∀ r ∈ rs, ∀ s ∈ rs, (pre r.rule).Above (pre s.rule) → r.rule.priority < s.rule.priority
  valid : ∀ r ∈ rs, WcValid n r.rule.wc
  table : ∀ r ∈ rs, ∀ s ∈ rs, r.rule.table = s.rule.table
  default : ∃ d ∈ rs, (pre d.rule).len = 0 ∧ d.rule.priority = 0 ∧ d.rule.wc = wcFull n

/-- The longest prefix of the table that properly covers the one of `r`. -/
def IsParent {W : Nat} (pre : DRule → Prefix W) (rs : List PRule) (r c : DRule) : Prop :=
  (∃ x ∈ rs, x.rule = c) ∧ (pre c).Above (pre r) ∧ ∀ x ∈ rs, (pre x.rule).Above (pre r) → (pre x.rule).len ≤ (pre c).len

end Deps
end OFE
