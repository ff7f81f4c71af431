import Mathlib.Data.Nat.Bitwise

/-!
# Specification: packets and what a wildcard means
-/

namespace OFE

/-- A packet header: the value of each header bit. -/
abbrev Packet := Nat → Bool

/-- Packet `p` is covered by the ternary wildcard `w` of `n` tbits: at each position the tbit allows the packet's bit
(documentation of headerspace.py:6-24: tbit 1 is `0`, tbit 2 is `1`, tbit 3 is `x`). -/
def Covers (n w : Nat) (p : Packet) : Prop :=
  ∀ i, i < n → w.testBit (2 * i + (p i).toNat) = true

/-- A well formed, non-empty wildcard of `n` tbits: no tbit is `z` (neither value allowed) and nothing is set beyond
the last tbit. -/
structure WcValid (n w : Nat) : Prop where
  lt : w < 2 ^ (2 * n)
  noZ : ∀ i, i < n → w.testBit (2 * i) = true ∨ w.testBit (2 * i + 1) = true

end OFE
