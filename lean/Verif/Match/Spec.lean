import Verif.Match.Layout
import Verif.Wildcard.Spec

/-!
# Specification of matches

The header is the concatenation of all fields in id order, most significant bit first, followed by padding.
-/

namespace OFE

/-- Width of a field (0 for unknown fields). -/
def width (f : Nat) : Nat := fieldWidths.getD f 0

/-- Position of the least significant bit of a field: everything with a larger id and the padding lies below. -/
def fieldPos (f : Nat) : Nat := 3 + (fieldWidths.drop (f + 1)).sum

/-- Bit `i` of field `f` of a packet. -/
def Packet.bit (p : Packet) (f i : Nat) : Bool := p (fieldPos f + i)

/-- The packet's field agrees with the value on all bits of the mask (on all bits if there is no mask). -/
def MatchesField (p : Packet) (x : Nat × Nat × Option Nat) : Prop :=
  ∀ i, i < width x.1 → (∀ m, x.2.2 = some m → m.testBit i = true) → p.bit x.1 i = x.2.1.testBit i

/-- A packet satisfies a match: all its fields agree. -/
def MatchesAll (m : List (Nat × Nat × Option Nat)) (p : Packet) : Prop := ∀ x ∈ m, MatchesField p x

end OFE
