import Verif.Hs.Model
import Verif.Wildcard.Spec

/-! # Specification: the packets of a header space -/

namespace OFE

/-- The packet is in one of the wildcards and not in anything taken away from that one. -/
def HSpace.Has (n : Nat) (h : HSpace) (p : Packet) : Prop := ∃ x ∈ h, Covers n x.1 p ∧ ∀ d ∈ x.2, ¬ Covers n d p

/-- Operations on a header space. -/
inductive HSOp where
  | add (wc : Nat)
  | intersect (other : HSpace)
  | diff (wc : Nat)
  | cleanUp

/-- Applying an operation to the header space. -/
def HSOp.apply (n : Nat) (h : HSpace) : HSOp → HSpace
  | .add wc => h.addHs wc
  | .intersect o => HSpace.intersect n h o
  | .diff wc => h.diffHs n wc
  | .cleanUp => h.cleanUp

/-- What the operation should do to a set of packets. -/
def HSOp.on (n : Nat) (s : Packet → Prop) : HSOp → Packet → Prop
  | .add wc => fun p => s p ∨ Covers n wc p
  | .intersect o => fun p => s p ∧ o.Has n p
  | .diff wc => fun p => s p ∧ ¬ Covers n wc p
  | .cleanUp => s

end OFE
