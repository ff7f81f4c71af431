import Verif.Actions.Spec

/-!
# Specification: what actions do to a packet

Written from the OpenFlow 1.3 text quoted in openflow_desc.py:300-345, independently of the code.  A packet is a stack of values
per field (depth 0 is the outermost header; fields outside tunnels only use depth 0).  A push copies the outermost values
(a header that is not there has value 0), a pop drops them.  Each MPLS header has a TTL, as has the IP header; a PBB header keeps a copy of the VLAN PCP.  Ethertypes of
tags are not part of the packet.
-/

namespace OFE

/-- A packet inside a switch. -/
structure Pkt where
  /-- value of a field (ids 0-39) at a depth -/
  fld : Nat → Nat → Nat
  /-- I-SID priorities of the PBB headers -/
  ipcp : Nat → Nat
  /-- number of MPLS headers -/
  mplsN : Nat
  /-- TTLs of the MPLS headers -/
  mttl : Nat → Nat
  nwTtl : Nat
  queue : Nat

/-- Fields of the VLAN, MPLS and PBB headers, openflow_desc.py:178-205. -/
def vlanF (f : Nat) : Bool := f == 6 || f == 7
def mplsF (f : Nat) : Bool := f == 34 || f == 35 || f == 36
def pbbF (f : Nat) : Bool := f == 3 || f == 4 || f == 37

/-- What a field holds after the value `v` was written to it: a VLAN id always has the present bit (`OFPVID_PRESENT`). -/
def wrote (f v : Nat) : Nat := if f = 6 then 0x1000 ||| v else v

/-- New outermost header, values copied from the old one. -/
def pushHdr (hdr : Nat → Bool) (fld : Nat → Nat → Nat) : Nat → Nat → Nat :=
  fun f d => if hdr f then (if d = 0 then wrote f (fld f 0) else fld f (d - 1)) else fld f d

/-- Outermost header dropped. -/
def popHdr (hdr : Nat → Bool) (fld : Nat → Nat → Nat) : Nat → Nat → Nat := fun f d => if hdr f then fld f (d + 1) else fld f d

/-- TTL of the outermost header that has one. -/
def Pkt.ttl0 (p : Pkt) : Nat := if p.mplsN = 0 then p.nwTtl else p.mttl 0

/-- What a field holds after a set-field of `v`.  Statements about action lists hold for any such convention; where none is named, it is `wrote`. -/
class Writes where
  wr : Nat → Nat → Nat

/-- The convention used unless another is named. -/
instance standardWrites : Writes := ⟨wrote⟩

section
variable [Writes]

/-- Effect of an action on the packet itself. -/
def act : Action → Pkt → Pkt
  | .setField f v, p => { p with fld := fun g d => if g = f ∧ d = 0 then Writes.wr f v else p.fld g d }
  | .pushVlan _, p => { p with fld := pushHdr vlanF p.fld }
  | .popVlan, p => { p with fld := popHdr vlanF p.fld }
  | .pushPbb _, p => { p with fld := pushHdr pbbF p.fld, ipcp := fun d => if d = 0 then p.fld 7 0 else p.ipcp (d - 1) }
  | .popPbb, p => { p with fld := popHdr pbbF p.fld, ipcp := fun d => p.ipcp (d + 1) }
  | .pushMpls _, p => { p with fld := pushHdr mplsF p.fld, mplsN := p.mplsN + 1,
                               mttl := fun d => if d = 0 then p.ttl0 else p.mttl (d - 1) }
  | .popMpls _, p => { p with fld := popHdr mplsF p.fld, mplsN := p.mplsN - 1, mttl := fun d => p.mttl (d + 1) }
  | .setMplsTtl v, p => { p with mttl := fun d => if d = 0 ∧ p.mplsN ≠ 0 then v else p.mttl d }
  | .decMplsTtl, p => { p with mttl := fun d => if d = 0 ∧ p.mplsN ≠ 0 then p.mttl 0 - 1 else p.mttl d }
  | .setNwTtl v, p => { p with nwTtl := v }
  | .decNwTtl, p => { p with nwTtl := p.nwTtl - 1 }
  | .copyTtlOut, p => { p with mttl := fun d => if d = 0 ∧ p.mplsN ≠ 0 then (if p.mplsN = 1 then p.nwTtl else p.mttl 1)
                                               else p.mttl d }
  | .copyTtlIn, p => { p with nwTtl := if p.mplsN = 1 then p.mttl 0 else p.nwTtl,
                              mttl := fun d => if d = 1 ∧ 2 ≤ p.mplsN then p.mttl 0 else p.mttl d }
  | .setQueue q, p => { p with queue := q }
  | .group _, p => p
  | .output _, p => p

/-- Where a copy of the packet goes. -/
inductive Dest where
  | port (n : Nat)
  | group (g : Nat)
deriving DecidableEq, Repr

/-- Copies sent out by an action. -/
def emit : Action → Pkt → List (Dest × Pkt)
  | .output n, p => [(.port n, p)]
  | .group g, p => [(.group g, p)]
  | _, _ => []

/-- Execute actions in order: the packet afterwards and the copies sent. -/
def exec : List Action → Pkt → Pkt × List (Dest × Pkt)
  | [], p => (p, [])
  | a :: rest, p => ((exec rest (act a p)).1, emit a p ++ (exec rest (act a p)).2)

/-- Same packet afterwards, and the same copies sent to the same places (in any order). -/
def SameEffect (s t : List Action) : Prop := ∀ p, (exec s p).1 = (exec t p).1 ∧ (exec s p).2.Perm (exec t p).2

end

end OFE
