import Verif.Wildcard.Model
import Verif.Common

/-!
# The header layout

The OpenFlow 1.3 field table of `ofequivalence/openflow_desc.py` and the bit offsets computed from it in
`ofequivalence/headerspace.py`.  A field is referred to by its id (its position in `ordered_oxm_fields`); names and ids are in
one-to-one correspondence in the code (`oxm_name_to_id`; proved in `Props/Names`).  Ids from 56 on are fields that the code adds on the fly for
unknown names (openflow_desc.py:79-101), which have no width.
-/

namespace OFE

/-- The literal table `oxm_fields`, openflow_desc.py:194-236: (name, bits), position = id. -/
def baseFields : List (String × Nat) := [
  ("IN_PORT", 32), ("IN_PHY_PORT", 32), ("METADATA", 64), ("ETH_DST", 48), ("ETH_SRC", 48), ("ETH_TYPE", 16),
  ("VLAN_VID", 13), ("VLAN_PCP", 3), ("IP_DSCP", 6), ("IP_ECN", 2), ("IP_PROTO", 8), ("IPV4_SRC", 32),
  ("IPV4_DST", 32), ("TCP_SRC", 16), ("TCP_DST", 16), ("UDP_SRC", 16), ("UDP_DST", 16), ("SCTP_SRC", 16),
  ("SCTP_DST", 16), ("ICMPV4_TYPE", 8), ("ICMPV4_CODE", 8), ("ARP_OP", 16), ("ARP_SPA", 32), ("ARP_TPA", 32),
  ("ARP_SHA", 48), ("ARP_THA", 48), ("IPV6_SRC", 128), ("IPV6_DST", 128), ("IPV6_FLABEL", 20), ("ICMPV6_TYPE", 8),
  ("ICMPV6_CODE", 8), ("IPV6_ND_TARGET", 128), ("IPV6_ND_SLL", 48), ("IPV6_ND_TLL", 48), ("MPLS_LABEL", 20),
  ("MPLS_TC", 3), ("MPLS_BOS", 1), ("PBB_ISID", 24), ("TUNNEL_ID", 64), ("IPV6_EXTHDR", 9)]

/-- `tunnels[...]["fields"]`, openflow_desc.py:239-253, in order VLAN, MPLS, PBB. -/
def tunnelFieldNames : List (List String) :=
  [["VLAN_VID", "VLAN_PCP"], ["MPLS_LABEL", "MPLS_TC", "MPLS_BOS"], ["ETH_DST", "ETH_SRC", "PBB_ISID"]]

/-- `HEADER_DEPTH`, openflow_desc.py:32. -/
def headerDepth : Nat := 2

/-- The loop adding the inner copies of the tunnel fields, openflow_desc.py:264-273, and the ordering by id, 275-277. -/
def allFields : List (String × Nat) :=
  tunnelFieldNames.flatten.foldl (fun fs name =>
    (List.range headerDepth).foldl (fun fs i =>
      fs ++ [(name ++ toString (i + 1), (fs.lookup name).getD 0)]) fs) baseFields

/-- `[oxm_fields[f].bits for f in ordered_oxm_fields]` -/
def fieldWidths : List Nat := allFields.map (·.2)

/-- `oxm_fields[f].bits`; `none` for a field added on the fly (openflow_desc.py:97-98 stores `None`). -/
def fieldBits (f : Nat) : Option Nat := fieldWidths[f]?

/-- `fields_bit_width`, headerspace.py:51-53 -/
def fieldsBitWidth : Nat := fieldWidths.sum

/-- `bytes_needed`, headerspace.py:55 -/
def bytesNeeded : Nat := (fieldsBitWidth + 7) / 8

/-- `extra_padding`, headerspace.py:56 -/
def extraPadding : Nat := bytesNeeded * 8 - fieldsBitWidth

/-- The loop of `build_field_offset`, headerspace.py:266-270. -/
def buildOffsets : Nat → List (Nat × Nat) → List (Nat × Nat)
  | _, [] => []
  | off, (f, b) :: rest => (f, off) :: buildOffsets (off + b) rest

/-- Fields as (id, bits), in the order of `reversed(G_OF.ordered_oxm_fields)`. -/
def reversedFields : List (Nat × Nat) := (fieldWidths.zipIdx.map fun x => (x.2, x.1)).reverse

/-- `WC_FIELD_OFFSET`, headerspace.py:263-271 -/
def wcFieldOffset : List (Nat × Nat) := buildOffsets extraPadding reversedFields

/-- `bit2field`, headerspace.py:369-380; `none` is `'NONE'`. -/
def bit2field : List (Option Nat) :=
  (List.replicate extraPadding [none, none]).flatten ++
    reversedFields.flatMap fun x => (List.replicate x.2 [some x.1, some x.1]).flatten

end OFE
