import Verif.Props.Fmt
import Verif.Match.Spec
import Verif.Actions.Model

/-!
# Specification: what Open vSwitch text means

The notation of `ovs-fields(7)` and `ovs-actions(7)`, as far as it has a counterpart in the library: tables of keywords, and what numbers and
addresses denote.  Fields are referred to by their OpenFlow ids (`allFields`).  Nothing here refers to the reader.
-/

namespace OFE.Ovs
open Fmt

/-! ### Numbers and addresses -/

/-- Specification: the character is the decimal digit `d`. -/
def IsDec (c : Char) (d : Nat) : Prop := "0123456789".toList[d]? = some c

/-- Specification: a byte in decimal. -/
def IsByte (p : List Char) (n : Nat) : Prop := p ≠ [] ∧ n < 256 ∧ ∃ ds, List.Forall₂ IsDec p ds ∧ n = ds.foldl (fun x d => x * 10 + d) 0

/-- Specification: a byte as two hexadecimal digits. -/
def IsPair (p : List Char) (n : Nat) : Prop := ∃ a b i j, p = [a, b] ∧ IsHex a i ∧ IsHex b j ∧ n = i * 16 + j

/-- How values are written. -/
inductive Kind where
  | num | v4 | mac | v6
deriving DecidableEq

/-- Specification: the text denotes the number. -/
inductive Denotes : Kind → List Char → Nat → Prop
  /-- 42 -/
  | dec {t : List Char} {ds : List Nat} : t ≠ [] → List.Forall₂ IsDec t ds → (ds.head? ≠ some 0 ∨ ds = [0]) → Denotes .num t (ds.foldl (fun x d => x * 10 + d) 0)
  /-- 0x2a -/
  | hex {t : List Char} {ds : List Nat} : t ≠ [] → List.Forall₂ IsHex t ds → Denotes .num ('0' :: 'x' :: t) (ds.foldl (fun x d => x * 16 + d) 0)
  /-- 192.0.2.1 -/
  | ipv4 {ps : List (List Char)} {ns : List Nat} : ps.length = 4 → List.Forall₂ IsByte ps ns → Denotes .v4 (joinWith '.' ps) (ns.foldl (fun x n => x * 256 + n) 0)
  /-- 02:00:5e:10:00:01 -/
  | mac {ps : List (List Char)} {ns : List Nat} : ps.length = 6 → List.Forall₂ IsPair ps ns → Denotes .mac (joinWith ':' ps) (ns.foldl (fun x n => x * 256 + n) 0)
  /-- 2001:db8:0:0:0:0:0:1 -/
  | ipv6 {ps : List (List Char)} {ns : List Nat} : ps.length = 8 → List.Forall₂ IsGroup ps ns → Denotes .v6 (joinWith ':' ps) (groupsValue ns)
  /-- 2001:db8::1 -/
  | ipv6Short {a b : List (List Char)} {as bs : List Nat} : List.Forall₂ IsGroup a as → List.Forall₂ IsGroup b bs → a.length + b.length ≤ 6 →
      Denotes .v6 (joinWith ':' a ++ [':', ':'] ++ joinWith ':' b) (groupsValue (as ++ List.replicate (8 - (a.length + b.length)) 0 ++ bs))

/-! ### Fields -/

/-- Specification: the keys that stand for one OpenFlow field whatever else is given. -/
def docFields : List (List Char × Nat) := [
  ("in_port".toList, 0), ("metadata".toList, 2), ("dl_dst".toList, 3), ("eth_dst".toList, 3), ("dl_src".toList, 4), ("eth_src".toList, 4),
  ("dl_type".toList, 5), ("eth_type".toList, 5), ("vlan_vid".toList, 6), ("dl_vlan_pcp".toList, 7), ("vlan_pcp".toList, 7), ("ip_dscp".toList, 8),
  ("nw_ecn".toList, 9), ("ip_ecn".toList, 9), ("nw_proto".toList, 10), ("ip_proto".toList, 10), ("nw_src".toList, 11), ("ip_src".toList, 11),
  ("nw_dst".toList, 12), ("ip_dst".toList, 12), ("tcp_src".toList, 13), ("tcp_dst".toList, 14), ("udp_src".toList, 15), ("udp_dst".toList, 16),
  ("sctp_src".toList, 17), ("sctp_dst".toList, 18), ("arp_op".toList, 21), ("arp_spa".toList, 22), ("arp_tpa".toList, 23), ("arp_sha".toList, 24),
  ("arp_tha".toList, 25), ("ipv6_src".toList, 26), ("ipv6_dst".toList, 27), ("ipv6_label".toList, 28), ("icmpv6_type".toList, 29),
  ("icmpv6_code".toList, 30), ("nd_target".toList, 31), ("nd_sll".toList, 32), ("nd_tll".toList, 33), ("mpls_label".toList, 34), ("mpls_tc".toList, 35),
  ("mpls_bos".toList, 36), ("tun_id".toList, 38), ("tunnel_id".toList, 38)]

/-- Specification: how the values of a field are written. -/
def kindOf (f : Nat) : Kind :=
  if f ∈ [11, 12, 22, 23] then .v4 else if f ∈ [3, 4, 24, 25, 32, 33] then .mac else if f ∈ [26, 27, 31] then .v6 else .num

/-- Specification: the words that stand for an Ethernet type and an IP protocol. -/
def docWords : List (List Char × List (Nat × Nat)) := [
  ("ip".toList, [(5, 0x0800)]), ("ipv6".toList, [(5, 0x86dd)]), ("icmp".toList, [(5, 0x0800), (10, 1)]), ("icmp6".toList, [(5, 0x86dd), (10, 58)]),
  ("tcp".toList, [(5, 0x0800), (10, 6)]), ("tcp6".toList, [(5, 0x86dd), (10, 6)]), ("udp".toList, [(5, 0x0800), (10, 17)]),
  ("udp6".toList, [(5, 0x86dd), (10, 17)]), ("sctp".toList, [(5, 0x0800), (10, 132)]), ("sctp6".toList, [(5, 0x86dd), (10, 132)]),
  ("arp".toList, [(5, 0x0806)]), ("rarp".toList, [(5, 0x8035)]), ("mpls".toList, [(5, 0x8847)]), ("mplsm".toList, [(5, 0x8848)])]

/-- Specification: an item of a flow and the (field, value, mask) that it asks for. -/
inductive DocItem : List Char → List (Nat × Nat × Option Nat) → Prop
  /-- tcp -/
  | word {t : List Char} {l : List (Nat × Nat)} : (t, l) ∈ docWords → DocItem t (l.map fun x => (x.1, x.2, none))
  /-- tcp_dst=80 -/
  | field {key t : List Char} {f v : Nat} : (key, f) ∈ docFields → Denotes (kindOf f) t v → v < 2 ^ width f → DocItem (key ++ '=' :: t) [(f, v, none)]
  /-- dl_dst=01:00:00:00:00:00/01:00:00:00:00:00 -/
  | masked {key t u : List Char} {f v m : Nat} : (key, f) ∈ docFields → Denotes (kindOf f) t v → Denotes (kindOf f) u m → v < 2 ^ width f → m < 2 ^ width f →
      DocItem (key ++ '=' :: (t ++ '/' :: u)) [(f, v, some m)]
  /-- nw_src=10.0.0.0/8 -/
  | prefix4 {key t u : List Char} {f v n : Nat} : (key, f) ∈ docFields → kindOf f = .v4 → Denotes .v4 t v → Denotes .num u n → n ≤ 32 →
      DocItem (key ++ '=' :: (t ++ '/' :: u)) [(f, v, some (2 ^ 32 - 2 ^ (32 - n)))]
  /-- ipv6_src=2001:db8::/32; at least three colons (see `C67_prefix6`) -/
  | prefix6 {key t u : List Char} {f v n : Nat} : (key, f) ∈ docFields → f = 26 ∨ f = 27 → Denotes .v6 t v → 3 ≤ t.count ':' → Denotes .num u n → n ≤ 128 →
      DocItem (key ++ '=' :: (t ++ '/' :: u)) [(f, v, some (2 ^ 128 - 2 ^ (128 - n)))]
  /-- dl_vlan=5: the tag is there, with this id -/
  | dlVlan {t : List Char} {v : Nat} : Denotes .num t v → v < 0x1000 → DocItem ("dl_vlan=".toList ++ t) [(6, v + 0x1000, none)]
  /-- dl_vlan=0xffff: no tag -/
  | noVlan {t : List Char} : Denotes .num t 0xffff → DocItem ("dl_vlan=".toList ++ t) [(6, 0, none)]
  /-- vlan_tci=0x1005/0x1fff: id and present bit (the priority is read wrongly, see `C67_vlan_tci`) -/
  | vlanTci {t u : List Char} {v m : Nat} : Denotes .num t v → Denotes .num u m → v < 0x10000 → 0 < m → m < 0x2000 →
      DocItem ("vlan_tci=".toList ++ (t ++ '/' :: u)) [(6, v % 0x2000, some m)]

/-- Specification: the text consists of the pieces, with commas and white space between them. -/
inductive Pieces : List Char → List (List Char) → Prop
  | nil : Pieces [] []
  | sep {c : Char} {s : List Char} {l : List (List Char)} : c ∈ [',', ' ', '\t', '\n'] → Pieces s l → Pieces (c :: s) l
  | last {t : List Char} : t ≠ [] → (∀ c ∈ t, c ∉ [',', ' ', '\t', '\n', '\r', '\x0b', '\x0c']) → Pieces t [t]
  | cons {t s : List Char} {c : Char} {l : List (List Char)} : t ≠ [] → (∀ d ∈ t, d ∉ [',', ' ', '\t', '\n', '\r', '\x0b', '\x0c']) →
      c ∈ [',', ' ', '\t', '\n'] → Pieces s l → Pieces (t ++ c :: s) (t :: l)

/-! ### Actions -/

/-- Specification: the ports with names. -/
def docPorts : List (List Char × Nat) := [
  ("in_port".toList, 0xfffffff8), ("table".toList, 0xfffffff9), ("normal".toList, 0xfffffffa), ("flood".toList, 0xfffffffb), ("all".toList, 0xfffffffc),
  ("controller".toList, 0xfffffffd), ("local".toList, 0xfffffffe)]

/-- Specification: the ports that can be written without `output:`; `in_port` is not here, because it is not understood (`C67_in_port`). -/
def docBarePorts : List (List Char × Nat) := [
  ("normal".toList, 0xfffffffa), ("flood".toList, 0xfffffffb), ("all".toList, 0xfffffffc), ("local".toList, 0xfffffffe)]

/-- Specification: actions without arguments. -/
def docPlain : List (List Char × Action) := [
  ("pop_vlan".toList, .popVlan), ("strip_vlan".toList, .popVlan), ("dec_ttl".toList, .decNwTtl), ("dec_mpls_ttl".toList, .decMplsTtl)]

/-- Specification: the actions with a number that OpenFlow has as well. -/
inductive NumAct where
  | pushVlan | pushMpls | popMpls | setQueue | nwTtl | mplsTtl

/-- Specification: the OpenFlow action. -/
def NumAct.act : NumAct → Nat → Action
  | .pushVlan => .pushVlan | .pushMpls => .pushMpls | .popMpls => .popMpls | .setQueue => .setQueue | .nwTtl => .setNwTtl | .mplsTtl => .setMplsTtl

/-- Specification: their keys. -/
def docNumActs : List (List Char × NumAct) := [
  ("push_vlan:".toList, .pushVlan), ("push_mpls:".toList, .pushMpls), ("pop_mpls:".toList, .popMpls), ("set_queue:".toList, .setQueue),
  ("mod_nw_ttl:".toList, .nwTtl), ("set_mpls_ttl:".toList, .mplsTtl)]

/-- Specification: actions that set one field. -/
def docSetActs : List (List Char × Nat) := [
  ("mod_dl_dst:".toList, 3), ("mod_dl_src:".toList, 4), ("mod_nw_dst:".toList, 12), ("mod_nw_src:".toList, 11), ("mod_nw_ecn:".toList, 9)]

/-- Specification: a text, in lower case, and the OpenFlow actions that it means; `g` gives the groups by number. -/
inductive DocAct (g : Nat → Option Nat) : List Char → List Action → Prop
  | drop : DocAct g "drop".toList []
  | plain {t : List Char} {a : Action} : (t, a) ∈ docPlain → DocAct g t [a]
  /-- output:3 -/
  | output {t : List Char} {v : Nat} : Denotes .num t v → DocAct g ("output:".toList ++ t) [.output v]
  /-- output:in_port -/
  | outputName {t : List Char} {v : Nat} : (t, v) ∈ docPorts → DocAct g ("output:".toList ++ t) [.output v]
  /-- output(port=3,max_len=64) -/
  | outputMax {t u : List Char} {v n : Nat} : Denotes .num t v → Denotes .num u n →
      DocAct g ("output(port=".toList ++ (t ++ (",max_len=".toList ++ (u ++ ")".toList)))) [.output v]
  /-- 3 -/
  | port {t : List Char} {v : Nat} : Denotes .num t v → DocAct g t [.output v]
  /-- normal -/
  | portName {t : List Char} {v : Nat} : (t, v) ∈ docBarePorts → DocAct g t [.output v]
  | controller : DocAct g "controller".toList [.output 0xfffffffd]
  /-- controller:65535 -/
  | controllerLen {u : List Char} {n : Nat} : Denotes .num u n → DocAct g ("controller:".toList ++ u) [.output 0xfffffffd]
  /-- controller(max_len=128) -/
  | controllerMax {u : List Char} {n : Nat} : Denotes .num u n → DocAct g ("controller(max_len=".toList ++ (u ++ ")".toList)) [.output 0xfffffffd]
  /-- group:5 -/
  | group {t : List Char} {n x : Nat} : Denotes .num t n → g n = some x → DocAct g ("group:".toList ++ t) [.group x]
  /-- push_vlan:0x8100 -/
  | num {key t : List Char} {a : NumAct} {v : Nat} : (key, a) ∈ docNumActs → Denotes .num t v → DocAct g (key ++ t) [a.act v]
  /-- set_mpls_ttl(64) -/
  | mplsTtl {t : List Char} {v : Nat} : Denotes .num t v → DocAct g ("set_mpls_ttl(".toList ++ (t ++ ")".toList)) [.setMplsTtl v]
  /-- mod_dl_dst:02:00:5e:10:00:01 -/
  | modField {key t : List Char} {f v : Nat} : (key, f) ∈ docSetActs → Denotes (kindOf f) t v → DocAct g (key ++ t) [.setField f v]
  /-- set_field:80->tcp_dst -/
  | setField {name t : List Char} {f v : Nat} : (name, f) ∈ docFields → f ≠ 6 → Denotes (kindOf f) t v →
      DocAct g ("set_field:".toList ++ (t ++ ("->".toList ++ name))) [.setField f v]
  /-- set_field:0x1005->vlan_vid: Open vSwitch counts the present bit, the library does not -/
  | setVlan {t : List Char} {v : Nat} : Denotes .num t v → 0x1000 ≤ v → v < 0x2000 →
      DocAct g ("set_field:".toList ++ (t ++ ("->".toList ++ "vlan_vid".toList))) [.setField 6 (v - 0x1000)]
  /-- set_field:64->nw_ttl -/
  | setTtl {t : List Char} {v : Nat} : Denotes .num t v → DocAct g ("set_field:".toList ++ (t ++ ("->".toList ++ "nw_ttl".toList))) [.setNwTtl v]
  | setMplsTtl {t : List Char} {v : Nat} : Denotes .num t v → DocAct g ("set_field:".toList ++ (t ++ ("->".toList ++ "mpls_ttl".toList))) [.setMplsTtl v]

/-! ### Instructions -/

/-- Specification: what one argument behind `actions=` means. -/
inductive Mean where
  | acts (as : List Action)
  | clear
  | write (as : List Action)
  | wmeta (v : Nat) (m : Option Nat)
  | goto (t : Nat)

/-- Specification: a text, in lower case, and its meaning. -/
inductive DocTok (g : Nat → Option Nat) : List Char → Mean → Prop
  | act {t : List Char} {as : List Action} : DocAct g t as → DocTok g t (.acts as)
  | clear : DocTok g "clear_actions".toList .clear
  /-- write_actions(dec_ttl,output:3) -/
  | write {ts : List (List Char)} {ass : List (List Action)} : List.Forall₂ (DocAct g) ts ass →
      DocTok g ("write_actions(".toList ++ (joinWith ',' ts ++ ")".toList)) (.write ass.flatten)
  /-- write_metadata:0x5 -/
  | wmeta {t : List Char} {v : Nat} : Denotes .num t v → DocTok g ("write_metadata:".toList ++ t) (.wmeta v none)
  /-- write_metadata:0x5/0xff -/
  | wmask {t u : List Char} {v m : Nat} : Denotes .num t v → Denotes .num u m → DocTok g ("write_metadata:".toList ++ (t ++ '/' :: u)) (.wmeta v (some m))
  /-- goto_table:3 -/
  | goto {t : List Char} {n : Nat} : Denotes .num t n → DocTok g ("goto_table:".toList ++ t) (.goto n)
  /-- resubmit(,3), for tables of one digit (see `C67_resubmit`) -/
  | resubmit {c : Char} {d : Nat} : IsDec c d → DocTok g ("resubmit(,".toList ++ [c, ')']) (.goto d)

/-- Specification: the next table. -/
def Mean.next : Mean → Option Nat
  | .goto t => some t
  | _ => none

/-- Specification: a list of instructions and actions; the one that leads to another table is the last one. -/
inductive DocToks (g : Nat → Option Nat) : List (List Char) → List Mean → Prop
  | nil : DocToks g [] []
  | last {t : List Char} {m : Mean} : DocTok g t m → DocToks g [t] [m]
  | cons {t : List Char} {m : Mean} {us : List (List Char)} {ms : List Mean} : DocTok g t m → m.next = none → DocToks g us ms → DocToks g (t :: us) (m :: ms)

/-- Specification: the actions applied. -/
def Mean.applied : Mean → List Action
  | .acts as => as
  | _ => []

/-- Specification: the writes into the action set. -/
def Mean.written : Mean → Option (List Action)
  | .write as => some as
  | _ => none

/-- Specification: the write to the metadata. -/
def Mean.metadata : Mean → Option (Nat × Option Nat)
  | .wmeta v m => some (v, m)
  | _ => none

/-! ### Flows -/

/-- Specification: what one argument before `actions=` says. -/
inductive Arg where
  | fields (cs : List (Nat × Nat × Option Nat))
  | table (n : Nat)
  | priority (n : Nat)
  | cookie (n : Nat)
  | nothing

/-- Specification: the arguments with values that say nothing about what the rule does. -/
def docSkipped : List (List Char) := ["duration".toList, "n_packets".toList, "n_bytes".toList, "idle_timeout".toList, "hard_timeout".toList,
  "importance".toList, "idle_age".toList]

/-- Specification: the flags. -/
def docFlags : List (List Char) := ["send_flow_rem".toList, "check_overlap".toList, "reset_counts".toList, "no_packet_counts".toList, "no_byte_counts".toList]

/-- Specification: an argument and its meaning. -/
inductive DocArg : List Char → Arg → Prop
  | item {t : List Char} {cs : List (Nat × Nat × Option Nat)} : DocItem t cs → DocArg t (.fields cs)
  | table {t : List Char} {n : Nat} : Denotes .num t n → DocArg ("table=".toList ++ t) (.table n)
  | priority {t : List Char} {n : Nat} : Denotes .num t n → DocArg ("priority=".toList ++ t) (.priority n)
  | cookie {t : List Char} {n : Nat} : Denotes .num t n → DocArg ("cookie=".toList ++ t) (.cookie n)
  | skipped {key t : List Char} : key ∈ docSkipped → '=' ∉ t → '/' ∉ t → DocArg (key ++ '=' :: t) .nothing
  | flag {t : List Char} : t ∈ docFlags → DocArg t .nothing

/-- Specification: the (field, value, mask) asked for. -/
def Arg.asked : Arg → List (Nat × Nat × Option Nat)
  | .fields cs => cs
  | _ => []

/-- Specification: the table, if given. -/
def Arg.tableNo : Arg → Option Nat
  | .table n => some n
  | _ => none

/-- Specification: the priority, if given. -/
def Arg.priorityNo : Arg → Option Nat
  | .priority n => some n
  | _ => none

/-- Specification: the cookie, if given. -/
def Arg.cookieNo : Arg → Option Nat
  | .cookie n => some n
  | _ => none

end OFE.Ovs
