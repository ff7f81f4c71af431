import Verif.Ovs.FileModel
import Verif.Rule.Equality
import Verif.Suite.Deps
import Verif.Suite.Actions

/-!
The expectations of the code's own tests of the format of Open vSwitch (tests/test_convert_ovs.py in /repo), evaluated on the model.  These are tests, not proofs
of properties; they are run by the compiler (`#guard`), not checked by the kernel.  IN_PORT is field 0, METADATA 2, ETH_DST 3, ETH_SRC 4, ETH_TYPE 5, VLAN_VID 6,
IPV4_SRC 11, IPV4_DST 12, IPV6_SRC 26, IPV6_DST 27, MPLS_BOS 36.
-/

namespace OFE
namespace Suite
open Ovs

/-- `assertEqual(match_from_ovs(text), Match(items))`, tests/test_convert_ovs.py:36-52 -/
def readsMatch (text : String) (items : List (Nat × Nat × Option Nat)) : Bool :=
  match matchFromOvs text.toList with
  | .ok m => m.eq (mm items)
  | .error _ => false

/-! `test_exact_match_from_ovs` and `test_masked_match_from_ovs`, tests/test_convert_ovs.py:34-53. -/

#guard readsMatch "in_port=1" [(0, 1, none)]
#guard readsMatch "metadata=0x3" [(2, 3, none)]
#guard readsMatch "dl_src=00:00:00:00:00:04" [(4, 4, none)]
#guard readsMatch "mpls_bos=1" [(36, 1, none)]
#guard readsMatch "nw_dst=192.168.2.0/24" [(12, 0xC0A80200, some 0xFFFFFF00)]
#guard readsMatch "nw_dst=192.168.2.0/245.255.255.0" [(12, 0xC0A80200, some 0xF5FFFF00)]
#guard readsMatch "dl_src=01:00:00:00:00:00/01:00:00:00:00:00" [(4, 0x010000000000, some 0x010000000000)]

/-- `assertEqual(instructions_from_ovs(text, {}), inst)`, tests/test_convert_ovs.py:55-71 -/
def readsInst (text : String) (inst : Except PyErr Inst) : Bool :=
  match instFromOvs [] text.toList, inst with
  | .ok a, .ok b => a.eq b
  | _, _ => false

/-! `test_convert_instructions`, tests/test_convert_ovs.py:55-71. -/

#guard readsInst "write_metadata:0x56/0xff" (.ok { Inst.empty with wmeta := some (0x56, some 0xff) })
#guard readsInst "goto_table:6" (.ok { Inst.empty with goto := some 6 })
#guard readsInst "output:1" (do return { Inst.empty with apply := ← ActionList.ofList [.output 1] })
#guard readsInst "write_actions(output:2)" (do return { Inst.empty with write := ← actionSetOfList [.output 2] })

/-- `assertEqual(rule_from_ovs(text, {}), expected)`, tests/test_convert_ovs.py:105-120 -/
def readsRule (text : String) (r : Except PyErr (Rule Nat)) : Bool :=
  match ruleFromOvs [] text.toList, r with
  | .ok a, .ok b => a.eq b
  | _, _ => false

/-- `expected` of `test_convert_flow1`, tests/test_convert_ovs.py:76-90 -/
def flow1 (cookie : Option Nat) : Except PyErr (Rule Nat) := do
  return ⟨789, cookie, 3, mm [(5, 0x0800, none), (11, 1, none), (6, 0x1100, none)],
    { Inst.empty with apply := ← ActionList.ofList [.popVlan, .setField 3 0x101010101010, .output 7], goto := some 4 }, []⟩

/-! `test_convert_flow1`, tests/test_convert_ovs.py:73-120. -/

#guard readsRule "priority=789 cookie=0xABCD table=3 eth_type=0x800,ip_src=0.0.0.1,vlan_vid=0x1100 actions=pop_vlan,set_field:10:10:10:10:10:10->eth_dst,output:7,goto_table:4"
  (flow1 (some 0xABCD))
#guard readsRule " cookie=0xabcd, duration=30.907s, table=3, n_packets=0, n_bytes=0, priority=789,ip,dl_vlan=256,nw_src=0.0.0.1 actions=strip_vlan,mod_dl_dst:10:10:10:10:10:10,output:7,resubmit(,4)"
  (flow1 (some 0xABCD))
#guard readsRule " cookie=0xabcd, duration=24.104s, table=3, n_packets=0, n_bytes=0, priority=789,ip,dl_vlan=256,nw_src=0.0.0.1 actions=pop_vlan,set_field:10:10:10:10:10:10->eth_dst,output:7,goto_table:4"
  (flow1 (some 0xABCD))
#guard readsRule " cookie=0xabcd, table=3, priority=789,ip,dl_vlan=256,nw_src=0.0.0.1 actions=pop_vlan,set_field:10:10:10:10:10:10->eth_dst,output:7,goto_table:4"
  (flow1 (some 0xABCD))
#guard readsRule " cookie=0xabcd, duration=28.969s, table=3, n_packets=0, n_bytes=0, idle_age=28, priority=789,ip,dl_vlan=256,nw_src=0.0.0.1 actions=pop_vlan,set_field:10:10:10:10:10:10->eth_dst,output:7,goto_table:4"
  (flow1 (some 0xABCD))
#guard readsRule "table_id=3, duration=51s, n_packets=0, n_bytes=0, priority=789,ip,dl_vlan=256,nw_src=0.0.0.1,actions=pop_vlan,set_field:10:10:10:10:10:10->eth_dst,output:7,goto_table:4"
  (flow1 none)

/-- `expected` of `test_convert_flow2`, tests/test_convert_ovs.py:127-142 -/
def flow2 (cookie : Option Nat) : Except PyErr (Rule Nat) := do
  return ⟨0x8000, cookie, 0, mm [(11, 1, none), (5, 0x800, none), (6, 0x1100, none)],
    { Inst.empty with write := ← actionSetOfList [.popVlan, .setField 3 0x101010101010, .output 7], goto := some 9, clear := true, wmeta := some (0x99, some 0xff) }, []⟩

/-- `ofctl13` of `test_convert_flow2`, tests/test_convert_ovs.py:153 -/
def ofctl13 : String := " cookie=0xabcd, duration=24.097s, table=0, n_packets=0, n_bytes=0, ip,dl_vlan=256,nw_src=0.0.0.1 actions=clear_actions,write_actions(pop_vlan,set_field:10:10:10:10:10:10->eth_dst,output:7),write_metadata:0x99/0xff,goto_table:9"

/-! `test_convert_flow2`, tests/test_convert_ovs.py:123-169. -/

#guard readsRule "priority=0x8000 cookie=0xABCD table=0 eth_type=0x800,ip_src=0.0.0.1,vlan_vid=0x1100 actions=clear_actions,write_actions(pop_vlan,set_field:10:10:10:10:10:10->eth_dst,output:7),write_metadata:0x99/0xff,goto_table:9"
  (flow2 (some 0xABCD))
#guard readsRule " cookie=0xabcd, duration=10.778s, table=0, n_packets=0, n_bytes=0, ip,dl_vlan=256,nw_src=0.0.0.1 actions=clear_actions,write_actions(pop_vlan,mod_dl_dst:10:10:10:10:10:10,output:7),write_metadata:0x99/0xff,goto_table:9"
  (flow2 (some 0xABCD))
#guard readsRule ofctl13 (flow2 (some 0xABCD))
#guard readsRule "duration=369s, n_packets=0, n_bytes=0, ip,dl_vlan=256,nw_src=0.0.0.1,actions=clear_actions,write_actions(pop_vlan,set_field:10:10:10:10:10:10->eth_dst,output:7),write_metadata:0x99/0xff,goto_table:9"
  (flow2 none)

/-- `assertEqual(actions_from_ovs(text, groups), ActionList(actions))`, tests/test_convert_ovs.py:175-176 -/
def readsActs (groups : List (Nat × Nat)) (text : String) (acts : List Action) : Bool :=
  match actionsFromOvs groups ActionList.append text.toList, ActionList.ofList acts with
  | .ok a, .ok b => a.eq b
  | _, _ => false

/-! `test_convert_actions`, tests/test_convert_ovs.py:171-244. -/

#guard readsActs [] "output:6" [.output 6]
#guard readsActs [(7, 7)] "group:7" [.group 7]
#guard readsActs [] "set_queue:8" [.setQueue 8]
#guard readsActs [] "push_vlan:0x8100" [.pushVlan 0x8100]
#guard readsActs [] "push_vlan:0x88a8" [.pushVlan 0x88a8]
#guard readsActs [] "pop_vlan" [.popVlan]
#guard readsActs [] "strip_vlan" [.popVlan]
#guard readsActs [] "push_mpls:0x8847" [.pushMpls 0x8847]
#guard readsActs [] "push_mpls:0x8848" [.pushMpls 0x8848]
#guard readsActs [] "pop_mpls:0x0800" [.popMpls 0x0800]
#guard readsActs [] "set_field:100->vlan_vid" [.setField 6 100]
#guard readsActs [] "set_field:4196->vlan_vid" [.setField 6 100]
#guard readsActs [] "set_field:10:11:12:13:14:15->eth_dst" [.setField 3 0x101112131415]
#guard readsActs [] "set_field:10:11:12:13:14:15->eth_src" [.setField 4 0x101112131415]
#guard readsActs [] "set_field:192.168.2.1->ip_dst" [.setField 12 0xc0a80201]
#guard readsActs [] "set_field:192.168.2.2->ip_src" [.setField 11 0xc0a80202]
#guard readsActs [] "set_field:::->ipv6_src" [.setField 26 0]
#guard readsActs [] "set_field:2001:db8:123:4567:89ab:cdef:a:a->ipv6_src" [.setField 26 0x20010DB80123456789abcdef000a000a]
#guard readsActs [] "set_field:2001:db8::->ipv6_dst" [.setField 27 0x20010DB8000000000000000000000000]
#guard readsActs [] "set_field:12->mpls_ttl" [.setMplsTtl 12]
#guard readsActs [] "set_mpls_ttl(24)" [.setMplsTtl 24]
#guard readsActs [] "set_mpls_ttl:23" [.setMplsTtl 23]
#guard readsActs [] "dec_mpls_ttl" [.decMplsTtl]
#guard readsActs [] "mod_nw_ttl:255" [.setNwTtl 255]
#guard readsActs [] "set_nw_ttl:255" [.setNwTtl 255]
#guard readsActs [] "set_field:255->nw_ttl" [.setNwTtl 255]
#guard readsActs [] "dec_ttl" [.decNwTtl]

/-! `test_rule_to_ovs`, tests/test_convert_ovs.py:246-254. -/

#guard match (ruleFromOvs [] ofctl13.toList : Except PyErr (Rule Nat)) with
  | .ok r => match ruleToOvs r with
    | .ok text => match (ruleFromOvs [] text : Except PyErr (Rule Nat)) with
      | .ok r2 => r.eq r2
      | .error _ => false
    | .error _ => false
  | .error _ => false

/-- Saving and loading, tests/test_convert_ovs.py:259-262. -/
def savedOvs (rs : List (Rule Unit)) : Bool :=
  match rulesetToOvs rs with
  | .ok text => match (rulesetFromOvs (fileLines text) : Except PyErr (List (Rule Unit) × List (Option Nat × Grp))) with
    | .ok (rs2, gs) => gs.isEmpty && rs.length == rs2.length && (List.zipWith Rule.eq rs rs2).all id
    | .error _ => false
  | .error _ => false

/-! `test_save_ovs`, tests/test_convert_ovs.py:256-272. -/

#guard savedOvs (rewrite.map (·.2))
#guard savedOvs (covisor.map (·.2))
#guard savedOvs (reannz.map (·.2))

end Suite
end OFE
