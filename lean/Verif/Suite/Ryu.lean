import Verif.Ryu.Model
import Verif.Rule.Equality
import Verif.Suite.Actions
import Verif.Suite.Deps

/-!
The expectations of the code's own tests of the messages of Ryu (tests/test_convert_ryu.py in /repo), evaluated on the model.  These are tests, not proofs of
properties; they are run by the compiler (`#guard`), not checked by the kernel.  Ryu hands over the values of a match as bytes (`oxmBytes`).  IN_PORT is field 0,
IN_PHY_PORT 1, METADATA 2, ETH_DST 3, ETH_SRC 4, ETH_TYPE 5, VLAN_VID 6, IPV4_SRC 11, IPV4_DST 12, IPV6_SRC 26, IPV6_DST 27, MPLS_BOS 36.  Writing to JSON and
pickle files and reading back is taken to give the same messages.
-/

namespace OFE
namespace Suite
open Ryu

/-- An entry of `OFPMatch(field=value)` or `OFPMatch(field=(value, mask))`, tests/test_convert_ryu.py:46-63. -/
def ox (f v : Nat) (mask : Option Nat) : ROxm :=
  let b (x : Nat) : List Char := match oxmBytes f x with | .ok s => s | .error _ => []
  ⟨f, b v, mask.map b⟩

/-- `assertEqual(match_from_ryu(OFPMatch(…)), Match(items))`, tests/test_convert_ryu.py:46-63 -/
def ryuMatch (items : List (Nat × Nat × Option Nat)) : Bool :=
  match matchFromRyu (some (items.map fun x => ox x.1 x.2.1 x.2.2)) with
  | .ok m => m.eq (mm items)
  | .error _ => false

/-! `test_exact_match_from_ryu` and `test_masked_match_from_ryu`, tests/test_convert_ryu.py:44-63. -/

#guard [[(0, 1, none)], [(1, 2, none)], [(2, 3, none)], [(4, 4, none)], [(36, 7, none)], [(12, 0xC0A80200, some 0xFFFFFF00)],
  [(4, 0x010000000000, some 0x010000000000)]].all ryuMatch

/-- `assertEqual(instructions_from_ryu(ryu_inst), inst)`, tests/test_convert_ryu.py:65-87 -/
def ryuInst (l : List RInst) (i : Except PyErr Inst) : Bool :=
  match instFromRyu (some l), i with
  | .ok a, .ok b => a.eq b
  | _, _ => false

/-! `test_convert_instructions`, tests/test_convert_ryu.py:65-87. -/

#guard ryuInst [.wmeta 0x56 0xff] (.ok { Inst.empty with wmeta := some (0x56, some 0xff) })
#guard ryuInst [.goto 6] (.ok { Inst.empty with goto := some 6 })
#guard ryuInst [.actions itApply [.plain atOutput 1]] (do return { Inst.empty with apply := ← ActionList.ofList [.output 1] })
#guard ryuInst [.actions itWrite [.plain atOutput 2]] (do return { Inst.empty with write := ← actionSetOfList [.output 2] })

/-! `test_convert_flow`, tests/test_convert_ryu.py:89-135. -/

#guard match ruleFromRyu (⟨789, some 0xABCD, 3, some [ox 11 1 none, ox 5 0x8100 none, ox 6 0x1100 none],
      some [.actions itClear [], .actions itWrite [.plain atPopVlan 0, .setField 3 (.text "10:10:10:10:10:10".toList), .plain atOutput 7], .goto 9, .wmeta 0x99 0xff]⟩),
    actionSetOfList [.popVlan, .setField 3 0x101010101010, .output 7] with
  | .ok r, .ok w => r.eq (⟨789, some 0xABCD, 3, mm [(11, 1, none), (5, 0x8100, none), (6, 0x1100, none)],
      { Inst.empty with goto := some 9, clear := true, write := w, wmeta := some (0x99, some 0xff) }, []⟩ : Rule Nat)
  | _, _ => false

/-- `assertEqual(actions_from_ryu([a], 'list'), ActionList([b]))`, tests/test_convert_ryu.py:137-212 -/
def ryuAct (a : RAct) (b : Action) : Bool :=
  match actionsFromRyu ActionList.append [a], ActionList.ofList [b] with
  | .ok x, .ok y => x.eq y
  | _, _ => false

/-! `test_convert_actions`, tests/test_convert_ryu.py:137-212. -/

#guard [(RAct.plain atOutput 6, Action.output 6), (.plain atGroup 7, .group 7), (.plain atSetQueue 8, .setQueue 8), (.plain atPushVlan 0x8100, .pushVlan 0x8100),
  (.plain atPushVlan 0x88a8, .pushVlan 0x88a8), (.plain atPopVlan 0, .popVlan), (.plain atPushMpls 0x8847, .pushMpls 0x8847), (.plain atPushMpls 0x8848, .pushMpls 0x8848),
  (.plain atPopMpls 0x800, .popMpls 0x800), (.plain atPushPbb 0x88e7, .pushPbb 0x88e7), (.plain atPopPbb 0, .popPbb), (.plain atCopyTtlOut 0, .copyTtlOut),
  (.plain atCopyTtlIn 0, .copyTtlIn), (.plain atSetMplsTtl 24, .setMplsTtl 24), (.plain atDecMplsTtl 0, .decMplsTtl), (.plain atSetNwTtl 0xff, .setNwTtl 0xff),
  (.plain atDecNwTtl 0, .decNwTtl), (.setField 6 (.num 100), .setField 6 100)].all fun x => ryuAct x.1 x.2

#guard [(3, "10:11:12:13:14:15", 0x101112131415), (4, "10-11-12-13-14-15", 0x101112131415), (12, "192.168.2.1", 0xc0a80201), (11, "192.168.2.2", 0xc0a80202),
  (26, "::", 0), (26, "2001:DB8:0123:4567:89ab:cdef:a:a", 0x20010DB80123456789abcdef000a000a), (27, "2001:DB8::", 0x20010DB8000000000000000000000000)].all
  fun x => ryuAct (.setField x.1 (.text x.2.1.toList)) (.setField x.1 x.2.2)

/-- Writing and reading a ruleset, tests/test_convert_ryu.py:216-219. -/
def savedRyu (rs : List (Rule Unit)) : Bool :=
  match rulesetToRyu (fun _ => none) 1 rs 1 with
  | .ok (flows, _) => match (rulesetFromJson (fun _ => .error .assertion) (fun _ => .error .assertion) (.list (flows.map .flow)) : Except PyErr (List (Rule Unit))) with
    | .ok rs2 => rs.length == rs2.length && (List.zipWith Rule.eq rs rs2).all id
    | .error _ => false
  | .error _ => false

/-! `test_save_ryu_json` and `test_save_ryu_pickle`, tests/test_convert_ryu.py:214-246. -/

#guard savedRyu (rewrite.map (·.2)) && savedRyu (covisor.map (·.2)) && savedRyu (reannz.map (·.2))

end Suite
end OFE
