import Verif.Main.Difference
import Verif.Shim.Model
import Verif.Eager.Model
import Verif.Rule.Equality
import Verif.Suite.Actions

/-!
The expectations of the code's own tests of normalisation, of comparison, of conflicting paths and of single tables (tests/base_normalise.py with
tests/test_normalise_bdd.py, and `test_to_single_table` of tests/test_ruleset.py in /repo), evaluated on the model.  These are tests, not proofs of properties; they
are run by the compiler (`#guard`), not checked by the kernel.  IN_PORT is field 0, METADATA 2, ETH_TYPE 5, VLAN_VID 6, VLAN_PCP 7, IPV4_SRC 11, IPV4_DST 12,
TCP_SRC 13.
-/

namespace OFE
namespace Suite

/-- `Rule(priority, match, instructions=inst_from_acts(acts))`, tests/base_normalise.py:178-181; the lists of actions are built with `ActionList.ofList`. -/
def nr (priority : Nat) (items : List (Nat × Nat × Option Nat)) (acts : List Action) : Rule Nat :=
  ⟨priority, none, 0, mm items, { Inst.empty with apply := match ActionList.ofList acts with | .ok l => l | .error _ => .empty }, []⟩

/-- `data1`, tests/base_normalise.py:38-45 -/
def data1 : List (Rule Nat) := [nr 10 [(5, 60, none)] [], nr 9 [(12, 1, none)] [.output 6], nr 0 [] []]
/-- `data2`, tests/base_normalise.py:52-60 -/
def data2 : List (Rule Nat) := [nr 10 [(12, 1, none), (5, 60, none)] [], nr 9 [(12, 1, none)] [.output 6], nr 0 [] []]
/-- `data3`, tests/base_normalise.py:69-83 -/
def data3 : List (Rule Nat) := [nr 10 [(12, 1, none), (5, 60, none)] [], nr 10 [(12, 0, none), (5, 60, none)] [], nr 9 [(12, 1, none)] [.output 6],
  nr 9 [(12, 0, none)] [.output 6], nr 0 [] []]
/-- `data4`, tests/base_normalise.py:90-97 -/
def data4 : List (Rule Nat) := [nr 10 [(5, 60, none)] [], nr 9 [(12, 0, some 0xfffffffe)] [.output 6], nr 0 [] []]
/-- `data5`, tests/base_normalise.py:104-112 -/
def data5 : List (Rule Nat) := [nr 10 [(12, 0, some 0xfffffffe), (5, 60, none)] [], nr 9 [(12, 0, some 0xfffffffe)] [.output 6], nr 0 [] []]
/-- `data6`, tests/base_normalise.py:119-127 -/
def data6 : List (Rule Nat) := [nr 10 [(12, 0, some 0xfffffffc), (5, 60, none)] [], nr 9 [(12, 0, some 0xfffffffc)] [.output 6], nr 0 [] []]
/-- `data7`, tests/base_normalise.py:137-153 -/
def data7 : List (Rule Nat) := [nr 10 [(5, 60, none)] [], nr 9 [(12, 3, none)] [.output 6], nr 9 [(12, 2, none)] [.output 6], nr 9 [(12, 1, none)] [.output 6],
  nr 9 [(12, 0, none)] [.output 6], nr 0 [] []]
/-- `data8`, tests/base_normalise.py:163-175 -/
def data8 : List (Rule Nat) := [nr 10 [(5, 60, none)] [], nr 9 [(12, 1, none)] [.output 6], nr 8 [(12, 1, none)] [], nr 7 [(5, 60, none)] [.output 6], nr 0 [] []]

/-- `check_equal(normalise(a), normalise(b))`, tests/base_normalise.py:198-201 -/
def equalNorm (a b : List (Rule Nat)) : Except PyErr Bool := do
  let x ← normaliseRules (sessionReg []) a
  let y ← normaliseRules x.2 b
  checkEqual y.2 x.1 y.1

/-- The same with `match_redundancy=True`, tests/base_normalise.py:410-449 -/
def equalEager (a b : List (Rule Nat)) : Except PyErr Bool := do
  let x ← normaliseEager id (sessionReg []) a
  let y ← normaliseEager id x.2 b
  checkEqual y.2 x.1 y.1

/-! `test_normalise_1` to `test_fails`, tests/base_normalise.py:198-230. -/

#guard equalNorm data1 data2 == .ok true
#guard equalNorm data3 data4 == .ok true
#guard equalNorm data5 data4 == .ok true
#guard equalNorm data5 data3 == .ok true
#guard equalNorm data6 data7 == .ok true
#guard equalNorm data1 data8 == .ok true
#guard equalNorm data1 data3 == .ok false
#guard equalNorm data2 data4 == .ok false
#guard equalNorm data5 data1 == .ok false

/-- The rulesets of `test_redundant_vlans`, tests/base_normalise.py:232-309. -/
def vlans (acts : List Action) : List (Rule Nat) := [nr 10 [(12, 1, none)] acts, nr 0 [] []]

/-- `n1` to `n8` of `test_redundant_vlans`, tests/base_normalise.py:241-309. -/
def vlanCase : Nat → List Action
  | 1 => [.setField 6 1, .setField 11 1, .output 1]
  | 2 => [.setField 6 2, .pushVlan 0x8100, .setField 11 1, .setField 7 5, .popVlan, .setField 6 1, .output 1]
  | 3 => [.setField 11 1, .pushVlan 0x8100, .setField 6 2, .setField 6 2, .popVlan, .setField 6 1, .output 1]
  | 4 => [.setField 11 1, .pushVlan 0x8100, .pushVlan 0x8100, .setField 6 2, .popVlan, .setField 6 2, .popVlan, .setField 6 1, .output 1]
  | 5 => [.setField 11 1, .popVlan, .pushVlan 0x8100, .setField 6 2, .output 1]
  | 6 => [.setField 11 1, .setField 6 1, .setField 7 5, .popVlan, .pushVlan 0x8100, .setField 6 2, .output 1]
  | 7 => [.pushVlan 0x8100, .setField 6 1, .pushVlan 0x8100, .setField 6 2, .output 1]
  | _ => [.pushVlan 0x8100, .pushVlan 0x8100, .setField 6 2, .output 1]

#guard equalNorm (vlans (vlanCase 1)) (vlans (vlanCase 2)) == .ok true
#guard equalNorm (vlans (vlanCase 1)) (vlans (vlanCase 3)) == .ok true
#guard equalNorm (vlans (vlanCase 1)) (vlans (vlanCase 4)) == .ok true
#guard equalNorm (vlans (vlanCase 1)) (vlans (vlanCase 5)) == .ok false
#guard equalNorm (vlans (vlanCase 5)) (vlans (vlanCase 6)) == .ok true
#guard equalNorm (vlans (vlanCase 7)) (vlans (vlanCase 8)) == .ok false

/-- The rulesets of `test_redundant_set_field`, tests/base_normalise.py:311-352: the values set, then the output. -/
def sets (vs : List Nat) : List (Rule Nat) := [nr 10 [] (vs.map (.setField 12 ·) ++ [.output 1]), nr 0 [] []]

#guard equalNorm (sets [2]) (sets [1, 2]) == .ok true
#guard equalNorm (sets [2]) (sets [3, 2]) == .ok true
#guard equalNorm (sets [2]) (sets [4, 3, 1, 2]) == .ok true
#guard equalNorm (sets [2]) (sets [2, 2, 2, 2]) == .ok true
#guard equalNorm (sets [2]) (sets [4, 3, 1, 1]) == .ok false

/-- `n1` to `n4` of `test_action_independence_single`, tests/base_normalise.py:354-399. -/
def single : Nat → List (Rule Nat)
  | 1 => [nr 10 [(12, 0x01010100, some 0xFFFFFFFE)] [.setField 12 0x01010101, .output 6], nr 0 [] []]
  | 2 => [nr 10 [(12, 0x01010101, none)] [.output 6], nr 9 [(12, 0x01010100, some 0xFFFFFFFE)] [.setField 12 0x01010101, .output 6], nr 0 [] []]
  | 3 => [nr 10 [(12, 0x01010100, none)] [.setField 12 0x01010101, .output 6], nr 9 [(12, 0x01010100, some 0xFFFFFFFE)] [.output 6], nr 0 [] []]
  | _ => [nr 10 [(12, 0x01010101, none)] [.output 6], nr 9 [(12, 0x01010100, some 0xFFFFFFFE)] [.decNwTtl, .setField 12 0x01010101, .output 6], nr 0 [] []]

#guard equalNorm (single 1) (single 2) == .ok true
#guard equalNorm (single 1) (single 4) == .ok false
#guard equalNorm (single 2) (single 3) == .ok true
#guard equalNorm (single 1) (single 3) == .ok true

/-- The actions after the set-fields in `test_action_independence_multiple`, tests/base_normalise.py:401-449. -/
def afterOut : List Action := [.output 1, .setField 12 2, .setField 11 1, .output 2]

/-- The second rule of `test_action_independence_multiple`. -/
def wide (p : Nat) : Rule Nat := nr p [(12, 0, some 0xFFFFFFFE)] (.setField 12 1 :: .setField 11 2 :: afterOut)

/-- `n1` to `n3` of `test_action_independence_multiple`. -/
def multiple : Nat → List (Rule Nat)
  | 1 => [wide 10, nr 0 [] []]
  | 2 => [nr 10 [(12, 1, none), (11, 2, none)] afterOut, wide 9, nr 0 [] []]
  | _ => [nr 10 [(12, 1, none)] (.setField 11 2 :: afterOut), wide 9, nr 0 [] []]

#guard equalEager (multiple 1) (multiple 2) == .ok true
#guard equalEager (multiple 2) (multiple 3) == .ok true
#guard equalEager (multiple 1) (multiple 3) == .ok true

/-- A rule of a pipeline: table, priority, match, instructions. -/
def pr (table priority : Nat) (items : List (Nat × Nat × Option Nat)) (inst : Inst) : Rule Nat := ⟨priority, none, table, mm items, inst, []⟩

/-- `output1`, tests/base_normalise.py:25-26 -/
def output1 : Inst := { Inst.empty with apply := ⟨[[.output 6]], [.output 6]⟩ }

/-- `goto1` and `goto2`, tests/base_normalise.py:27-30 -/
def gotoI (n : Nat) : Inst := { Inst.empty with goto := some n }

/-- Equality of the dicts of paths: the values are frozen sets. -/
def samePaths (a b : List (List Nat × List (List Nat))) : Bool :=
  a.length == b.length && a.all fun x => match b.lookup x.1 with
    | some l => x.2.all l.contains && l.all x.2.contains
    | none => false

/-- `to_single_table`, `normalise`, `check_equal(…, diff=True)` is False, and `find_conflicting_paths` both ways, tests/base_normalise.py:493-519. -/
def conflicts2 (a b : List (Rule Nat)) (ab ba : List (List Nat × List (List Nat))) : Except PyErr Bool := do
  let sa ← toSingleTable a true
  let sb ← toSingleTable b true
  let x ← normaliseRules (sessionReg []) sa
  let y ← normaliseRules x.2 sb
  let d := Cudd.difference 1 x.1 y.1
  let p ← conflictingRules d sa sb
  let q ← conflictingRules d sb sa
  return !checkEqualPlain x.1 y.1 && samePaths p ab && samePaths q ba

/-- The rulesets of `test_find_simple_conflicting_paths`, tests/base_normalise.py:466-481. -/
def simple : Nat → List (Rule Nat)
  | 0 => [pr 0 9 [(12, 1, none)] output1, pr 0 0 [] .empty]
  | 1 => [pr 0 9 [(12, 1, none)] .empty, pr 0 0 [] .empty]
  | _ => [pr 0 0 [] .empty]

/-! `test_find_simple_conflicting_paths`, tests/base_normalise.py:451-519. -/

#guard conflicts2 (simple 0) (simple 1) [([0], [[0]])] [([0], [[0]])] == .ok true
#guard conflicts2 (simple 0) (simple 2) [([0], [[0]])] [([0], [[0]])] == .ok true
#guard equalNorm (simple 1) (simple 2) == .ok true

/-- The rulesets of `test_find_multitable_conflicting_paths`, tests/base_normalise.py:544-580. -/
def multitable : Bool → List (Rule Nat)
  | true => [pr 0 10 [(6, 1, none)] (gotoI 1), pr 0 10 [(6, 2, none)] (gotoI 2), pr 0 0 [] .empty, pr 1 20 [(12, 0, some 0xFFFFFFFE)] output1,
      pr 1 19 [(12, 0, none)] output1, pr 1 0 [] .empty, pr 2 30 [(12, 0, none)] .empty, pr 2 30 [(12, 1, none)] .empty, pr 2 0 [] .empty]
  | false => [pr 0 14 [(6, 1, none), (12, 0, none)] .empty, pr 0 14 [(6, 1, none), (12, 1, none)] output1, pr 0 14 [(6, 2, none), (12, 0, none)] output1,
      pr 0 14 [(6, 2, none), (12, 1, none)] .empty, pr 0 0 [] .empty]

/-! `test_find_multitable_conflicting_paths`, tests/base_normalise.py:521-606. -/

#guard conflicts2 (multitable true) (multitable false) [([0, 3], [[0]]), ([1, 6], [[2]])] [([0], [[0, 3]]), ([2], [[1, 6]])] == .ok true

/-! `test_find_rewrite_conflicting_paths`, tests/base_normalise.py:608-659. -/

#guard conflicts2 [pr 0 10 [(6, 0x1000, none)] { Inst.empty with goto := some 1, apply := ⟨[[.setField 6 1]], [.setField 6 1]⟩ }, pr 0 0 [] .empty,
    pr 1 20 [(6, 0x1000, none)] output1, pr 1 20 [(6, 0x1001, none)] .empty, pr 1 0 [] .empty] [pr 0 0 [] output1]
  [([0, 3], [[0]]), ([1], [[0]])] [([0], [[0, 3], [1]])] == .ok true

/-! `test_find_metadata_conflicting_paths`, tests/base_normalise.py:661-712. -/

#guard conflicts2 [pr 0 10 [] { Inst.empty with goto := some 1, wmeta := some (0x12, none) },
    pr 1 10 [(2, 0x12, none)] { Inst.empty with goto := some 2, wmeta := some (1, some 3) }, pr 1 0 [] .empty, pr 2 10 [(2, 0x11, none)] output1, pr 2 0 [] .empty]
  [pr 0 0 [] .empty] [([0, 1, 3], [[0]])] [([0], [[0, 1, 3]])] == .ok true

/-- `push_vlan1` and `push_vlan2`, tests/base_normalise.py:735-742 -/
def pushI (v : Nat) : Inst :=
  { Inst.empty with goto := some 1, apply := match ActionList.ofList [.pushVlan 0x8100, .setField 6 v] with | .ok l => l | .error _ => .empty }

/-- `trunk10` and `access11`, tests/base_normalise.py:743-747 -/
def writeI (acts : List Action) : Inst := { Inst.empty with write := match actionSetOfList acts with | .ok l => l | .error _ => .empty }

/-- The first table of the rulesets of `test_find_vlans_conflicting_paths`, tests/base_normalise.py:749-762. -/
def ports : List (Rule Nat) :=
  [pr 0 10 [(0, 1, none), (6, 0x1001, none)] (gotoI 1), pr 0 10 [(0, 2, none)] (pushI 2), pr 0 10 [(0, 3, none)] (pushI 1),
    pr 0 10 [(0, 4, none), (6, 0x1002, none)] (gotoI 1), pr 0 0 [] .empty]

/-- `ruleset_a` of `test_find_vlans_conflicting_paths`, tests/base_normalise.py:749-770 -/
def vlanA : List (Rule Nat) := ports ++ [pr 1 10 [(13, 80, none)] .empty, pr 1 0 [] (gotoI 2), pr 2 10 [(6, 0x1001, none)] (writeI [.output 11]),
  pr 2 10 [(6, 0x1002, none)] (writeI [.popVlan, .output 11]), pr 2 0 [] .empty]

/-- `ruleset_b` of `test_find_vlans_conflicting_paths`, tests/base_normalise.py:771-789 -/
def vlanB : List (Rule Nat) := ports ++ [pr 1 10 [(6, 0x1001, none)] (writeI [.popVlan, .output 11]), pr 1 10 [(6, 0x1002, none)] (writeI [.output 11]),
  pr 1 0 [] .empty]

/-! `test_find_vlans_conflicting_paths`, tests/base_normalise.py:714-852. -/

#guard conflicts2 vlanA vlanB
  [([0, 5], [[0, 5]]), ([0, 6, 7], [[0, 5]]), ([1, 5], [[1, 6]]), ([1, 6, 8], [[1, 6]]), ([2, 5], [[2, 5]]), ([2, 6, 7], [[2, 5]]), ([3, 5], [[3, 6]]),
    ([3, 6, 8], [[3, 6]])]
  [([0, 5], [[0, 5], [0, 6, 7]]), ([1, 6], [[1, 5], [1, 6, 8]]), ([2, 5], [[2, 5], [2, 6, 7]]), ([3, 6], [[3, 5], [3, 6, 8]])] == .ok true
#guard conflicts2 [pr 0 0 [] .empty] vlanA [([0], [[0, 6, 7], [1, 6, 8], [2, 6, 7], [3, 6, 8]])]
  [([0, 6, 7], [[0]]), ([1, 6, 8], [[0]]), ([2, 6, 7], [[0]]), ([3, 6, 8], [[0]])] == .ok true

/-- `to_single_table(rules)` compared with the expected rules, tests/test_ruleset.py:129-130. -/
def singleIs (rules expected : List (Rule Nat)) : Bool :=
  match toSingleTable rules true with
  | .ok l => l.length == expected.length && (List.zipWith Rule.eq l expected).all id
  | .error _ => false

/-- `FORWARD_DROP`, tests/test_ruleset.py:51-63 -/
def forwardDrop : List (Rule Nat) :=
  [pr 0 10 [(12, 1, some 3)] { writeI [.output 1] with goto := some 1 }, pr 0 9 [(12, 2, some 7)] { writeI [.output 2] with goto := some 1 }, pr 0 0 [] .empty,
    pr 1 100 [(12, 8, some 8)] { Inst.empty with clear := true }, pr 1 0 [] .empty]

/-- `DROP_FORWARD`, tests/test_ruleset.py:82-94 -/
def dropForward : List (Rule Nat) :=
  [pr 0 100 [(12, 8, some 8)] .empty, pr 0 0 [] (gotoI 1), pr 1 10 [(12, 2, some 7)] (nr 0 [] [.output 2]).inst, pr 1 10 [(12, 1, some 7)] (nr 0 [] [.output 1]).inst,
    pr 1 10 [(12, 5, some 7)] (nr 0 [] [.output 1]).inst, pr 1 0 [] .empty]

/-! `test_to_single_table`, tests/test_ruleset.py:128-140; `MAX_PRIORITY` is 65536, ruleset.py:31. -/

#guard singleIs forwardDrop [pr 0 (10 * 65536 + 100) [(12, 9, some 0xb)] { Inst.empty with clear := true }, pr 0 (10 * 65536) [(12, 1, some 3)] (writeI [.output 1]),
  pr 0 (9 * 65536 + 100) [(12, 0xa, some 0xf)] { Inst.empty with clear := true }, pr 0 (9 * 65536) [(12, 2, some 7)] (writeI [.output 2]), pr 0 0 [] .empty]
#guard singleIs dropForward [pr 0 (100 * 65536) [(12, 8, some 8)] .empty, nr 10 [(12, 2, some 7)] [.output 2], nr 10 [(12, 1, some 7)] [.output 1],
  nr 10 [(12, 5, some 7)] [.output 1], pr 0 0 [] .empty]

/-- `check_equal(normalise(a), normalise(b))` of `normaliseheaderspace`, tests/test_normalise_headerspace.py:37-38; sets are iterated in the order `ord`. -/
def equalHs (ord : List Nat → List Nat) (a b : List (Rule Nat)) : Except PyErr Bool := do
  Shim.checkEqual totBits ord (← Shim.normalise totBits ord (← a.mapM ruleEntry)) (← Shim.normalise totBits ord (← b.mapM ruleEntry))

/-- The comparisons of a test, with two orders of iteration. -/
def allHs (l : List (List (Rule Nat) × List (Rule Nat) × Bool)) : Bool :=
  [id, List.reverse].all fun ord => l.all fun x => equalHs ord x.1 x.2.1 == .ok x.2.2

/-! The tests that header spaces pass, tests/test_normalise_headerspace.py:36-56 with tests/base_normalise.py:198-201, 216-352; those expected to fail are
`test_normalise_2` and `test_normalise_3` (lines 41-42 there, 203-214 here), `test_action_independence_single` and `test_action_independence_multiple`. -/

#guard allHs [(data1, data2, true), (data1, data8, true), (data1, data3, false), (data2, data4, false), (data5, data1, false)]
#guard allHs [(vlans (vlanCase 1), vlans (vlanCase 2), true), (vlans (vlanCase 1), vlans (vlanCase 3), true), (vlans (vlanCase 1), vlans (vlanCase 4), true),
  (vlans (vlanCase 1), vlans (vlanCase 5), false), (vlans (vlanCase 5), vlans (vlanCase 6), true), (vlans (vlanCase 7), vlans (vlanCase 8), false)]
#guard allHs [(sets [2], sets [1, 2], true), (sets [2], sets [3, 2], true), (sets [2], sets [4, 3, 1, 2], true), (sets [2], sets [2, 2, 2, 2], true),
  (sets [2], sets [4, 3, 1, 1], false)]
#guard !allHs [(data3, data4, true), (data5, data4, true), (data5, data3, true)]
#guard !allHs [(data6, data7, true)]
#guard !allHs [(single 1, single 2, true), (single 1, single 4, false), (single 2, single 3, true), (single 1, single 3, true)]
#guard !allHs [(multiple 1, multiple 2, true), (multiple 2, multiple 3, true), (multiple 1, multiple 3, true)]

end Suite
end OFE
