import Verif.Match.Ops

/-!
The expectations of the code's own tests of merging (tests/test_merging.py in /repo), evaluated on the model.  These are tests: they show on the samples
chosen by the authors of the code that the model gives what the code gives; they prove no property.
-/

namespace OFE
namespace Suite

/-- A rule of the tests: `Rule(priority=0, match=Match(items))` with actions appended to `apply_actions` and `write_actions` and with `write_metadata`,
tests/test_merging.py:94-103. -/
def mk (items : List (Nat × Nat × Option Nat)) (apply : List Action := []) (write : List Action := []) (wmeta : MetaW := none) (clear : Bool := false) :
    Except PyErr (Rule Nat) := do
  let a ← ActionList.ofList apply
  let w ← actionSetOfList write
  return ⟨0, none, 0, items.foldl (fun m x => m.append x.1 x.2.1 x.2.2) Match.empty, ⟨none, a, w, wmeta, clear, none⟩, []⟩

/-- `a.merge(b, openflow)` of rules that can be built, rule.py:320-423. -/
def mrg (a b : Except PyErr (Rule Nat)) (openflow : Bool := true) : Except PyErr (Rule Nat) := do (← a).merge (← b) openflow

/-- `assertEqual(a, b)`, by `Rule.__eq__`, rule.py:293-300. -/
def same (a b : Except PyErr (Rule Nat)) : Bool :=
  match a, b with
  | .ok x, .ok y => x.eq y
  | _, _ => false

/-- `assertRaises(MergeException, lambda: a)`, tests/test_merging.py:78; `MergeExceptionNoOverlap` is a subclass, rule.py:49. -/
def raises (a : Except PyErr (Rule Nat)) : Bool :=
  match a with
  | .error .mergeError | .error .noOverlap => true
  | _ => false

/-! `test_merging_priorities`, lines 41-55. -/

example : (do (← (⟨200, none, 0, .empty, .empty, []⟩ : Rule Nat).merge ⟨100, none, 0, .empty, .empty, []⟩ true).priority |> pure) = Except.ok (ε := PyErr) 300 ∧
    (do (← (⟨1, none, 0, .empty, .empty, []⟩ : Rule Nat).merge ⟨2, none, 0, .empty, .empty, []⟩ false).priority |> pure) = Except.ok (ε := PyErr) 3 := by
  decide +kernel

/-! `test_simple_merge_match`, lines 57-79: IPV4_SRC is field 11, IPV4_DST field 12. -/

example : same (mrg (mk [(11, 2, none)]) (mk [(12, 2, none)])) (mk [(11, 2, none), (12, 2, none)]) ∧
    same (mrg (mk [(12, 2, none)]) (mk [(11, 2, none)])) (mk [(11, 2, none), (12, 2, none)]) ∧
    same (mrg (mk [(11, 2, none)]) (mk [(11, 2, none)])) (mk [(11, 2, none)]) ∧
    ¬ same (mk [(11, 2, none)]) (mk [(12, 2, none)]) ∧
    raises (mrg (mk [(11, 2, none)]) (mk [(11, 1, none)])) ∧
    raises (mrg (mrg (mk [(12, 2, none)]) (mk [(11, 1, none)])) (mk [(11, 2, none)])) := by decide +kernel

/-! `test_merge_complex_match`, lines 81-90. -/

example : same (mrg (mk [(11, 0x12340000, some 0xFFFF0000)]) (mk [(11, 0x5678, some 0xFFFF)])) (mk [(11, 0x12345678, some 0xFFFFFFFF)]) := by
  decide +kernel

/-! `test_set_and_match`, lines 92-135. -/

/-- `rule1` to `rule6` of the test, tests/test_merging.py:94-103. -/
def sm : Nat → Except PyErr (Rule Nat)
  | 1 => mk [(11, 1, none)] [.setField 11 1]
  | 2 => mk [(11, 2, none)] [.setField 11 1]
  | 3 => mk [(11, 1, none)]
  | 4 => mk [(11, 2, none)]
  | 5 => mk [(11, 1, some 1)]
  | _ => mk [(11, 2, some 2)] [.setField 11 1]

example : same (mrg (sm 2) (sm 3)) (sm 2) ∧ same (mrg (sm 1) (sm 3)) (sm 1) ∧ same (mrg (sm 1) (sm 5)) (sm 1) ∧ same (mrg (sm 6) (sm 5)) (sm 6) ∧
    raises (mrg (sm 1) (sm 4)) ∧ raises (mrg (sm 1) (sm 6)) := by decide +kernel

/-! `test_clear_action_sets`, lines 137-160. -/

example : same (mrg (mk [(11, 2, none)] [] [.setField 11 1]) (mk [(11, 2, none)] [] [.setField 11 2])) (mk [(11, 2, none)] [] [.setField 11 2]) ∧
    same (mrg (mk [(11, 2, none)] [] [.setField 11 2]) (mk [(11, 2, none)] [] [.setField 11 1])) (mk [(11, 2, none)] [] [.setField 11 1]) ∧
    same (mrg (mk [(11, 2, none)] [] [.setField 11 1]) (mk [(11, 2, none)] [] [.setField 12 2])) (mk [(11, 2, none)] [] [.setField 11 1, .setField 12 2]) ∧
    ¬ same (mk [(11, 2, none)] [] [.setField 11 1]) (mk [(11, 2, none)] [] [.setField 11 1, .setField 12 2]) ∧
    same (mrg (mk [(11, 2, none)] [] [.setField 11 1]) (mk [(11, 2, none)] [] [.setField 12 2] none true)) (mk [(11, 2, none)] [] [.setField 12 2] none true) := by
  decide +kernel

/-! `test_metadata`, lines 162-247: METADATA is field 2. -/

/-- `rule1` to `rule7` of the test, tests/test_merging.py:163-177. -/
def md : Nat → Except PyErr (Rule Nat)
  | 1 => mk [(11, 2, none)] [] [] (some (0xFEFCFDFA, none))
  | 2 => mk [(11, 2, none)] [] [] (some (0xFFFF, none))
  | 3 => mk [(11, 2, none)] [] [] (some (0xFEFCFDFA, some 0xFFFFFFFF))
  | 4 => mk [(11, 2, none)] [] [] (some (0xFFFF, some 0xFFFFFFFF))
  | 5 => mk [(11, 2, none)] [] [] (some (0xFEFCFDFA00000000, some 0xFFFFFFFF00000000))
  | 6 => mk [(11, 2, none)] [] [] (some (0xFEFCFDFA0000FFFF, some 0xFFFFFFFFFFFFFFFF))
  | _ => mk [(11, 2, none)] [] [] (some (0, some 0xFFFFFFFFFFFFFFF0))

example : same (mrg (md 1) (md 2)) (md 2) ∧ same (mrg (md 2) (md 1)) (md 1) ∧ same (mrg (md 1) (md 4)) (md 2) ∧ same (mrg (md 1) (md 3)) (md 1) ∧
    same (mrg (md 3) (md 4)) (md 4) ∧ same (mrg (md 4) (md 5)) (md 6) ∧ same (mrg (md 5) (md 4)) (md 6) := by decide +kernel

example : raises (mrg (md 1) (mk [(2, 1, none)])) ∧
    same (mrg (md 7) (mk [(2, 1, none)])) (mk [(11, 2, none), (2, 1, some 0xF)] [] [] (some (0, some 0xFFFFFFFFFFFFFFF0))) := by decide +kernel

/-- `d1` to `d4` of the test, tests/test_merging.py:211-218; the value that `d1` writes is given. -/
def dd (v : Nat) : Nat → Except PyErr (Rule Nat)
  | 1 => mk [] [] [] (some (v, some 0x10))
  | 2 => mk [] [] [] (some (1, some 1))
  | 3 => mk [(2, 0x10, some 0x10)] [] [] (some (0x100, some 0x100))
  | _ => mk [(2, 0x111, some 0x111)]

/-- The four ways of merging them, tests/test_merging.py:223-226. -/
def ways (v : Nat) : List (Except PyErr (Rule Nat)) :=
  [mrg (mrg (mrg (dd v 1) (dd v 2)) (dd v 3)) (dd v 4), mrg (mrg (dd v 1) (dd v 2)) (mrg (dd v 3) (dd v 4)),
    mrg (mrg (dd v 1) (mrg (dd v 2) (dd v 3))) (dd v 4), mrg (dd v 1) (mrg (dd v 2) (mrg (dd v 3) (dd v 4)))]

example : (∀ w ∈ ways 0x10, same w (mk [] [] [] (some (0x111, some 0x111)))) ∧ ∀ w ∈ ways 0, raises w := by decide +kernel

example : raises (mrg (mk [(2, 1, some 1)] [] [] (some (0, some 2))) (mk [(2, 0, none)])) ∧
    same (mrg (mk [(2, 1, some 1)] [] [] (some (0, some 2))) (mk [(2, 1, none)])) (mk [(2, 1, some 0xFFFFFFFFFFFFFFFD)] [] [] (some (0, some 2))) := by
  decide +kernel

/-! `test_pop_vlan`, lines 250-267, and `test_double_pop_vlan`, lines 269-287: VLAN_VID is field 6, VLAN_VID1 field 40, VLAN_VID2 field 41. -/

example : same (mrg (mk [(6, 0x1001, none)] [.popVlan]) (mk [(6, 0x1002, none)]) false) (mk [(6, 0x1001, none), (40, 0x1002, none)] [.popVlan]) ∧
    raises (mrg (mk [(6, 0x1001, none)] [.popVlan]) (mk [(6, 0x1002, none)])) ∧
    same (mrg (mk [(6, 0x1001, none)] [.popVlan, .popVlan]) (mk [(6, 0x1002, none)]) false)
      (mk [(6, 0x1001, none), (41, 0x1002, none)] [.popVlan, .popVlan]) ∧
    raises (mrg (mk [(6, 0x1001, none)] [.popVlan, .popVlan]) (mk [(6, 0x1002, none)])) := by decide +kernel

/-! `test_push_pop_vlan`, lines 289-314. -/

/-- The actions of `rule1`, tests/test_merging.py:301-303. -/
def ppv : List Action := [.pushVlan 0x800, .setField 6 2, .popVlan]

example : same (mrg (mk [(6, 0x1001, none)] ppv) (mk [(6, 0x1001, none)]) false) (mk [(6, 0x1001, none)] ppv) ∧
    same (mrg (mk [(6, 0x1001, none)] ppv) (mk []) false) (mk [(6, 0x1001, none)] ppv) ∧
    same (mrg (mk [] ppv) (mk [(6, 0x1001, none)]) false) (mk [(6, 0x1001, none)] ppv) ∧
    same (mrg (mk [] ppv) (mk [(6, 0x1001, none)])) (mk [(6, 0x1001, none)] ppv) := by decide +kernel

/-! `test_push_vlan`, lines 316-335. -/

example : ∀ b : Bool, same (mrg (mk [] [.pushVlan 0x800, .setField 6 6]) (mk [(6, 0x1006, none), (40, 0x1002, none)] [.popVlan, .output 1]) b)
    (mk [(6, 0x1002, none)] [.pushVlan 0x800, .setField 6 6, .popVlan, .output 1]) := by decide +kernel

/-! `test_push_pop_vlan_complex`, lines 337-375. -/

/-- `rule1` to `rule4` of the test, tests/test_merging.py:353-361. -/
def cx : Nat → Except PyErr (Rule Nat)
  | 1 => mk [(6, 0x1001, none)] [.setField 6 2]
  | 2 => mk [] [.pushVlan 0x800, .setField 6 6]
  | 3 => mk [(6, 0x1006, none)] [.popVlan]
  | _ => mk [(6, 0x1002, none)] [.output 1]

example : ∀ w ∈ [mrg (mrg (mrg (cx 1) (cx 2) false) (cx 3) false) (cx 4) false, mrg (cx 1) (mrg (mrg (cx 2) (cx 3) false) (cx 4) false) false,
      mrg (cx 1) (mrg (cx 2) (mrg (cx 3) (cx 4) false) false) false, mrg (mrg (cx 1) (mrg (cx 2) (cx 3) false) false) (cx 4) false],
    same w (mk [(6, 0x1001, none)] [.setField 6 2, .pushVlan 0x800, .setField 6 6, .popVlan, .output 1]) := by decide +kernel

end Suite
end OFE
