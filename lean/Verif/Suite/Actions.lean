import Verif.Match.Ops
import Verif.Actions.Index

/-!
The expectations of the code's own tests of matches and of lists and sets of actions (tests/test_match.py and tests/test_actions.py in /repo), evaluated on
the model.  These are tests, not proofs of properties.  IN_PORT is field 0, ETH_DST 3, ETH_SRC 4, VLAN_VID 6, VLAN_PCP 7, IPV4_SRC 11.  The tests use `None` for
the argument of `PUSH_VLAN` in some places; here it is 0.
-/

namespace OFE
namespace Suite

/-- `Match(items)`, rule.py:1066-1100, as the tests build it. -/
def mm (items : List (Nat × Nat × Option Nat)) : Match := items.foldl (fun m x => m.append x.1 x.2.1 x.2.2) Match.empty

/-- `fm_full`, tests/test_match.py:26-28 -/
def fmFull : Match := mm [(0, 1, none), (6, 0x1000, some 0x1000)]

/-! `test_empty_length` to `test_delete`, tests/test_match.py:30-99. -/

example : Match.empty.items.length = 0 ∧ Match.empty.required = 0 ∧ fmFull.items.length = 2 ∧ fmFull.required = 2 ^ 0 + 2 ^ 6 ∧
    ¬ Match.empty.eq fmFull ∧ fmFull.get 0 = .ok (1, none) ∧ fmFull.get 6 = .ok (0x1000, some 0x1000) ∧ (fmFull.copy [] []).map (·.eq fmFull) = .ok true ∧
    (fmFull.del 0).map (fun m => (m.items.length, m.required)) = .ok (1, 2 ^ 6) ∧
    (do (← fmFull.del 0).del 6 : Except PyErr Match).map (fun m => (m.items.length, m.required, m.eq Match.empty)) = .ok (0, 0, true) := by decide +kernel

/-! `test_normalised`, tests/test_match.py:123-153. -/

example : (mm [(6, 1, none)]).eq (mm [(6, 1, none)]) ∧ ¬ (mm [(6, 1, none)]).eq (mm [(6, 2, none)]) ∧ ¬ (mm [(6, 1, none)]).eq (mm [(6, 1, some 0xFFF)]) ∧
    (mm [(6, 1, none)]).eq (mm [(6, 1, some 0x1FFF)]) ∧ (mm [(6, 1, none)]).eq (mm [(6, 1, some 0xFFFF)]) ∧
    (mm [(6, 1, none)]).eq (mm [(6, 1, some 0x123123FFFFFF)]) ∧ (mm [(6, 1, some 1)]).eq (mm [(6, 0x11, some 1)]) ∧
    (mm [(6, 0x1051, none)]).eq (mm [(6, 0x1231051, some 0xFFFF)]) := by decide +kernel

/-! `test_subset`, tests/test_match.py:155-163. -/

example : (mm [(6, 1, none)]).issubset (mm [(6, 1, none)]) = .ok true ∧ (mm [(6, 2, none)]).issubset (mm [(6, 1, none)]) = .ok false ∧
    (mm [(6, 1, none)]).issubset (mm [(6, 1, none), (0, 1, none)]) = .ok false ∧
    (mm [(6, 1, none), (0, 1, none)]).issubset (mm [(6, 1, none)]) = .ok true := by decide +kernel

/-- `action_list_complex`, tests/test_actions.py:35-52 -/
def complex : List Action := [.setField 4 643, .setField 3 1090, .setQueue 1, .output 6, .output 2, .output 1, .group 4, .setField 4 644, .setField 3 1080,
  .pushVlan 0x8100, .setField 6 45, .setField 7 2, .group 5, .output 5, .setQueue 2, .output 3, .output 4]

/-- `action_list_nonreorderable`, tests/test_actions.py:53-60 -/
def fixed : List Action := [.setField 3 45, .setField 3 1, .output 1, .setField 6 0x100F, .pushVlan 0x88a8, .setField 6 0x1015, .output 5]

/-! `test_simple_fully_dep` and its reverse, tests/test_actions.py:90-116. -/

example : ∀ l ∈ [[Action.setField 3 45, .setField 3 1], [.setField 6 0x100F, .pushVlan 0x88a8, .setField 6 0x1015], [.setField 3 1, .setField 3 45],
    [.setField 6 0x1015, .pushVlan 0x88a8, .setField 6 0x100F]], (ActionList.ofList l).map (·.iter) = .ok l := by decide +kernel

/-- `itertools.permutations`, tests/test_actions.py:129 -/
def perms : List Action → List (List Action)
  | [] => [[]]
  | x :: xs => (perms xs).flatMap fun p => (List.range (p.length + 1)).map fun k => p.take k ++ x :: p.drop k

/-! `test_simple_unordered`, tests/test_actions.py:118-131: all orders of four independent actions. -/

example : (perms [.setField 3 1, .setField 6 45, .setQueue 1, .pushMpls 0x8847]).length = 24 ∧
    ∀ p ∈ perms [.setField 3 1, .setField 6 45, .setQueue 1, .pushMpls 0x8847],
      (do return (← ActionList.ofList p).eq (← ActionList.ofList [.setField 3 1, .setField 6 45, .setQueue 1, .pushMpls 0x8847])) = Except.ok (ε := PyErr) true := by
  decide +kernel

/-- `assertSetEqual(set(a), set(b))`, tests/test_actions.py:144. -/
def sameSet (a b : List Action) : Bool := a.all b.contains && b.all a.contains

/-! `test_complex_actions`, tests/test_actions.py:136-159. -/

example : (ActionList.ofList complex).map (fun l => sameSet (l.iter.take 3) (complex.take 3) && sameSet ((l.iter.drop 3).take 4) ((complex.drop 3).take 4) &&
    sameSet ((l.iter.drop 7).take 5) ((complex.drop 7).take 5) && decide (l.iter.idxOf (.pushVlan 0x8100) < l.iter.idxOf (.setField 6 45)) &&
    decide (l.iter.idxOf (.pushVlan 0x8100) < l.iter.idxOf (.setField 7 2)) && sameSet ((l.iter.drop 12).take 2) ((complex.drop 12).take 2) &&
    l.iter[14]? == complex[14]? && sameSet (l.iter.drop 15) (complex.drop 15)) = .ok true := by decide +kernel

/-! `test_contains`, tests/test_actions.py:161-170, and `test_index_slice_len`, lines 172-196. -/

example : (ActionList.ofList complex).map (fun l => l.len == 17 && complex.all l.contains && !l.contains (.pushMpls 0x8847) && !l.contains (.popMpls 0x800) &&
    !l.contains (.output 20)) = .ok true ∧
    (ActionList.ofList fixed).map (fun l => (l.len, l.iter)) = .ok (7, fixed) := by decide +kernel

/-! `test_removal`, tests/test_actions.py:198-214: the random items are replaced by always the first, always the last, and always the middle one.  Each
removal of an item that is present gives the list that is built from the rest. -/

/-- Remove `pick l` until the list is empty, comparing with `ActionList(action_list)`, tests/test_actions.py:210-214. -/
def removeAll (pick : List Action → Nat) : Nat → List Action → ActionList → Bool
  | 0, _, l => l.len == 0
  | n + 1, orig, l =>
    match l.iter[pick l.iter]? with
    | none => false
    | some x =>
      match l.remove x, ActionList.ofList (orig.erase x) with
      | .ok l', .ok m => l'.eq m && removeAll pick n (orig.erase x) l'
      | _, _ => false

example : ∀ pick ∈ [fun _ => 0, fun l => l.length - 1, fun (l : List Action) => l.length / 2],
    (ActionList.ofList complex).map (removeAll pick 17 complex) = .ok true := by
  decide +kernel

/-! `test_adding_lists`, tests/test_actions.py:256-266. -/

example : (do return (← (← ActionList.ofList complex).add (← ActionList.ofList fixed)).eq (← ActionList.ofList (complex ++ fixed))) = Except.ok (ε := PyErr) true ∧
    (do return (← (← ActionList.ofList fixed).add (← ActionList.ofList complex)).eq (← ActionList.ofList (fixed ++ complex))) = Except.ok (ε := PyErr) true ∧
    (do return (← (← ActionList.ofList complex).iadd (← ActionList.ofList fixed)).eq (← ActionList.ofList (complex ++ fixed))) = Except.ok (ε := PyErr) true := by
  decide +kernel

/-- Two action sets are added and compared with a list or set, tests/test_actions.py:216-254. -/
def addSets (a b expected : List Action) : Bool :=
  match (do return (← actionSetAdd (← actionSetOfList a) (← actionSetOfList b)).eq (← ActionList.ofList expected) : Except PyErr Bool) with
  | .ok b => b
  | .error _ => false

/-- `actlista`, tests/test_actions.py:270-273 -/
def setA : List Action := [.output 1, .setField 6 0x1003, .setField 7 1, .pushVlan 0]

/-! `test_action_set_ordering`, tests/test_actions.py:268-329. -/

example : (do return (← actionSetOfList setA).eq (← ActionList.ofList [.pushVlan 0, .setField 6 0x1003, .setField 7 1, .output 1])) = Except.ok (ε := PyErr) true ∧
    (do return (← actionSetOfList [.setField 7 2, .pushVlan 0, .output 2]).eq (← ActionList.ofList [.pushVlan 0, .setField 7 2, .output 2])) =
      Except.ok (ε := PyErr) true ∧
    addSets setA [.setQueue 5, .setField 11 12] [.pushVlan 0, .setField 11 12, .setField 6 0x1003, .setField 7 1, .setQueue 5, .output 1] ∧
    addSets [.setQueue 5, .setField 11 12] setA [.pushVlan 0, .setField 11 12, .setField 6 0x1003, .setField 7 1, .setQueue 5, .output 1] ∧
    addSets setA [.setField 7 2, .pushVlan 0, .output 2] [.pushVlan 0, .setField 6 0x1003, .setField 7 2, .output 2] ∧
    addSets [.setField 7 2, .pushVlan 0, .output 2] setA [.pushVlan 0, .setField 6 0x1003, .setField 7 1, .output 1] ∧
    addSets [.output 7] [.group 8] [.group 8] ∧ addSets [.group 8] [.output 7] [.group 8] ∧ addSets [.group 8] [.group 9] [.group 9] ∧
    addSets [.group 9] [.group 8] [.group 8] := by decide +kernel

/-! `test_list_add_set`, tests/test_actions.py:331-352. -/

example : (do
      let l ← ActionList.ofList [.pushVlan 0x88a8, .setField 3 1, .setField 6 0x1015, .setField 7 1, .output 5]
      return (← actionSetAdd (← actionSetOfList setA) (← ActionList.ofList fixed)).eq l) = Except.ok (ε := PyErr) true ∧
    (do
      let l ← ActionList.ofList (fixed ++ [.pushVlan 0, .setField 6 0x1003, .setField 7 1, .output 1])
      return (← (← ActionList.ofList fixed).add (← actionSetOfList setA)).eq l) = Except.ok (ε := PyErr) true := by decide +kernel

end Suite
end OFE
