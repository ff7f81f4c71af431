import Verif.Actions.Model

/-! # Model of `ActionList._remove_redundant` and `per_output_actions` (rule.py:580-712) -/

namespace OFE

/-- The three tunnels, openflow_desc.py:239-259. -/
inductive Tun where
  | vlan | mpls | pbb
deriving DecidableEq, Repr

/-- `push[action[0]]`: the tunnel an action pushes, openflow_desc.py:257-258. -/
def Action.pushes : Action → Option Tun
  | .pushVlan _ => some .vlan
  | .pushMpls _ => some .mpls
  | .pushPbb _ => some .pbb
  | _ => none

/-- `pop[action[0]]`: the tunnel an action pops, openflow_desc.py:259. -/
def Action.pops : Action → Option Tun
  | .popVlan => some .vlan
  | .popMpls _ => some .mpls
  | .popPbb => some .pbb
  | _ => none

/-- `ctun["fields"]`, openflow_desc.py:240-254 -/
def Tun.fields : Tun → List Nat
  | .vlan => [6, 7]
  | .mpls => [34, 35, 36]
  | .pbb => [3, 4, 37]

/-- `act[0] == "SET_FIELD"`: the field -/
def Action.setF : Action → Option Nat
  | .setField f _ => some f
  | _ => none

/-- The inner loop, rule.py:612-633: the actions after the push at hand with the matching pop and the set-fields of the pushed header
taken out, `none` if there is another such push first or no pop. -/
def scanPop (t : Tun) : List Action → Option (List Action)
  | [] => none
  | a :: xs =>
    if a.pushes = some t then none
    else if a.pops = some t then some xs
    else match a.setF with
      | some f => if f ∈ t.fields then scanPop t xs else (scanPop t xs).map (a :: ·)
      | none => (scanPop t xs).map (a :: ·)

/-- The `for` loop, rule.py:608-638: the list after the first removal, `none` if it ran to the end. -/
def pass1 : List Action → Option (List Action)
  | [] => none
  | a :: xs =>
    match a.pushes with
    | some t =>
      match scanPop t xs with
      | some ys => some ys
      | none => (pass1 xs).map (a :: ·)
    | none => (pass1 xs).map (a :: ·)

/-- `while made_change`, rule.py:607-641; the fuel is the number of actions (each round removes at least two). -/
def phase1 : Nat → List Action → List Action
  | 0, s => s
  | n + 1, s => match pass1 s with
    | some s' => phase1 n s'
    | none => s

/-- Set-fields of popped headers, rule.py:643-655: the loop runs from the back, `fields_popped` is the first component. -/
def phase2 : List Action → List Nat × List Action
  | [] => ([], [])
  | a :: xs =>
    match a.pops with
    | some t => ((phase2 xs).1 ++ t.fields, a :: (phase2 xs).2)
    | none => match a.setF with
      | some f => if f ∈ (phase2 xs).1 then phase2 xs else ((phase2 xs).1, a :: (phase2 xs).2)
      | none => ((phase2 xs).1, a :: (phase2 xs).2)

/-- Is the set-field `a` of field `f` overwritten before anything depends on it?  rule.py:662-667 -/
def overwritten (a : Action) (f : Nat) : List Action → Except PyErr Bool
  | [] => .ok false
  | x :: xs =>
    if x.setF = some f then .ok true
    else match depends a x with
      | .error e => .error e
      | .ok true => .ok false
      | .ok false => overwritten a f xs

/-- Fields set twice, rule.py:657-669 -/
def phase3 : List Action → Except PyErr (List Action)
  | [] => .ok []
  | a :: xs =>
    match a.setF with
    | none => (phase3 xs).map (a :: ·)
    | some f => do
      let o ← overwritten a f xs
      let ys ← phase3 xs
      return if o then ys else a :: ys

/-- `_remove_redundant`, rule.py:580-669 -/
def ActionList.removeRedundant (l : ActionList) : Except PyErr ActionList := do
  let s := phase1 l.iter.length l.iter
  let s := (phase2 s).2
  let s ← phase3 s
  ActionList.replace s

/-- Keys of the mapping of `_per_output_actions_list`: a port, or `'pass'`. -/
inductive OutKey where
  | pass
  | port (n : Nat)
deriving DecidableEq, Repr

/-- Loop of `_per_output_actions_list`, rule.py:696-711, for lists without GROUP (a GROUP is reported as `attributeError`: its buckets
are not modelled). -/
def perOutputLoop : List Action → ActionList → List (OutKey × ActionList) → Except PyErr (List (OutKey × ActionList) × ActionList)
  | [], cur, res => .ok (res, cur)
  | .output n :: xs, cur, res => do
    let v ← cur.append (.output n)
    perOutputLoop xs cur (dictSet (.port n) v res)
  | .group _ :: _, _, _ => .error .attributeError
  | a :: xs, cur, res => do
    let cur ← cur.append a
    perOutputLoop xs cur res

/-- `_per_output_actions_list`, rule.py:689-712 -/
def ActionList.perOutputList (l : ActionList) : Except PyErr (List (OutKey × ActionList)) := do
  let (res, cur) ← perOutputLoop l.iter ActionList.empty []
  return dictSet .pass cur res

/-- `{k: tuple(v._remove_redundant()) ...}`, rule.py:680-681 -/
def perOutputItems : List (OutKey × ActionList) → Except PyErr (List (OutKey × List Action))
  | [] => .ok []
  | (k, v) :: rest => do
    let r ← v.removeRedundant
    let rs ← perOutputItems rest
    return (k, r.iter) :: rs

/-- `per_output_actions(pass_through=True)`, rule.py:671-687; the frozenset is the list up to order. -/
def ActionList.perOutputPt (l : ActionList) : Except PyErr (List (OutKey × List Action)) := do
  perOutputItems (← l.perOutputList)

/-- `per_output_actions()`, rule.py:671-687 -/
def ActionList.perOutput (l : ActionList) : Except PyErr (List (OutKey × List Action)) := do
  return dictDel .pass (← l.perOutputPt)

/-- Equality of the frozensets of items. -/
def sameItems (a b : List (OutKey × List Action)) : Bool := a.all (b.contains ·) && b.all (a.contains ·)

/-- `equiv_equal`, rule.py:714-719 -/
def ActionList.equivEqual (a b : ActionList) : Except PyErr Bool := do
  return sameItems (← a.perOutput) (← b.perOutput)

end OFE
