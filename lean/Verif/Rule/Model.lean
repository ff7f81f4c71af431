import Verif.Match.Model
import Verif.Actions.ActionSet
import Verif.Actions.Redundant

/-!
# Rules, instructions and merging

Model of `Rule`, `Instructions`, `demote_match`, `promote_match` (`ofequivalence/rule.py`).  `ttp_link` and `binding` are not
modelled (they only carry annotations for another tool).
-/

namespace OFE

/-! ### Inner header fields -/

/-- `{field}{d}`: the id of the copy of a tunnel field at depth `d` (0 is the field itself), openflow_desc.py:264-273.  The 8 tunnel
fields get two copies each, numbered from 40. -/
def innerId (f d : Nat) : Option Nat :=
  if d = 0 then some f
  else if d ≤ headerDepth then
    match [6, 7, 34, 35, 36, 3, 4, 37].findIdx? (· == f) with
    | some k => some (40 + 2 * k + (d - 1))
    | none => none
  else none

/-- Depth of a field name that starts with the name of the tunnel field `f` (rule.py:68, 98: `x.startswith(field)`); no field name
other than the copies of a tunnel field starts with its name. -/
def depthOf (f g : Nat) : Option Nat := (List.range (headerDepth + 1)).find? fun d => innerId f d == some g

/-- `match[_field]` of a present field, as (value, mask). -/
def Match.get (m : Match) (f : Nat) : Except PyErr (Nat × Option Nat) :=
  match m.items.lookup f with
  | some x => .ok x
  | none => .error .keyError

/-- `match.append(new, *match[old][:2]); del match[old]`, rule.py:77-78, 84-85, 103-107 -/
def Match.rename (m : Match) (old new : Nat) : Except PyErr Match := do
  let x ← m.get old
  (m.append new x.1 x.2).del old

/-- Body of the loop of `demote_match` for the copy at depth `d`, rule.py:72-85.  For the field itself (`d = 0`) the error message
uses the variable `depth`, which is not assigned in that branch: `UnboundLocalError` (a `NameError`). -/
def demoteOne (f num : Nat) (m : Match) (d : Nat) : Except PyErr Match :=
  match innerId f d with
  | none => .ok m
  | some g =>
    if (m.items.lookup g).isNone then .ok m
    else match innerId f (d + num) with
      | some g' => m.rename g g'
      | none => .error (if d = 0 then .nameError else .overflow)

/-- `demote_match`, rule.py:56-85: the copies present are handled in reverse name order, i.e. the deepest first. -/
def demote (m : Match) (f num : Nat) : Except PyErr Match :=
  if num = 0 then .ok m else [2, 1, 0].foldlM (demoteOne f num) m

/-- Body of the loop of `promote_match`, rule.py:99-110, for a field found at depth `d`. -/
def promoteOne (f num : Nat) (m : Match) (g : Nat) : Except PyErr Match :=
  match depthOf f g with
  | none => .ok m
  | some d =>
    if d = 0 then .error .overflow
    else if d < num then .error .overflow
    else match innerId f (d - num) with
      | some g' => m.rename g g'
      | none => .error .overflow

/-- `promote_match`, rule.py:87-110: the copies present are handled in dict order. -/
def promote (m : Match) (f num : Nat) : Except PyErr Match :=
  if num = 0 then .ok m else ((m.items.map (·.1)).filter fun g => (depthOf f g).isSome).foldlM (promoteOne f num) m

/-! ### Instructions -/

/-- `write_metadata`: value and mask. -/
abbrev MetaW := Option (Nat × Option Nat)

/-- `Instructions`, rule.py:878-905; `clear_actions` is True or None. -/
structure Inst where
  goto : Option Nat
  apply : ActionList
  write : ActionList
  wmeta : MetaW
  clear : Bool
  meter : Option Nat
deriving DecidableEq, Repr

/-- `Instructions()` -/
def Inst.empty : Inst := ⟨none, .empty, .empty, none, false, none⟩

/-- `ActionSet.__add__`, rule.py:505-506 with `copy` 814-820 and `ActionSet.append`. -/
def actionSetAdd (a b : ActionList) : Except PyErr ActionList := b.iter.foldlM actionSetAppend a

/-- `Instructions.merge`, rule.py:978-1005.  Neither the meter nor the metadata is carried over here. -/
def Inst.merge (a b : Inst) : Except PyErr Inst := do
  let write ← if b.clear then .ok b.write else actionSetAdd a.write b.write
  let apply ← a.apply.add b.apply
  return ⟨b.goto, apply, write, none, a.clear || b.clear, none⟩

/-- `full_actions`, rule.py:955-957 -/
def Inst.fullActions (i : Inst) : Except PyErr ActionList := i.apply.add i.write

/-! ### Rules -/

/-- `Rule`, rule.py:113-152.  `path` holds rules in the code; here elements of any type. -/
structure Rule (π : Type) where
  priority : Nat
  cookie : Option Nat
  table : Nat
  mat : Match
  inst : Inst
  path : List π
deriving DecidableEq, Repr

/-- Field ids used below: METADATA, VLAN_VID. -/
def fMeta : Nat := 2
def fVid : Nat := 6

/-- The value a SET_FIELD leaves in the header, rule.py:198-205: the VLAN present bit is added. -/
def setValue (f v : Nat) : Nat := if f = fVid then 0x1000 ||| v else v

/-- The loop body for one field of a pushed header, rule.py:208-233, on (simulated_packet, rewritten). -/
def simPush (x : Match × Match) (f : Nat) : Except PyErr (Match × Match) := do
  let sim ← demote x.1 f 1
  let rw ← demote x.2 f 1
  let maskIn := if f = fVid then 0x1000 else 0
  let v := match innerId f 1 with
    | some g => (match sim.items.lookup g with | some y => maskIn ||| y.1 | none => maskIn)
    | none => maskIn
  return (sim.append f v none, rw.append f v none)

/-- `if field in m: del m[field]` -/
def delIf (m : Match) (f : Nat) : Except PyErr Match := if (m.items.lookup f).isSome then m.del f else .ok m

/-- The loop body for one field of a popped header, rule.py:238-244. -/
def simPop (x : Match × Match) (f : Nat) : Except PyErr (Match × Match) := do
  let sim ← delIf x.1 f
  let rw ← delIf x.2 f
  let sim ← promote sim f 1
  let rw ← promote rw f 1
  return (sim, rw)

/-- The loop over the apply-actions, rule.py:195-245; `op_count` is computed separately (`popCount`, `pushCount`). -/
def simStep (x : Match × Match) (a : Action) : Except PyErr (Match × Match) :=
  match a with
  | .setField f v => .ok (x.1.append f (setValue f v) none, x.2.append f (setValue f v) none)
  | a =>
    match a.pushes with
    | some t => t.fields.foldlM simPush x
    | none =>
      match a.pops with
      | some t => t.fields.foldlM simPop x
      | none => .ok x

/-- Combining `write_metadata`, rule.py:247-262 (`~w_mask & m_value` is `andNot m_value w_mask`). -/
def simMeta (w : MetaW) (x : Match × Match) : Match × Match :=
  match w with
  | none => x
  | some (wv, wm) =>
    let sim := match x.1.items.lookup fMeta, wm with
      | some (mv, mm), some wmask =>
        x.1.append fMeta ((wv &&& wmask) ||| andNot mv wmask) (match mm with | none => none | some m => some (m ||| wmask))
      | _, _ => x.1.append fMeta wv wm
    (sim, x.2.append fMeta wv wm)

/-- `_get_simulated_egress`, rule.py:170-264.  `if ingress` is also false for an empty match. -/
def simEgress {π : Type} (r : Rule π) (ingress : Option Match) : Except PyErr (Match × Match) := do
  let start ← match ingress with
    | some i => if i.items.isEmpty then .ok r.mat else r.mat.intersection i
    | none => .ok r.mat
  let x ← r.inst.apply.iter.foldlM simStep (start, Match.empty)
  return simMeta r.inst.wmeta x

/-- `get_goto_egress`, rule.py:266-275 -/
def gotoEgress {π : Type} (r : Rule π) (ingress : Option Match) : Except PyErr Match := do
  return (← simEgress r ingress).1

/-- `egress_overlap`, rule.py:277-283 -/
def egressOverlap {π : Type} (r other : Rule π) (ingress : Option Match) : Except PyErr Bool := do
  (← gotoEgress r ingress).overlaps other.mat

/-- `op_count[tunnel["push"]]` -/
def pushCount (t : Tun) (l : List Action) : Nat := l.countP fun a => a.pushes == some t

/-- `op_count[tunnel["pop"]]` -/
def popCount (t : Tun) (l : List Action) : Nat := l.countP fun a => a.pops == some t

/-- The second match without the metadata bits that were written, rule.py:362-377. -/
def stripMeta (second rw : Match) : Except PyErr Match :=
  match second.items.lookup fMeta, rw.items.lookup fMeta with
  | some (sv, sm), some (_, wm) =>
    match wm with
    | none => second.del fMeta
    | some wmask =>
      let mm := sm.getD 0xFFFFFFFFFFFFFFFF
      let newMask := andNot mm wmask
      if newMask ≠ 0 then .ok (second.append fMeta (sv &&& newMask) (some newMask)) else second.del fMeta
  | _, _ => .ok second

/-- Demote or promote the second match to the packet entering the first rule, rule.py:384-391. -/
def adjustTunnel (acts : List Action) (m : Match) (t : Tun) : Except PyErr Match :=
  if pushCount t acts < popCount t acts then
    t.fields.foldlM (fun m f => demote m f (popCount t acts - pushCount t acts)) m
  else if popCount t acts < pushCount t acts then
    t.fields.foldlM (fun m f => promote m f (pushCount t acts - popCount t acts)) m
  else .ok m

/-- The new `write_metadata`, rule.py:397-411. -/
def mergeMeta (m1 m2 : MetaW) : MetaW :=
  match m1, m2 with
  | none, m2 => m2
  | m1, none => m1
  | some (v1, k1), some (v2, k2) =>
    match k2 with
    | none => some (v2, none)
    | some k2 =>
      let v := andNot v1 k2 ||| (v2 &&& k2)
      match k1 with
      | none => some (v, none)
      | some k1 => some (v, some (k1 ||| k2))

/-- The names of fields that end in a digit are those of inner fields (rule.py:416: `x[-1].isdigit()`), whose ids are 40 to 55. -/
def isInner (f : Nat) : Bool := 40 ≤ f && f < 56

/-- `Rule.merge`, rule.py:320-423.  The new rule has the default path `()`. -/
def Rule.merge {π : Type} (a b : Rule π) (openflow : Bool) : Except PyErr (Rule π) := do
  let (sim, rw) ← simEgress a none
  if !(← sim.overlaps b.mat) then throw .noOverlap
  let remove := (rw.items.map (·.1)).filter fun x => (b.mat.items.lookup x).isSome && x != fMeta
  let second ← b.mat.copy [] remove
  let second ← stripMeta second rw
  let second ← [Tun.vlan, .mpls, .pbb].foldlM (adjustTunnel a.inst.apply.iter) second
  let mat ← a.mat.intersection second
  let inst ← a.inst.merge b.inst
  if openflow && mat.items.any (fun x => isInner x.1) then throw .mergeError
  return ⟨a.priority + b.priority, a.cookie, a.table, mat, { inst with wmeta := mergeMeta a.inst.wmeta b.inst.wmeta }, []⟩

end OFE
