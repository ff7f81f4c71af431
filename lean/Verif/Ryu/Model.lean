import Verif.Rule.Model
import Verif.Fmt.Model
import Verif.Actions.ActionSet

/-!
# Conversion from and to Ryu messages

Model of `ofequivalence/convert_ryu.py`.  Ryu is an external library; its objects are data here, with the attributes that the code reads.  Byte strings are
lists of characters below 256, as in `Fmt/Model`.  A field name is the number of the field (Ryu's names are those of `openflow_desc.py` in lower case).
-/

namespace OFE.Ryu
open Fmt

/-! ### Ryu's objects -/

/-- `action.value` of an OFPActionSetField, convert_ryu.py:111: what the user gave, a number, or a text. -/
inductive RVal where
  | num (n : Nat)
  | text (s : List Char)
deriving DecidableEq, Repr

/-- An action object of `ofproto_v1_3_parser` as read in convert_ryu.py:79-115: `type` and the one attribute of its class (0 if it has none), or the key and
value of a set-field.  `action.field` (line 108) is that of an older Ryu; it does not exist and line 110 takes over. -/
inductive RAct where
  | plain (type arg : Nat)
  | setField (key : Nat) (value : RVal)
deriving DecidableEq, Repr

/-- An instruction object, convert_ryu.py:131-145. -/
inductive RInst where
  | goto (table : Nat)
  | wmeta (value mask : Nat)
  | actions (type : Nat) (l : List RAct)
  | meter (id : Nat)
  | other (type : Nat)
deriving DecidableEq, Repr

/-- What `oxm_from_user(*field)` gives for an entry of `_fields2`, convert_ryu.py:56-57: the field, the bytes of the value and those of the mask. -/
structure ROxm where
  field : Nat
  value : List Char
  mask : Option (List Char)
deriving DecidableEq, Repr

/-- The attributes of a flow message that `rule_from_ryu` reads, convert_ryu.py:158-163. -/
structure RFlow where
  priority : Nat
  cookie : Option Nat
  table : Nat
  mat : Option (List ROxm)
  inst : Option (List RInst)
deriving DecidableEq, Repr

/-- An OFPGroupMod, convert_ryu.py:405-407. -/
structure GroupMod where
  type : Nat
  id : Nat
  buckets : List (List RAct)
deriving DecidableEq, Repr

/-! ### Constants of `ofproto_v1_3`, used in convert_ryu.py:79-115 and 131-141 -/

/-- `OFPAT_OUTPUT` etc., named in convert_ryu.py:79-114; values of OpenFlow 1.3. -/
abbrev atOutput : Nat := 0
abbrev atCopyTtlOut : Nat := 11
abbrev atCopyTtlIn : Nat := 12
abbrev atSetMplsTtl : Nat := 15
abbrev atDecMplsTtl : Nat := 16
abbrev atPushVlan : Nat := 17
abbrev atPopVlan : Nat := 18
abbrev atPushMpls : Nat := 19
abbrev atPopMpls : Nat := 20
abbrev atSetQueue : Nat := 21
abbrev atGroup : Nat := 22
abbrev atSetNwTtl : Nat := 23
abbrev atDecNwTtl : Nat := 24
abbrev atPushPbb : Nat := 26
abbrev atPopPbb : Nat := 27

/-- `OFPIT_WRITE_ACTIONS`, `OFPIT_APPLY_ACTIONS`, `OFPIT_CLEAR_ACTIONS`, named in convert_ryu.py:135-139. -/
abbrev itWrite : Nat := 3
abbrev itApply : Nat := 4
abbrev itClear : Nat := 5

/-! ### Reading -/

/-- `normalise_bytes(action.value)`, convert_ryu.py:111 with format_utils.py:76-121: a number is returned as it is. -/
def readVal : RVal → Except PyErr Nat
  | .num n => .ok n
  | .text s => normaliseBytes s

/-- One turn of the loop, convert_ryu.py:79-117. -/
def actionFromRyu : RAct → Except PyErr Action
  | .setField key value => do return .setField key (← readVal value)
  | .plain type arg =>
    if type = atOutput then .ok (.output arg)
    else if type = atCopyTtlOut then .ok .copyTtlOut
    else if type = atCopyTtlIn then .ok .copyTtlIn
    else if type = atSetMplsTtl then .ok (.setMplsTtl arg)
    else if type = atDecMplsTtl then .ok .decMplsTtl
    else if type = atPushVlan then .ok (.pushVlan arg)
    else if type = atPopVlan then .ok .popVlan
    else if type = atPushMpls then .ok (.pushMpls arg)
    else if type = atPopMpls then .ok (.popMpls arg)
    else if type = atSetQueue then .ok (.setQueue arg)
    else if type = atGroup then .ok (.group arg)
    else if type = atSetNwTtl then .ok (.setNwTtl arg)
    else if type = atDecNwTtl then .ok .decNwTtl
    else if type = atPushPbb then .ok (.pushPbb arg)
    else if type = atPopPbb then .ok .popPbb
    else .error .valueError

/-- `actions_from_ryu`, convert_ryu.py:64-118; `app` is `ActionSet.append` or `ActionList.append`. -/
def actionsFromRyu (app : ActionList → Action → Except PyErr ActionList) (l : List RAct) : Except PyErr ActionList :=
  l.foldlM (fun ret a => do app ret (← actionFromRyu a)) .empty

/-- One turn of the loop, convert_ryu.py:131-145.  `assert "Not standard"` holds always. -/
def instStep (ret : Inst) : RInst → Except PyErr Inst
  | .goto t => .ok { ret with goto := some t }
  | .wmeta v m => .ok { ret with wmeta := some (v, some m) }
  | .actions type l =>
    if type = itWrite then (actionsFromRyu actionSetAppend l).map fun x => { ret with write := x }
    else if type = itApply then (actionsFromRyu ActionList.append l).map fun x => { ret with apply := x }
    else if type = itClear then .ok { ret with clear := true }
    else .ok ret
  | .meter _ => .error .assertion
  | .other _ => .ok ret

/-- `instructions_from_ryu`, convert_ryu.py:121-146 -/
def instFromRyu : Option (List RInst) → Except PyErr Inst
  | none => .ok .empty
  | some l => l.foldlM instStep .empty

/-- One turn of the loop, convert_ryu.py:57-60. -/
def oxmStep (ret : Match) (x : ROxm) : Except PyErr Match := do
  let value ← normaliseBytes x.value
  let mask ← x.mask.mapM normaliseBytes
  return ret.append x.field value mask

/-- `match_from_ryu`, convert_ryu.py:47-61 -/
def matchFromRyu : Option (List ROxm) → Except PyErr Match
  | none => .ok .empty
  | some l => l.foldlM oxmStep .empty

/-- `rule_from_ryu`, convert_ryu.py:149-164 -/
def ruleFromRyu {π : Type} (f : RFlow) : Except PyErr (Rule π) := do
  let m ← matchFromRyu f.mat
  let i ← instFromRyu f.inst
  return ⟨f.priority, f.cookie, f.table, m, i, []⟩

/-! ### Writing: the match -/

/-- The number of bytes of a field in Ryu's `oxm_types` of OpenFlow 1.3 (trusted), used by `parser.OFPMatch(**match)`, convert_ryu.py:515. -/
def oxmSizes : List Nat := [4, 4, 8, 6, 6, 2, 2, 1, 1, 1, 1, 4, 4, 2, 2, 2, 2, 2, 2, 1, 1, 2, 4, 4, 6, 6, 16, 16, 4, 1, 1, 16, 6, 6, 4, 1, 1, 3, 8, 2]

/-- The bytes of a number, most significant first, in `size` bytes: Ryu's conversion of a number given for a field, convert_ryu.py:515. -/
def toBytes : Nat → Nat → List Char
  | 0, _ => []
  | size + 1, v => toBytes size (v / 256) ++ [Char.ofNat (v % 256)]

/-- Ryu's conversion with the size of the field, convert_ryu.py:515: names that Ryu does not know are a `KeyError`.  A number that does not fit is an error
here; no theorem depends on which. -/
def oxmBytes (f v : Nat) : Except PyErr (List Char) :=
  match oxmSizes[f]? with
  | none => .error .keyError
  | some size => if v < 256 ^ size then .ok (toBytes size v) else .error .valueError

/-- OFPMatch clears the bits of a value that are not in the mask, convert_ryu.py:515. -/
def sentValue (x : Nat × Nat × Option Nat) : Nat :=
  match x.2.2 with
  | none => x.2.1
  | some m => x.2.1 &&& m

/-- One field of `parser.OFPMatch(**match)`, convert_ryu.py:515: value and mask in bytes. -/
def oxmOf (x : Nat × Nat × Option Nat) : Except PyErr ROxm := do
  let value ← oxmBytes x.1 (sentValue x)
  let mask ← x.2.2.mapM (oxmBytes x.1)
  return ⟨x.1, value, mask⟩

/-- `match_to_ryu`, convert_ryu.py:508-515; OFPMatch sorts by the number of the field. -/
def matchToRyu (m : Match) : Except PyErr (List ROxm) := do
  let l ← m.items.mapM oxmOf
  return l.foldl (fun acc x => insort (fun a b => decide (a.field < b.field)) x acc) []

/-! ### Writing: groups and actions -/

/-- `Group`, rule.py:1022-1064: `type_`, `ttp_link.name` (`none` if `ttp_link` is None, its default) and the actions of the buckets in the order of their
iteration. -/
structure GroupObj where
  type : String
  ttp : Option String
  buckets : List (List Action)
deriving DecidableEq, Repr

/-- `getattr(ofproto_v1_3, "OFPGT_" + group.type_.upper())`, convert_ryu.py:397 -/
def groupType (s : String) : Except PyErr Nat :=
  match [("ALL", 0), ("SELECT", 1), ("INDIRECT", 2), ("FF", 3)].lookup (String.ofList (s.toList.map Char.toUpper)) with
  | some n => .ok n
  | none => .error .attributeError

/-- `vlan_vid`, convert_ryu.py:332-334; `none` if it is not assigned. -/
def vlanOf (m : Match) : Option Nat := (m.items.lookup 6).map fun x => x.1 &&& 0xfff

/-- `port_id`, convert_ryu.py:336-339: that of the last output of the first bucket; `none` if it is not assigned. -/
def portOf (g : GroupObj) : Option Nat :=
  match g.buckets with
  | [] => none
  | b :: _ => b.foldl (fun p a => match a with | .output n => some n | _ => p) none

/-- Using a variable that may not be assigned (`UnboundLocalError`), convert_ryu.py:344-375. -/
def bound (x : Option Nat) : Except PyErr Nat :=
  match x with
  | some n => .ok n
  | none => .error .nameError

/-- `group_ofdpa_id`, convert_ryu.py:322-385.  `n` is `len(_bad_counter)`, which lives as long as the program; the result has its new value. -/
def groupId (g : GroupObj) (vlan : Option Nat) (n : Nat) : Except PyErr (Nat × Nat) :=
  match g.ttp with
  | none => .error .attributeError
  | some name =>
    if name = "L2 Interface" then do return ((← bound vlan) <<< 16 ||| (← bound (portOf g)), n)
    else if name = "L2 Unfiltered Interface" then do return (11 <<< 28 ||| (← bound (portOf g)), n)
    else if name = "L3 Interface" then .ok (5 <<< 28 ||| (n + 1), n + 1)
    else if name = "L3 Multicast" then do return (6 <<< 28 ||| (← bound vlan) <<< 16 ||| (n + 1), n + 1)
    else if name = "L3 Unicast" then .ok (2 <<< 28 ||| (n + 1), n + 1)
    else if name = "L3 ECMP" then .ok (7 <<< 28 ||| (n + 1), n + 1)
    else if name = "L2 Flood" then do return (4 <<< 28 ||| (← bound vlan) <<< 16 ||| (n + 1), n + 1)
    else if name = "L2 Multicast" then do return (3 <<< 28 ||| (← bound vlan) <<< 16 ||| (n + 1), n + 1)
    else if name = "L3 Rewrite" then .ok (1 <<< 28 ||| (n + 1), n + 1)
    else .ok (n + 1, n + 1)

/-- One turn of the loop of `actions_to_ryu`, convert_ryu.py:426-465.  `heap g` is the `Group` object called `g`; `none` if `g` is just a number.  `grp` is
`group_to_ryu`. -/
def actionToRyu (heap : Nat → Option GroupObj) (grp : GroupObj → Nat → Except PyErr (Nat × List GroupMod × Nat)) (n : Nat) :
    Action → Except PyErr (RAct × List GroupMod × Nat)
  | .output p => .ok (.plain atOutput p, [], n)
  | .copyTtlOut => .ok (.plain atCopyTtlOut 0, [], n)
  | .copyTtlIn => .ok (.plain atCopyTtlIn 0, [], n)
  | .setMplsTtl v => .ok (.plain atSetMplsTtl v, [], n)
  | .decMplsTtl => .ok (.plain atDecMplsTtl 0, [], n)
  | .pushVlan e => .ok (.plain atPushVlan e, [], n)
  | .popVlan => .ok (.plain atPopVlan 0, [], n)
  | .pushMpls e => .ok (.plain atPushMpls e, [], n)
  | .popMpls e => .ok (.plain atPopMpls e, [], n)
  | .setQueue q => .ok (.plain atSetQueue q, [], n)
  | .group g =>
    match heap g with
    | none => .ok (.plain atGroup g, [], n)
    | some obj => do
      let (id, extra, n) ← grp obj n
      return (.plain atGroup id, extra, n)
  | .setNwTtl v => .ok (.plain atSetNwTtl v, [], n)
  | .decNwTtl => .ok (.plain atDecNwTtl 0, [], n)
  | .setField f v => .ok (.setField f (.num v), [], n)
  | .pushPbb e => .ok (.plain atPushPbb e, [], n)
  | .popPbb => .ok (.plain atPopPbb 0, [], n)

/-- `actions_to_ryu`, convert_ryu.py:411-466, with `group_to_ryu` as a parameter. -/
def actionsWith (heap : Nat → Option GroupObj) (grp : GroupObj → Nat → Except PyErr (Nat × List GroupMod × Nat)) :
    List Action → Nat → Except PyErr (List RAct × List GroupMod × Nat)
  | [], n => .ok ([], [], n)
  | a :: rest, n => do
    let (r, extra, n) ← actionToRyu heap grp n a
    let (rs, extra', n) ← actionsWith heap grp rest n
    return (r :: rs, extra ++ extra', n)

/-- The loop over the buckets, convert_ryu.py:399-403. -/
def bucketsWith (heap : Nat → Option GroupObj) (grp : GroupObj → Nat → Except PyErr (Nat × List GroupMod × Nat)) :
    List (List Action) → Nat → Except PyErr (List (List RAct) × List GroupMod × Nat)
  | [], n => .ok ([], [], n)
  | b :: rest, n => do
    let (r, extra, n) ← actionsWith heap grp b n
    let (rs, extra', n) ← bucketsWith heap grp rest n
    return (r :: rs, extra ++ extra', n)

/-- `group_to_ryu`, convert_ryu.py:388-408; the fuel bounds the nesting of groups. -/
def groupToRyu (heap : Nat → Option GroupObj) (vlan : Option Nat) : Nat → GroupObj → Nat → Except PyErr (Nat × List GroupMod × Nat)
  | 0, _, _ => .error .fuel
  | fuel + 1, g, n => do
    let type ← groupType g.type
    let (id, n) ← groupId g vlan n
    let (buckets, extra, n) ← bucketsWith heap (groupToRyu heap vlan fuel) g.buckets n
    return (id, extra ++ [⟨type, id, buckets⟩], n)

/-- `actions_to_ryu`, convert_ryu.py:411-466 -/
def actionsToRyu (heap : Nat → Option GroupObj) (vlan : Option Nat) (fuel : Nat) (l : List Action) (n : Nat) : Except PyErr (List RAct × List GroupMod × Nat) :=
  actionsWith heap (groupToRyu heap vlan fuel) l n

/-- One of the blocks convert_ryu.py:487-492 and 493-498. -/
def actionsInst (heap : Nat → Option GroupObj) (vlan : Option Nat) (fuel type : Nat) (l : ActionList) (n : Nat) :
    Except PyErr (List RInst × List GroupMod × Nat) :=
  if l.len = 0 then .ok ([], [], n)
  else do
    let (acts, extra, n) ← actionsToRyu heap vlan fuel l.iter n
    return ([.actions type acts], extra, n)

/-- `instructions_to_ryu`, convert_ryu.py:469-505 -/
def instToRyu (heap : Nat → Option GroupObj) (vlan : Option Nat) (fuel : Nat) (i : Inst) (n : Nat) : Except PyErr (List RInst × List GroupMod × Nat) :=
  if i.wmeta.isSome then .error .assertion
  else do
    let (write, extra, n) ← actionsInst heap vlan fuel itWrite i.write n
    let (apply, extra', n) ← actionsInst heap vlan fuel itApply i.apply n
    if i.meter.isSome then .error .assertion
    else return ((match i.goto with | none => [] | some t => [.goto t]) ++ write ++ apply ++ (if i.clear then [.actions itClear []] else []), extra ++ extra', n)

/-- `rule_to_ryu`, convert_ryu.py:518-542 -/
def ruleToRyu {π : Type} (heap : Nat → Option GroupObj) (fuel : Nat) (r : Rule π) (n : Nat) : Except PyErr (RFlow × List GroupMod × Nat) := do
  let m ← matchToRyu r.mat
  let (i, extra, n) ← instToRyu heap (vlanOf r.mat) fuel r.inst n
  return (⟨r.priority, r.cookie, r.table, some m, some i⟩, extra, n)

/-- `ruleset_to_ryu`, convert_ryu.py:167-171: without the group messages. -/
def rulesetToRyu {π : Type} (heap : Nat → Option GroupObj) (fuel : Nat) : List (Rule π) → Nat → Except PyErr (List RFlow × Nat)
  | [], n => .ok ([], n)
  | r :: rest, n => do
    let (f, _, n) ← ruleToRyu heap fuel r n
    let (fs, n) ← rulesetToRyu heap fuel rest n
    return (f :: fs, n)

/-! ### Files -/

/-- A value that `json.load` returns, convert_ryu.py:292.  A flow message is a dict with one key, the name of its class (`flow`). -/
inductive Js where
  | dict (l : List (String × Js))
  | list (l : List Js)
  | flow (f : RFlow)
  | scalar

/-- `ruleset_from_ryu_json` up to line 305, convert_ryu.py:292-305: skips into the first value of every dict whose first key does not start with OFP.  An
empty dict raises `StopIteration` (a runtime error here). -/
def skipInto : Js → Except PyErr Js
  | .dict [] => .error .runtimeError
  | .dict ((k, v) :: l) => if k.startsWith "OFP" then .ok (.dict ((k, v) :: l)) else skipInto v
  | j => .ok j

/-- `ryu_from_jsondict`, convert_ryu.py:267-277, on an element of the list (315): a flow message, or whatever `other` makes of it. -/
def asFlow (other : Js → Except PyErr RFlow) : Js → Except PyErr RFlow
  | .flow f => .ok f
  | x => other x

/-- `ruleset_from_ryu_json`, convert_ryu.py:281-316.  `reply` is what `ofp_msg_from_jsondict(DP, stats).body` gives for a message (line 309), `other` what
`ryu_from_jsondict` (267-277) makes of anything that is not a flow message: both raise or give flow messages. -/
def rulesetFromJson {π : Type} (reply : Js → Except PyErr (List RFlow)) (other : Js → Except PyErr RFlow) (j : Js) : Except PyErr (List (Rule π)) := do
  match ← skipInto j with
  | .dict l => (← reply (.dict l)).mapM ruleFromRyu
  | .flow f => (← reply (.flow f)).mapM ruleFromRyu
  | .list l => (← l.mapM (asFlow other)).mapM ruleFromRyu
  | .scalar => .error .assertion

end OFE.Ryu
