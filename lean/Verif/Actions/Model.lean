import Verif.Match.Layout
import Verif.Common

/-!
# Actions and action lists

Model of `ActionList` (`ofequivalence/rule.py`) and of the dependency table (`ofequivalence/openflow_desc.py`).
`ttp_link` is not modelled.
-/

namespace OFE

/-- An action `(type, value)`.  Values are naturals; a group is referred to by a number (rule.py:1022-1064 compares groups by
type and buckets; one number per distinct group). `popMpls` and the pushes carry an ethertype. -/
inductive Action where
  | copyTtlIn | popVlan | popPbb | popMpls (e : Nat) | pushMpls (e : Nat) | pushPbb (e : Nat) | pushVlan (e : Nat)
  | copyTtlOut | decMplsTtl | decNwTtl | setField (f v : Nat) | setMplsTtl (v : Nat) | setNwTtl (v : Nat)
  | setQueue (q : Nat) | group (g : Nat) | output (port : Nat)
deriving DecidableEq, Repr

/-- `action[0]`: the type, by position in `action_set_order`, openflow_desc.py:289-293. -/
def Action.ty : Action → Nat
  | .copyTtlIn => 0 | .popVlan => 1 | .popPbb => 2 | .popMpls _ => 3 | .pushMpls _ => 4 | .pushPbb _ => 5
  | .pushVlan _ => 6 | .copyTtlOut => 7 | .decMplsTtl => 8 | .decNwTtl => 9 | .setField .. => 10 | .setMplsTtl _ => 11
  | .setNwTtl _ => 12 | .setQueue _ => 13 | .group _ => 14 | .output _ => 15

/-- `action_set_order`, openflow_desc.py:289-293 -/
def actionNames : List String := ["COPY_TTL_IN", "POP_VLAN", "POP_PBB", "POP_MPLS", "PUSH_MPLS", "PUSH_PBB", "PUSH_VLAN",
  "COPY_TTL_OUT", "DEC_MPLS_TTL", "DEC_NW_TTL", "SET_FIELD", "SET_MPLS_TTL", "SET_NW_TTL", "SET_QUEUE", "GROUP", "OUTPUT"]

/-- What `to_type` returns, rule.py:741-742: the type name, or the pair `("SET_FIELD", field)`. -/
inductive TypeKey where
  | t (i : Nat)
  | s (f : Nat)
deriving DecidableEq, Repr

/-- `to_type`, rule.py:741-742 -/
def Action.toType : Action → TypeKey
  | .setField f _ => .s f
  | a => .t a.ty

/-- `set_all`, openflow_desc.py:296 -/
def setAll : List TypeKey := (List.range 16).map .t

/-- `set_ttl`, openflow_desc.py:297-299: COPY_TTL_OUT, COPY_TTL_IN, SET_MPLS_TTL, DEC_MPLS_TTL, PUSH_MPLS, POP_MPLS, SET_NW_TTL,
DEC_NW_TTL. -/
def setTtl : List TypeKey := [.t 7, .t 0, .t 11, .t 8, .t 4, .t 3, .t 12, .t 9]

/-- `action_dependancies`, openflow_desc.py:307-399.  Field ids: 3 ETH_DST, 4 ETH_SRC, 5 ETH_TYPE, 6 VLAN_VID, 7 VLAN_PCP,
34-36 MPLS_*, 37 PBB_ISID.  The name `"DEC_MPLS_TLL"` removed in line 332 is a typo, so DEC_MPLS_TTL stays in its own
set.  There are no entries for the inner copies of tunnel fields (ids from 40). -/
def actionDeps : TypeKey → Option (List TypeKey)
  | .t 15 => some (setAll.filter fun x => decide (x ≠ .t 15 ∧ x ≠ .t 14))
  | .t 14 => some (setAll.filter fun x => decide (x ≠ .t 15 ∧ x ≠ .t 14))
  | .t 7 => some (setTtl.filter fun x => decide (x ≠ .t 7))
  | .t 0 => some (setTtl.filter fun x => decide (x ≠ .t 0))
  | .t 11 => some [.t 4, .t 3, .t 11]
  | .t 8 => some (setTtl.filter fun x => decide (x ≠ .t 12 ∧ x ≠ .t 9))
  | .t 6 => some [.t 6, .t 1, .t 5, .t 2]
  | .t 1 => some [.t 6, .t 5]
  | .t 4 => some setTtl
  | .t 3 => some setTtl
  | .t 13 => some [.t 13]
  | .t 12 => some [.t 12, .t 0]
  | .t 9 => some [.t 12, .t 0]
  | .t 10 => some []
  | .t 5 => some [.t 5, .t 6, .t 1, .t 2, .s 4, .s 3, .s 7]
  | .t 2 => some [.t 5, .t 6]
  | .t _ => none
  | .s 3 => some [.t 2, .t 5, .s 3]
  | .s 4 => some [.t 2, .t 5, .s 4]
  | .s 5 => some [.t 2, .t 5, .s 5, .t 4, .t 3, .t 1, .t 6]
  | .s 6 => some [.s 6, .t 6, .t 1]
  | .s 7 => some [.s 7, .t 6, .t 1, .t 5]
  | .s 34 => some [.s 34, .t 4, .t 3]
  | .s 35 => some [.s 35, .t 4, .t 3]
  | .s 36 => some [.s 36, .t 4, .t 3]
  | .s 37 => some [.s 37, .t 5, .t 2]
  | .s f => if f < 40 then some [.s f] else none

/-- `item[0] == "SET_FIELD"` -/
def Action.isSet : Action → Bool
  | .setField .. => true
  | _ => false

/-- `depends`, rule.py:744-760; a missing table entry is a `KeyError`. -/
def depends (a b : Action) : Except PyErr Bool :=
  match actionDeps a.toType, actionDeps b.toType with
  | some d1, some d2 =>
    if (a.isSet && d2.contains (.t 10)) || (b.isSet && d1.contains (.t 10)) then .ok true
    else .ok (d2.contains a.toType || d1.contains b.toType)
  | _, _ => .error .keyError

/-- Rank of a string among a list of names in python's string order (code points). -/
def strRank (names : List String) (s : String) : Nat := (names.filter fun x => decide (x.toList < s.toList)).length

/-- Rank of the type name among all type names. -/
def typeRank (t : Nat) : Nat := strRank actionNames (actionNames.getD t "")

/-- Rank of the field name among all field names. -/
def fieldRank (f : Nat) : Nat := strRank (allFields.map (·.1)) ((allFields.getD f ("", 0)).1)

/-- Python compares actions as tuples: type name, then value; the value of a set-field is (field name, value).  Names are replaced
by their alphabetical rank (the field number is only there to tell names outside the tables apart).  Two different groups are ordered by number here (python 2 orders them by address, python 3
raises `TypeError`). -/
def Action.key : Action → List Nat
  | .setField f v => [typeRank 10, fieldRank f, f, v]
  | .popMpls e => [typeRank 3, e] | .pushMpls e => [typeRank 4, e] | .pushPbb e => [typeRank 5, e]
  | .pushVlan e => [typeRank 6, e] | .setMplsTtl v => [typeRank 11, v] | .setNwTtl v => [typeRank 12, v]
  | .setQueue q => [typeRank 13, q] | .group g => [typeRank 14, g] | .output p => [typeRank 15, p]
  | a => [typeRank a.ty]

/-- `a < b` on actions -/
def Action.lt (a b : Action) : Bool := decide (a.key < b.key)

section
variable {α : Type}

/-- `bisect.insort` (right): before the first element that is greater (binary search on a sorted list finds that place). -/
def insort (lt : α → α → Bool) (x : α) : List α → List α
  | [] => [x]
  | y :: ys => if lt x y then x :: y :: ys else y :: insort lt x ys

/-- The loops of `_append`, rule.py:471-476: `some l` for the deepest level with a dependent item. -/
def deepest (dep : α → α → Bool) (i : α) : Nat → List (List α) → Option Nat → Option Nat
  | _, [], d => d
  | l, v :: rest, d => deepest dep i (l + 1) rest (if v.any fun item => dep item i then some l else d)

/-- Insert `i` at level `k` (a new level if there are only `k`), rule.py:477-480. -/
def putLevel (lt : α → α → Bool) (i : α) : Nat → List (List α) → List (List α)
  | _, [] => [[i]]
  | 0, v :: rest => insort lt i v :: rest
  | k + 1, v :: rest => v :: putLevel lt i k rest

/-- `_append`, rule.py:469-480, for a total dependency test. -/
def appendLv (dep : α → α → Bool) (lt : α → α → Bool) (levels : List (List α)) (i : α) : List (List α) :=
  putLevel lt i (match deepest dep i 0 levels none with | none => 0 | some l => l + 1) levels
end

/-- `ActionList`: `action_levels` and `orig_order`, rule.py:436-439. -/
structure ActionList where
  levels : List (List Action)
  orig : List Action
deriving DecidableEq, Repr

/-- `ActionList()` -/
def ActionList.empty : ActionList := ⟨[], []⟩

/-- The dependency test where it is defined. -/
def dependsB (a b : Action) : Bool := match depends a b with | .ok b => b | .error _ => false

/-- `_append`, rule.py:469-480: every item present is tested, so a missing table entry raises as soon as there is one. -/
def ActionList._append (levels : List (List Action)) (i : Action) : Except PyErr (List (List Action)) :=
  if levels.flatten.any fun item => match depends item i with | .error _ => true | .ok _ => false then .error .keyError
  else .ok (appendLv dependsB Action.lt levels i)

/-- `append`, rule.py:482-489 -/
def ActionList.append (l : ActionList) (i : Action) : Except PyErr ActionList := do
  let lv ← ActionList._append l.levels i
  return ⟨lv, l.orig ++ [i]⟩

/-- `ActionList(dup=[...])`, rule.py:457-461 -/
def ActionList.ofList (xs : List Action) : Except PyErr ActionList := xs.foldlM ActionList.append ActionList.empty

/-- `__iter__`, rule.py:494-498 -/
def ActionList.iter (l : ActionList) : List Action := l.levels.flatten

/-- `__len__`, rule.py:491-492 -/
def ActionList.len (l : ActionList) : Nat := l.orig.length

/-- `__iadd__`, rule.py:500-503 -/
def ActionList.iadd (l : ActionList) (other : ActionList) : Except PyErr ActionList := other.iter.foldlM ActionList.append l

/-- The index loop of `remove`, rule.py:546-555: levels before the one holding `x`, and the number of actions in them. -/
def removeScan (x : Action) : List (List Action) → List (List Action) → Nat → Option (List (List Action) × Nat)
  | _, [], _ => none
  | before, v :: rest, offset => if x ∈ v then some (before, offset) else removeScan x (before ++ [v]) rest (offset + v.length)

/-- `remove`, rule.py:541-558 -/
def ActionList.remove (l : ActionList) (x : Action) : Except PyErr ActionList :=
  if x ∈ l.orig then
    let orig := l.orig.erase x
    match removeScan x [] l.levels 0 with
    | none => .error .valueError
    | some (before, offset) => do
      let lv ← (orig.drop offset).foldlM ActionList._append before
      return ⟨lv, orig⟩
  else .error .valueError

/-- `copy(add, remove)`, rule.py:793-820 -/
def ActionList.copy (l : ActionList) (add remove : List Action) : Except PyErr ActionList :=
  if remove.length > 1 then do
    let new ← remove.foldlM (fun (acc : List Action) r =>
      if r ∈ acc then (Except.ok (acc.erase r) : Except PyErr _) else .error .valueError) l.orig
    ActionList.ofList (new ++ add)
  else do
    let cpy ← remove.foldlM ActionList.remove l
    add.foldlM ActionList.append cpy

/-- `__add__`, rule.py:505-506 -/
def ActionList.add (l other : ActionList) : Except PyErr ActionList := l.copy other.iter []

/-- `__eq__`, rule.py:721-727 -/
def ActionList.eq (a b : ActionList) : Bool := if a.len ≠ b.len then false else a.iter == b.iter

/-- `__contains__`, rule.py:508-509 -/
def ActionList.contains (l : ActionList) (x : Action) : Bool := l.orig.contains x

/-- `replace`, rule.py:571-578 -/
def ActionList.replace (new : List Action) : Except PyErr ActionList := ActionList.ofList new

end OFE
