import Verif.Rule.Model
import Verif.Actions.ActionSet

/-!
# Conversion from table type patterns

Model of `ofequivalence/convert_ttp.py`.  `ttp_tools` is an external library; its objects are data here, with the attributes that the code reads, and
`get_flat()` has already given the list of the members.  The name of a field is the number of the field.
-/

namespace OFE.Ttp

/-- A value in a pattern as the code tells them apart, convert_ttp.py:39, 61-62, 142: an int, another string (such as `"$port"` or `"10.0.0.1"`), or None. -/
inductive TVal where
  | num (n : Nat)
  | text (s : List Char)
  | none
deriving DecidableEq, Repr

/-- A field in a match set, convert_ttp.py:57-63; `field_name` is a string. -/
structure TField where
  field : Nat
  value : TVal
  mask : TVal
deriving DecidableEq, Repr

/-- The field of SET_FIELD, convert_ttp.py:141: a name, or a variable starting with `$`. -/
inductive TName where
  | field (f : Nat)
  | var (s : List Char)
deriving DecidableEq, Repr

/-- An action, convert_ttp.py:109-152: its name and the one attribute that is read (an int, 0 if there is none), or field and value of SET_FIELD.
Simplified: attributes that are strings, such as a variable as port, are stored by the code as they are; actions here have numbers. -/
inductive TAct where
  | plain (name : String) (arg : Nat)
  | setField (field : TName) (value : TVal)
deriving DecidableEq, Repr

/-- An instruction, convert_ttp.py:77-92: GOTO_TABLE with what `inst.ttp.find_table(inst.table)` gives (nothing, or a table and its number), CLEAR_ACTIONS,
APPLY_ACTIONS, WRITE_ACTIONS, or any other name. -/
inductive TInst where
  | goto (found : Option TVal)
  | clear
  | apply (l : List TAct)
  | write (l : List TAct)
  | other (name : String)
deriving DecidableEq, Repr

/-- The attributes of a TTPFlow that `rule_from_ttp` reads, convert_ttp.py:35-45; `table` is the number of the table it is in. -/
structure TFlow where
  priority : TVal
  fields : List TField
  insts : List TInst
  table : Nat
deriving DecidableEq, Repr

/-- One turn of the loop, convert_ttp.py:109-152: the action appended, if there is one.  NotImplementedError is a RuntimeError. -/
def actionFromTtp : TAct → Except PyErr (Option Action)
  | .plain name arg =>
    if name = "OUTPUT" then .ok (some (.output arg))
    else if name = "COPY_TTL_OUT" then .ok (some .copyTtlOut)
    else if name = "COPY_TTL_IN" then .ok (some .copyTtlIn)
    else if name = "SET_MPLS_TTL" then .ok (some (.setMplsTtl arg))
    else if name = "DEC_MPLS_TTL" then .ok (some .decMplsTtl)
    else if name = "PUSH_VLAN" then .ok (some (.pushVlan arg))
    else if name = "POP_VLAN" then .ok (some .popVlan)
    else if name = "PUSH_MPLS" then .ok (some (.pushMpls arg))
    else if name = "POP_MPLS" then .ok (some (.popMpls arg))
    else if name = "SET_QUEUE" then .ok (some (.setQueue arg))
    else if name = "GROUP" then .error .runtimeError
    else if name = "SET_NW_TTL" then .ok (some (.setNwTtl arg))
    else if name = "DEC_NW_TTL" then .ok (some .decNwTtl)
    else if name = "PUSH_PBB" then .ok (some (.pushPbb arg))
    else if name = "POP_PBB" then .ok (some .popPbb)
    else .ok none
  | .setField (.var _) _ => .ok none
  | .setField (.field f) (.num v) => .ok (some (.setField f v))
  | .setField (.field _) _ => .ok none

/-- `ret.append(...)` if there is something to append, convert_ttp.py:109-152. -/
def appendOpt (app : ActionList → Action → Except PyErr ActionList) (ret : ActionList) : Option Action → Except PyErr ActionList
  | some a => app ret a
  | none => .ok ret

/-- `actions_from_ttp`, convert_ttp.py:97-153; `app` is `ActionSet.append` or `ActionList.append`. -/
def actionsFromTtp (app : ActionList → Action → Except PyErr ActionList) (l : List TAct) : Except PyErr ActionList :=
  l.foldlM (fun ret a => do appendOpt app ret (← actionFromTtp a)) .empty

/-- `find_table(...).number`, convert_ttp.py:78: the number of the table (or None) and whether it is something else; None has no attribute `number`. -/
def tableNumber : Option TVal → Except PyErr (Option Nat × Bool)
  | some (.num n) => .ok (some n, true)
  | some .none => .ok (none, true)
  | some (.text _) => .ok (none, false)
  | none => .error .attributeError

/-- One turn of the loop, convert_ttp.py:77-90; with the instructions goes whether `goto_table` is None or an int. -/
def ttpInstStep (ret : Inst × Bool) : TInst → Except PyErr (Inst × Bool)
  | .goto found => (tableNumber found).map fun t => ({ ret.1 with goto := t.1 }, t.2)
  | .clear => .ok ({ ret.1 with clear := true }, ret.2)
  | .apply l => (actionsFromTtp ActionList.append l).map fun x => ({ ret.1 with apply := x }, ret.2)
  | .write l => (actionsFromTtp actionSetAppend l).map fun x => ({ ret.1 with write := x }, ret.2)
  | .other _ => .error .runtimeError

/-- `instructions_from_ttp`, convert_ttp.py:67-94 -/
def instFromTtp (l : List TInst) : Except PyErr Inst := do
  let (i, ok) ← l.foldlM ttpInstStep (.empty, true)
  if ok then return i else throw .assertion

/-- One turn of the loop, convert_ttp.py:57-63.  Line 62 was to check the mask but checks the value again; `Match.append` (rule.py:1169-1171) raises TypeError
for a mask that is a string (simplified: an empty string, and any string as mask of a field of unknown width, is stored). -/
def fieldStep (m : Match) (x : TField) : Except PyErr Match :=
  match x.value, x.mask with
  | .num v, .none => .ok (m.append x.field v none)
  | .num v, .num k => .ok (m.append x.field v (some k))
  | .num _, .text _ => .error .typeError
  | _, _ => .error .assertion

/-- `match_from_ttp`, convert_ttp.py:51-65 -/
def matchFromTtp (l : List TField) : Except PyErr Match := l.foldlM fieldStep .empty

/-- `rule_from_ttp`, convert_ttp.py:27-48.  A flow that is not built in is only warned about (35-36). -/
def ruleFromTtp {π : Type} (f : TFlow) : Except PyErr (Rule π) :=
  match f.priority with
  | .num p => do
    let m ← matchFromTtp f.fields
    let i ← instFromTtp f.insts
    return ⟨p, none, f.table, m, i, []⟩
  | _ => .error .assertion

end OFE.Ttp
