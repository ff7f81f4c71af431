import Verif.Match.Model

/-!
# Names of fields

Model of the part of `OpenFlowDescription` (`ofequivalence/openflow_desc.py`) that numbers fields, and of matches whose entries are found by name, as in the
code (elsewhere the number stands for the name; `Names.C108_by_number` shows that this makes no difference).  rule.py:31, headerspace.py:49 and
check_equivalence.py:38 each have their own table; only that of rule.py grows.  Messages (openflow_desc.py:94-97, 111-118) are left out.
-/

namespace OFE.Names

/-- `oxm_fields` (name to id and bits) and `ordered_oxm_fields`, openflow_desc.py:55-56. -/
structure Table where
  fields : List (String × Nat × Option Nat)
  ordered : List String
deriving DecidableEq, Repr

/-- The table after `OpenFlow1_3_5.__init__`, openflow_desc.py:194-273. -/
def Table.init : Table := ⟨allFields.zipIdx.map fun x => (x.1.1, x.2, some x.1.2), allFields.map (·.1)⟩

/-- `oxm_name_to_id(name)`, openflow_desc.py:79-101: the id and the table afterwards. -/
def nameToId (t : Table) (name : String) : Except PyErr (Nat × Table) :=
  match t.fields.lookup name with
  | some d => .ok (d.1, t)
  | none =>
    match t.ordered.getLast? with
    | none => .error .indexError
    | some last =>
      match t.fields.lookup last with
      | none => .error .keyError
      | some d => .ok (d.1 + 1, ⟨t.fields ++ [(name, d.1 + 1, none)], t.ordered ++ [name]⟩)

/-- `check_oxm_name(name, log)`, openflow_desc.py:103-120; also the test of `_parse_field_name`, convert_ovs.py:132. -/
def checkName (t : Table) (name : String) : Bool := (t.fields.lookup name).isSome

/-- Several names in a row, each with `oxm_name_to_id` (openflow_desc.py:79-101). -/
def nameIds : Table → List String → Except PyErr (List Nat × Table)
  | t, [] => .ok ([], t)
  | t, n :: ns => do
    let (id, t) ← nameToId t n
    let (ids, t) ← nameIds t ns
    pure (id :: ids, t)

/-- The entries of a `Match` as they are stored, rule.py:1176: name to value, mask and field id. -/
abbrev NItems := List (String × Nat × Option Nat × Nat)

/-- `Match`, rule.py:1066-1100, without the cached wildcard. -/
structure NMatch where
  items : NItems
  required : Nat
deriving DecidableEq, Repr

/-- The new value and mask, rule.py:1169-1174, for a field of `l` bits. -/
def normBits (l : Option Nat) (v : Nat) (mask : Option Nat) : Nat × Option Nat :=
  match l, mask with
  | some l, some m =>
    if l ≠ 0 ∧ m ≠ 0 then
      let maxMask := 2 ^ l - 1
      let m := m &&& maxMask
      (v &&& m, if m = maxMask then none else some m)
    else (v, some m)
  | _, _ => (v, mask)

/-- `Match.append(name, value, mask)`, rule.py:1159-1177, without `ttp_link`: the table of rule.py and the match afterwards. -/
def append (s : Table × NMatch) (x : String × Nat × Option Nat) : Except PyErr (Table × NMatch) := do
  let (id, t) ← nameToId s.1 x.1
  match t.fields.lookup x.1 with
  | none => throw .keyError
  | some d =>
    let vm := normBits d.2 x.2.1 x.2.2
    pure (t, ⟨dictSet x.1 (vm.1, vm.2, id) s.2.items, s.2.required ||| (1 <<< id)⟩)

/-- One iteration of `flow_matches_to_wildcard`, headerspace.py:276-290, with the table `t`: fields that it does not have are passed over (277-280), fields
without a width raise TypeError (281).  The rest of the iteration is `matchStep`; the offsets are those of the table at the start (263-271). -/
def wildcardStep (t : Table) (wc : Nat) (x : String × Nat × Option Nat × Nat) : Except PyErr Nat :=
  match t.fields.lookup x.1 with
  | none => .ok wc
  | some (_, none) => .error .typeError
  | some (id, some _) => matchStep wc (id, x.2.1, x.2.2.1)

/-- `flow_matches_to_wildcard`, headerspace.py:274-292, where `t` is the table of headerspace.py. -/
def toWildcardN (t : Table) (m : NItems) : Except PyErr Nat := m.foldlM (wildcardStep t) (wcFull (bytesNeeded * 8))

end OFE.Names
