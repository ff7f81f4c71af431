import Verif.Match.Layout
import Verif.Morton.Model

/-!
# Matches

Model of `Match` (`ofequivalence/rule.py`) and of its conversion from and to wildcards (`ofequivalence/headerspace.py`).
`ttp_link` (matches bound to another field table) is not modelled.
-/

namespace OFE

/-- The entries of the dict: field, value, mask (`None` = exact).  The third component stored by the code, the field id, is the
field itself here. -/
abbrev MItems := List (Nat × Nat × Option Nat)

/-- One iteration of `flow_matches_to_wildcard`, headerspace.py:276-290.  A field added on the fly is added to the table of rule.py (line 31), which is
another object than that of headerspace.py (49), so that it is not found here and passed over (279-280); see `Match/Names`.  `~x` on python ints is
rewritten as in `andNot`. -/
def matchStep (wc : Nat) (x : Nat × Nat × Option Nat) : Except PyErr Nat :=
  match fieldBits x.1 with
  | none => .ok wc
  | some bits =>
    let value := x.2.1
    let wmask := (1 <<< (bits * 2)) - 1
    let mask := x.2.2.getD wmask
    match wcFieldOffset.lookup x.1 with
    | none => .error .keyError
    | some off =>
      let inner := morton (andNot wmask (value &&& mask)) ((value &&& wmask) ||| andNot wmask mask)
      .ok ((wc &&& (inner <<< (off * 2))) ||| andNot wc (wmask <<< (off * 2)))

/-- `flow_matches_to_wildcard`, headerspace.py:274-292 -/
def toWildcard (m : MItems) : Except PyErr Nat := m.foldlM matchStep (wcFull (bytesNeeded * 8))

/-- `bit_scan0`, headerspace.py:413-419, cut off at `start + k` (the caller only compares the result with that limit). -/
def bitScan0 (wc : Nat) : Nat → Nat → Nat
  | start, 0 => start
  | start, k + 1 => if wc.testBit start then bitScan0 wc (start + 1) k else start

/-- The `while` loop of `flow_wildcard_to_fields`, headerspace.py:421-441 (383-409 is the same with gmpy2's scan).  Each
round moves on by at least one field, so fuel 57 suffices (`C16_wildcard_to_fields` shows the fuel is never used up). -/
def toFieldsLoop (wc : Nat) : Nat → Nat → Except PyErr MItems
  | 0, _ => .error .fuel
  | fuel + 1, start =>
    let lim := bytesNeeded * 16
    let offset := bitScan0 wc start (lim - start)
    if offset < lim then
      match bit2field[offset]? with
      | none => .error .indexError
      | some none => .error .keyError
      | some (some field) =>
        match fieldBits field, wcFieldOffset.lookup field with
        | some length, some fo =>
          let mask := (1 <<< (length * 2)) - 1
          let value := (wc >>> (fo * 2)) &&& mask
          if value = mask then .error .assertion
          else
            let ab := rmorton value
            let partValue := ab.2 &&& (ab.1 ^^^ ab.2)
            let partMask := ab.1 ^^^ ab.2
            let here : MItems :=
              if partMask ≠ 0 then
                if partMask = (1 <<< length) - 1 then [(field, partValue, none)] else [(field, partValue, some partMask)]
              else []
            match toFieldsLoop wc fuel (fo * 2 + length * 2) with
            | .error e => .error e
            | .ok rest => .ok (here ++ rest)
        | _, _ => .error .keyError
    else .ok []

/-- `flow_wildcard_to_fields`, headerspace.py:421-441 -/
def wildcardToFields (wc : Nat) : Except PyErr MItems := toFieldsLoop wc 57 0

/-- `Match`: the dict, `required_mask` and the cached `_wildcard`, rule.py:1066-1100. -/
structure Match where
  items : MItems
  required : Nat
  cache : Option Nat
deriving DecidableEq, Repr

/-- `Match()` -/
def Match.empty : Match := ⟨[], 0, none⟩

/-- The (value, mask) stored by `Match.append`, rule.py:1161-1175: only a truthy mask of a field of known width is
normalised; a value with mask `None` or 0 is stored as it is. -/
def normValue (f v : Nat) (mask : Option Nat) : Nat × Option Nat :=
  match fieldBits f, mask with
  | some l, some m =>
    if l ≠ 0 ∧ m ≠ 0 then
      let maxMask := 2 ^ l - 1
      let m := m &&& maxMask
      (v &&& m, if m = maxMask then none else some m)
    else (v, some m)
  | _, _ => (v, mask)

/-- `Match.append`, rule.py:1159-1177 -/
def Match.append (m : Match) (f v : Nat) (mask : Option Nat) : Match :=
  ⟨dictSet f (normValue f v mask) m.items, m.required ||| (1 <<< f), none⟩

/-- `Match.__delitem__`, rule.py:1196-1202 (on failure the cache has been dropped already, which is unobservable). -/
def Match.del (m : Match) (f : Nat) : Except PyErr Match :=
  match m.items.lookup f with
  | none => .error .keyError
  | some _ => .ok ⟨dictDel f m.items, andNot m.required (1 <<< f), none⟩

/-- `Match.get_wildcard`, rule.py:1147-1150: returns the wildcard and the match with the cache filled. -/
def Match.getWildcard (m : Match) : Except PyErr (Nat × Match) :=
  match m.cache with
  | some w => .ok (w, m)
  | none =>
    match toWildcard m.items with
    | .error e => .error e
    | .ok w => .ok (w, { m with cache := some w })

/-- `Match.__eq__`, rule.py:1207-1215 -/
def Match.eq (a b : Match) : Bool := if a.required = b.required then dictEq a.items b.items else false

/-- `Match(dup=...)` / `Match.copy(add, remove)`, rule.py:1080-1098, 1179-1194: copying keeps the cache. -/
def Match.copy (m : Match) (add : MItems) (remove : List Nat) : Except PyErr Match := do
  let m ← remove.foldlM Match.del m
  return add.foldl (fun m x => m.append x.1 x.2.1 x.2.2) m

/-- `flow_wildcard_to_flowmatches`, headerspace.py:444-453 -/
def wildcardToMatch (wc : Nat) : Except PyErr Match := do
  let fields ← wildcardToFields wc
  return { fields.foldl (fun m x => m.append x.1 x.2.1 x.2.2) Match.empty with cache := some wc }

/-- `Match.intersection`, rule.py:1100-1109 -/
def Match.intersection (a b : Match) : Except PyErr Match := do
  let (wa, _) ← a.getWildcard
  let (wb, _) ← b.getWildcard
  wildcardToMatch (wcIntersect (bytesNeeded * 8) wa wb)

/-- `Match.union_cover`, rule.py:1123-1142 -/
def Match.unionCover (a b : Match) : Except PyErr Match := do
  let (wa, _) ← a.getWildcard
  let (wb, _) ← b.getWildcard
  wildcardToMatch (wcUnionCover wa wb)

/-- `Match.issubset`, rule.py:1152-1153 -/
def Match.issubset (a b : Match) : Except PyErr Bool := do
  let (wa, _) ← a.getWildcard
  let (wb, _) ← b.getWildcard
  return wcIsSubset wa wb

/-- `Match.overlaps`, rule.py:1155-1157 -/
def Match.overlaps (a b : Match) : Except PyErr Bool := do
  let (wa, _) ← a.getWildcard
  let (wb, _) ← b.getWildcard
  return wcIntersect (bytesNeeded * 8) wa wb ≠ 0

end OFE
