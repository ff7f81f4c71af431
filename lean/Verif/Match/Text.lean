import Verif.Match.Spec

/-!
# Wildcards as text

Model of the helpers of `ofequivalence/headerspace.py` that read a wildcard bit by bit.  A python string is a list of characters.  They were written
for an earlier representation, a sequence of 16 bit words; now a wildcard is an int (`wc_class`).  `WcArg` has both.
-/

namespace OFE

/-- The argument of the helpers: an int (`wc_class`, headerspace.py:60-71) or a sequence of words of eight tbits, least significant first (174-185). -/
inductive WcArg where
  | int (w : Nat)
  | words (l : List Nat)
deriving DecidableEq, Repr

/-- The loop `while tint:`, headerspace.py:121-131 (also 308-318 and 495-505).  `acc` is what has been read, reversed (`as_str[::-1]` at the end);
each step drops two bits, so that the number itself is enough fuel. -/
def tintLoop : Nat → Nat → List Char → Except PyErr (List Char)
  | 0, t, acc => if t = 0 then .ok acc else .error .fuel
  | k + 1, t, acc =>
    if t = 0 then .ok acc
    else
      let part := t &&& 3
      if part = 0 then .error .assertion
      else tintLoop k (t >>> 2) ((if part = 1 then '0' else if part = 2 then '1' else 'x') :: acc)

/-- `wc_int_to_string(tint)`, headerspace.py:116-133 -/
def wcIntToString (tint : Nat) : Except PyErr (List Char) := tintLoop tint tint []

/-- `verify the padding`, headerspace.py:176-179, 188-192: the padding tbits must be x and are shifted out. -/
def dropPadding (tint : Nat) : Except PyErr Nat :=
  if extraPadding ≠ 0 then
    let mask := (1 <<< (extraPadding * 2)) - 1
    if mask &&& tint = mask then .ok (tint >>> (extraPadding * 2)) else .error .assertion
  else .ok tint

/-- The loop building `full_tint` from the last word to the first, headerspace.py:184-186. -/
def joinWords (l : List Nat) : Nat := l.foldr (fun x t => (t <<< 16) ||| x) 0

/-- `wildcard_to_tint(wc)`, headerspace.py:173-194 -/
def wildcardToTint : WcArg → Except PyErr Nat
  | .int w => dropPadding w
  | .words l => if l.length = bytesNeeded then dropPadding (joinWords l) else .error .assertion

/-- The loop over the fields, headerspace.py:301-320: texts of the fields and the number of bits read. -/
def fieldsText : Nat → List (String × Nat) → Except PyErr (List (List Char) × Nat)
  | _, [] => .ok ([], 0)
  | t, (name, length) :: rest => do
    let mask := (1 <<< (length * 2)) - 1
    let s ← wcIntToString (mask &&& t)
    let (res, bits) ← fieldsText (t >>> (length * 2)) rest
    pure ((name.toList ++ '=' :: s) :: res, bits + length)

/-- `flow_wildcard_to_string(wc)`, headerspace.py:295-322 -/
def wildcardToString (wc : WcArg) : Except PyErr (List Char) := do
  let t ← wildcardToTint wc
  let (res, bits) ← fieldsText t allFields.reverse
  if bits = fieldsBitWidth then pure ([',', ' '].intercalate res) else throw .assertion

/-- `flow_wildcard_zero()`, headerspace.py:325-327 -/
def wildcardZero : Nat := oddMask (bytesNeeded * 8) ||| ((1 <<< (extraPadding * 2)) - 1)

/-- `flow_wildcard_one()`, headerspace.py:330-332; `EVEN_MASKS[i]` is `ODD_MASKS[i] << 1` (86). -/
def wildcardOne : Nat := (oddMask (bytesNeeded * 8) <<< 1) ||| ((1 <<< (extraPadding * 2)) - 1)

/-- `swap_bit_position(wc, bit)`, headerspace.py:136-153; the sequence after the call.  An int cannot be indexed. -/
def swapBitPosition (wc : WcArg) (bit : Nat) : Except PyErr WcArg :=
  match wc with
  | .int _ => .error .typeError
  | .words l =>
    let byte := bit / 8 + 1
    let off := 14 - (bit % 8) * 2
    match l[byte]? with
    | none => .error .indexError
    | some gotten =>
      let cur := ((0x3 <<< off) &&& gotten) >>> off
      let cleared := andNot gotten (0x3 <<< off)
      if cur = 1 then .ok (.words (l.set byte ((0x2 <<< off) ||| cleared)))
      else if cur = 2 then .ok (.words (l.set byte ((0x1 <<< off) ||| cleared)))
      else .error .assertion

/-- `max(as_str.rfind('0'), as_str.rfind('1'))`, headerspace.py:165: the last position that is not x (the text has no other characters); -1 is `none`. -/
def lastSet (s : List Char) : Option Nat :=
  let r := s.reverse.findIdx fun c => c == '0' || c == '1'
  if r < s.length then some (s.length - 1 - r) else none

/-- `find_smallest_set_bit(wc)`, headerspace.py:156-170: the sequence after the call and the result (-1 is `none`). -/
def findSmallestSetBit (wc : WcArg) : Except PyErr (WcArg × Option Nat) := do
  let t ← wildcardToTint wc
  let s ← wcIntToString t
  match lastSet s with
  | none =>
    let wc' ← swapBitPosition wc s.length
    pure (wc', none)
  | some i =>
    let wc' ← swapBitPosition wc (s.length - i - 1)
    pure (wc', some (s.length - i - 1))

/-- The search for the field, headerspace.py:469-478: its offset and width. -/
def findField (name : String) : Nat → List (String × Nat) → Option (Nat × Nat)
  | _, [] => none
  | off, (f, length) :: rest => if f = name then some (off, length) else findField name (off + length) rest

/-- `flow_wildcard_read_field(wc, name)`, headerspace.py:456-508; `len(wc)` of an int raises TypeError.  The `print` (490) is left out. -/
def readField (wc : WcArg) (name : String) : Except PyErr (Option (List Char)) :=
  match wc with
  | .int _ => .error .typeError
  | .words l =>
    if l.length = 0 then .ok none
    else if l.length ≠ bytesNeeded then .error .assertion
    else
      let pmask := (1 <<< (extraPadding * 2)) - 1
      if extraPadding ≠ 0 ∧ pmask &&& (l.headD 0) ≠ pmask then .error .assertion
      else match findField name extraPadding allFields.reverse with
        | none => .error .assertion
        | some (off, width) =>
          let startByte := off / 8
          let endByte := (off + width + 7) / 8
          let tint := joinWords ((l.drop startByte).take (endByte - startByte))
          let endBitOffset := endByte * 8 - (off + width)
          let tint := tint >>> (endBitOffset * 2)
          (wcIntToString (tint &&& ((1 <<< (width * 2)) - 1))).map some

end OFE
