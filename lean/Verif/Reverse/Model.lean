import Verif.Rule.Model

/-!
# The option to reverse fields

Model of `reverse_fields` of `ofequivalence/check_equivalence.py`.
-/

namespace OFE

/-- The lowest `n` bits of `v`, read from the least significant one on. -/
def readBits (v n : Nat) : Nat := (List.range n).foldl (fun acc i => acc * 2 + (v.testBit i).toNat) 0

/-- `int(bin(value)[2:].zfill(bits)[::-1], 2)`, check_equivalence.py:57, 61, 69: `bin` writes one digit for 0. -/
def reverseValue (bits v : Nat) : Nat := readBits v (max bits (if v = 0 then 1 else v.log2 + 1))

/-- The value reversed, with the assertion of check_equivalence.py:58, 62, 70.  Fields added on the fly are not
in the table of this module (38): KeyError. -/
def reverseChecked (f v : Nat) : Except PyErr Nat :=
  match fieldBits f with
  | none => .error .keyError
  | some bits => if reverseValue bits v &&& (2 ^ bits - 1) = reverseValue bits v then .ok (reverseValue bits v) else .error .assertion

/-- The loop over the fields of a match, check_equivalence.py:53-63.  The dict is changed while it is iterated over, but no key is added, so
python goes through the old entries.  The new mask is computed from the value. -/
def reverseMatch : MItems → Match → Except PyErr Match
  | [], m => .ok m
  | (f, v, mask) :: rest, m =>
    if f = fVid then reverseMatch rest m
    else do
      let newValue ← reverseChecked f v
      let newMask ← if mask.getD 0 ≠ 0 then (reverseChecked f v).map some else pure mask
      reverseMatch rest (m.append f newValue newMask)

/-- One turn of the loop over the actions, check_equivalence.py:66-73. -/
def reverseAction : Action → Except PyErr Action
  | .setField f v => if f = fVid then .ok (.setField f v) else (reverseChecked f v).map (.setField f)
  | a => .ok a

/-- `reverse_fields` for one rule, check_equivalence.py:51-74.  `Match.iteritems` does not exist on python 3 (`py3`). -/
def reverseRule {π : Type} (py3 : Bool) (r : Rule π) : Except PyErr (Rule π) := do
  if py3 then throw .attributeError
  let mat ← reverseMatch r.mat.items r.mat
  let acts ← r.inst.apply.iter.mapM reverseAction
  let apply ← ActionList.ofList acts
  return { r with mat := mat, inst := { r.inst with apply := apply } }

/-- `reverse_fields`, check_equivalence.py:41-74; the rules are changed in place. -/
def reverseFields {π : Type} (py3 : Bool) (rules : List (Rule π)) : Except PyErr (List (Rule π)) := rules.mapM (reverseRule py3)

end OFE
