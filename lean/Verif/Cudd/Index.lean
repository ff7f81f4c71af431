import Verif.Match.Layout

/-! # Node numbers and header bits, `ofequivalence/cuddbdd.py`:37-48 -/

namespace OFE
namespace Cudd

/-- `_generate_bdd_index_to_field`, cuddbdd.py:38-48, for the table `WC_FIELD_OFFSET` as (field, offset) and the number of bits of a field.  All offsets are below
`max_offset`, so the subtraction is that of natural numbers. -/
def generateIndex (maxOffset : Nat) (offsets : List (Nat × Nat)) (bits : Nat → Nat) : List (Nat × (Nat × Nat)) :=
  offsets.foldl (fun d x => (List.range (bits x.1)).foldl (fun d bit => dictSet (maxOffset - (x.2 + bit)) (x.1, bit) d) d) []

/-- `BDD_INDEX_TO_FIELD`, cuddbdd.py:37-48 -/
def indexToField : List (Nat × (Nat × Nat)) := generateIndex (bytesNeeded * 8 - 1) wcFieldOffset fun f => (fieldBits f).getD 0

end Cudd
end OFE
