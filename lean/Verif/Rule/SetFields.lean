import Verif.Rule.Model

/-! # Fields set on the way to the next table: model of `Rule.get_goto_set_fields` -/

namespace OFE

/-- One round of the loop, rule.py:165-167. -/
def setFieldStep (d : List (Nat × Nat)) : Action → List (Nat × Nat)
  | .setField f v => dictSet f v d
  | _ => d

/-- `Rule.get_goto_set_fields`, rule.py:154-168: iterates over the actions in canonical order. -/
def Rule.gotoSetFields {π : Type} (r : Rule π) : List (Nat × Nat) := r.inst.apply.iter.foldl setFieldStep []

end OFE
