import Verif.Ttp.Model
import Verif.Ryu.Spec

/-!
# What a table type pattern means

Specification after the ONF's Table Type Patterns (actions and instructions are those of OpenFlow 1.3, by name), independent of `convert_ttp.py`.
-/

namespace OFE.Ttp
open Ryu (Prog)

/-- Specification: the actions by their names, with the argument they take. -/
def ttpActions : List (String × (Nat → Action)) := [
  ("OUTPUT", .output), ("COPY_TTL_OUT", fun _ => .copyTtlOut), ("COPY_TTL_IN", fun _ => .copyTtlIn), ("SET_MPLS_TTL", .setMplsTtl),
  ("DEC_MPLS_TTL", fun _ => .decMplsTtl), ("PUSH_VLAN", .pushVlan), ("POP_VLAN", fun _ => .popVlan), ("PUSH_MPLS", .pushMpls), ("POP_MPLS", .popMpls),
  ("SET_QUEUE", .setQueue), ("GROUP", .group), ("SET_NW_TTL", .setNwTtl), ("DEC_NW_TTL", fun _ => .decNwTtl), ("PUSH_PBB", .pushPbb),
  ("POP_PBB", fun _ => .popPbb)]

/-- Specification: what an action stands for; a value may also be the text of an address. -/
inductive TMeans : TAct → Action → Prop
  | plain {name : String} {f : Nat → Action} (arg : Nat) : (name, f) ∈ ttpActions → TMeans (.plain name arg) (f arg)
  | num (f v : Nat) : TMeans (.setField (.field f) (.num v)) (.setField f v)
  | text {f v : Nat} {t : List Char} : Ovs.Denotes (Ovs.kindOf f) t v → Ovs.kindOf f ≠ .num → TMeans (.setField (.field f) (.text t)) (.setField f v)

/-- Specification: the packets that the match set accepts: all its fields agree on the bits of their masks. -/
def TField.accepts (x : TField) (p : Pkt) : Prop :=
  match x.value, x.mask with
  | .num v, .none => MatchesField p.hdr (x.field, v, none)
  | .num v, .num k => MatchesField p.hdr (x.field, v, some k)
  | _, _ => False

/-- Specification: the packets that a flow accepts. -/
def TFlow.accepts (f : TFlow) (p : Pkt) : Prop := ∀ x ∈ f.fields, x.accepts p

/-- Specification: the actions of APPLY_ACTIONS. -/
def TInst.applied : TInst → Option (List TAct)
  | .apply l => some l
  | _ => none

/-- Specification: the actions of WRITE_ACTIONS. -/
def TInst.written : TInst → Option (List TAct)
  | .write l => some l
  | _ => none

/-- Specification: the number of the table of GOTO_TABLE. -/
def TInst.next : TInst → Option Nat
  | .goto (some (.num n)) => some n
  | _ => none

/-- Specification: CLEAR_ACTIONS. -/
def TInst.clears : TInst → Bool
  | .clear => true
  | _ => false

/-- Specification: the instructions (without meters and metadata) mean a program; OpenFlow allows one instruction of each type, of several the last one counts. -/
structure TProgOf (l : List TInst) (q : Prog) : Prop where
  apply : List.Forall₂ TMeans ((l.filterMap TInst.applied).getLast?.getD []) q.apply
  write : List.Forall₂ TMeans ((l.filterMap TInst.written).getLast?.getD []) q.write
  clear : q.clear = l.any TInst.clears
  wmeta : q.wmeta = none
  goto : q.goto = (l.filterMap TInst.next).getLast?

/-- Specification: an action that can be read: a set-field of a number, or one of OpenFlow's other actions but GROUP. -/
inductive TReadable : TAct → Prop
  | plain {name : String} {f : Nat → Action} (arg : Nat) : (name, f) ∈ ttpActions → name ≠ "GROUP" → TReadable (.plain name arg)
  | num (f v : Nat) : f < 40 → TReadable (.setField (.field f) (.num v))

/-- Specification: an instruction that can be read. -/
def TInst.Fine : TInst → Prop
  | .goto found => ∃ n, found = some (.num n)
  | .clear => True
  | .apply l => ∀ a ∈ l, TReadable a
  | .write l => ∀ a ∈ l, TReadable a
  | .other _ => False

end OFE.Ttp
