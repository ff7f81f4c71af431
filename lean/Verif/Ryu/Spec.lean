import Verif.Ryu.Model
import Verif.Ovs.Doc
import Verif.Rule.Spec

/-!
# What Ryu messages mean

Specification after OpenFlow 1.3 (sections 5.9, 7.2.3-7.2.5), independent of `convert_ryu.py`.
-/

namespace OFE.Ryu
open Fmt

/-- Specification: the number that bytes are in network byte order. -/
def beNum : List Char → Nat
  | [] => 0
  | c :: rest => c.toNat * 256 ^ rest.length + beNum rest

/-- Specification: bytes that happen to look like the text of an address: two colons in a row, or as many separators as an IPv6, Ethernet or IPv4 address has. -/
def LooksText (s : List Char) : Prop :=
  [':', ':'] <:+: s ∨ s.count ':' = 7 ∨ s.count ':' = 5 ∨ s.count '.' = 3 ∨ s.count '-' = 5

/-- Specification: the actions by their numbers (OpenFlow 1.3, `enum ofp_action_type`), with the argument they take. -/
def wireActions : List (Nat × (Nat → Action)) := [
  (0, .output), (11, fun _ => .copyTtlOut), (12, fun _ => .copyTtlIn), (15, .setMplsTtl), (16, fun _ => .decMplsTtl), (17, .pushVlan), (18, fun _ => .popVlan),
  (19, .pushMpls), (20, .popMpls), (21, .setQueue), (22, .group), (23, .setNwTtl), (24, fun _ => .decNwTtl), (26, .pushPbb), (27, fun _ => .popPbb)]

/-- Specification: what an action object stands for. -/
inductive ActMeans : RAct → Action → Prop
  | plain {type : Nat} {f : Nat → Action} (arg : Nat) : (type, f) ∈ wireActions → ActMeans (.plain type arg) (f arg)
  | num (key v : Nat) : ActMeans (.setField key (.num v)) (.setField key v)
  | text {key v : Nat} {t : List Char} : Ovs.Denotes (Ovs.kindOf key) t v → Ovs.kindOf key ≠ .num → ActMeans (.setField key (.text t)) (.setField key v)

/-- Specification: the packets that a flow message accepts: all its fields agree on the bits of their masks. -/
def RFlow.accepts (f : RFlow) (p : Pkt) : Prop := ∀ x ∈ f.mat.getD [], MatchesField p.hdr (x.field, beNum x.value, x.mask.map beNum)

/-- Specification: the instructions of a flow, at most one of each type. -/
structure Prog where
  apply : List Action
  clear : Bool
  write : List Action
  wmeta : Option (Nat × Nat)
  goto : Option Nat

/-- Specification: executing them (OpenFlow 1.3, 5.9). -/
def Prog.run (q : Prog) (s : St) : St where
  pkt := writeMeta (q.wmeta.map fun x => (x.1, some x.2)) (exec q.apply s.pkt).1
  sent := s.sent ++ (exec q.apply s.pkt).2
  writes := (if q.clear then [] else s.writes) ++ q.write

/-- Specification: the same state but for the order of the copies sent, and with the same action set. -/
structure SameState (s t : St) : Prop where
  pkt : s.pkt = t.pkt
  sent : s.sent.Perm t.sent
  set : (finalSet s.writes).Perm (finalSet t.writes)

/-- Specification: the actions of an instruction of type APPLY_ACTIONS (4). -/
def RInst.applied : RInst → Option (List RAct)
  | .actions 4 l => some l
  | _ => none

/-- Specification: the actions of an instruction of type WRITE_ACTIONS (3). -/
def RInst.written : RInst → Option (List RAct)
  | .actions 3 l => some l
  | _ => none

/-- Specification: value and mask of WRITE_METADATA. -/
def RInst.metadata : RInst → Option (Nat × Nat)
  | .wmeta v m => some (v, m)
  | _ => none

/-- Specification: the table of GOTO_TABLE. -/
def RInst.next : RInst → Option Nat
  | .goto t => some t
  | _ => none

/-- Specification: CLEAR_ACTIONS (5). -/
def RInst.clears : RInst → Bool
  | .actions 5 _ => true
  | _ => false

/-- Specification: a list of instructions means a program; OpenFlow allows one instruction of each type, of several the last one counts. -/
structure ProgOf (l : List RInst) (q : Prog) : Prop where
  apply : List.Forall₂ ActMeans ((l.filterMap RInst.applied).getLast?.getD []) q.apply
  write : List.Forall₂ ActMeans ((l.filterMap RInst.written).getLast?.getD []) q.write
  clear : q.clear = l.any RInst.clears
  wmeta : q.wmeta = (l.filterMap RInst.metadata).getLast?
  goto : q.goto = (l.filterMap RInst.next).getLast?

/-- Specification: an action object that can be read: it means an action on the fields of OpenFlow. -/
def Readable (a : RAct) : Prop := ∃ b, ActMeans a b ∧ b.known = true

/-- Specification: an instruction without meter whose actions can be read. -/
def RInst.Fine : RInst → Prop
  | .actions _ l => ∀ a ∈ l, Readable a
  | .meter _ => False
  | _ => True

end OFE.Ryu
