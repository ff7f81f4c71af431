import Verif.Match.Spec
import Verif.Actions.Sem
import Verif.Rule.Model
import Verif.Match.MatchLemmas

/-!
# Specification: rules acting on packets

A packet `Pkt` (header stacks) is seen by matches through its header bits `Pkt.hdr`.
-/

namespace OFE

instance (x : Action) : Decidable (∃ n, x = .output n) :=
  match x with
  | .output n => isTrue ⟨n, rfl⟩
  | .copyTtlIn | .popVlan | .popPbb | .popMpls _ | .pushMpls _ | .pushPbb _ | .pushVlan _ | .copyTtlOut | .decMplsTtl | .decNwTtl
  | .setField .. | .setMplsTtl _ | .setNwTtl _ | .setQueue _ | .group _ => isFalse (by simp)

instance (x : Action) : Decidable (∃ g, x = .group g) :=
  match x with
  | .group g => isTrue ⟨g, rfl⟩
  | .copyTtlIn | .popVlan | .popPbb | .popMpls _ | .pushMpls _ | .pushPbb _ | .pushVlan _ | .copyTtlOut | .decMplsTtl | .decNwTtl
  | .setField .. | .setMplsTtl _ | .setNwTtl _ | .setQueue _ | .output _ => isFalse (by simp)

/-- Which field of which header the position `g` of the layout shows: the 40 OpenFlow fields show the outermost headers, then come the
second and third headers of the 8 tunnel fields (VLAN_VID, VLAN_PCP, MPLS_LABEL, MPLS_TC, MPLS_BOS, ETH_DST, ETH_SRC, PBB_ISID). -/
def shown (g : Nat) : Nat × Nat :=
  if g < 40 then (g, 0) else ([6, 7, 34, 35, 36, 3, 4, 37].getD ((g - 40) / 2) 0, (g - 40) % 2 + 1)

/-- The header bits of a packet. -/
def Pkt.hdr (p : Pkt) : Packet := fun k =>
  match (List.range 56).find? fun g => decide (fieldPos g ≤ k ∧ k < fieldPos g + width g) with
  | some g => (p.fld (shown g).1 (shown g).2).testBit (k - fieldPos g)
  | none => false

/-- A rule's match accepts a packet. -/
def Match.accepts (m : Match) (p : Pkt) : Prop := MatchesAll m.items p.hdr

/-- Writing the metadata register (field 2): the bits of the mask are replaced. -/
def writeMeta (w : MetaW) (p : Pkt) : Pkt :=
  match w with
  | none => p
  | some (v, none) => { p with fld := fun g d => if g = 2 ∧ d = 0 then v else p.fld g d }
  | some (v, some m) => { p with fld := fun g d => if g = 2 ∧ d = 0 then (v &&& m) ||| andNot (p.fld 2 0) m else p.fld g d }

/-- The packet that a rule hands to the next table. -/
def Inst.forward (i : Inst) (p : Pkt) : Pkt := writeMeta i.wmeta (exec i.apply.iter p).1

/-- The apply-actions neither add nor remove headers, and do not set the metadata register (which OpenFlow does not allow). -/
def FlatActs (l : List Action) : Prop :=
  ∀ a ∈ l, a.pushes = none ∧ a.pops = none ∧ ∀ v, a ≠ .setField 2 v

/-- A rule as the code builds it: a proper match on the 40 OpenFlow fields, an `ActionList` and an `ActionSet` built by appending
actions that have a dependency table entry. -/
structure RuleOK {π : Type} (r : Rule π) : Prop where
  inv : r.mat.Inv
  keys : ∀ x ∈ r.mat.items, x.1 < 40
  apply : ∃ s, (∀ a ∈ s, a.known = true) ∧ ActionList.ofList s = .ok r.inst.apply
  write : ∃ s, (∀ a ∈ s, a.known = true) ∧ actionSetOfList s = .ok r.inst.write

/-- What is left of a series of writes into an action set: a write displaces an earlier one of the same type (for set-fields: of the
same field). -/
def lastWrites : List Action → List Action
  | [] => []
  | x :: rest => if rest.any (fun y => decide (y.toType = x.toType)) then lastWrites rest else x :: lastWrites rest

/-- The list that is executed for an action set (OpenFlow 1.3, 5.10): ordered by type, and without OUTPUT if there is a GROUP. -/
def finalSet (writes : List Action) : List Action :=
  let kept := (lastWrites writes).filter fun x =>
    !(decide (∃ n, x = .output n) && (lastWrites writes).any fun y => decide (∃ g, y = .group g))
  (List.range 16).flatMap fun t => kept.filter fun x => decide (x.ty = t)

/-- A switch between two tables: the packet, the copies sent so far, and the writes into the action set since it was last empty. -/
structure St where
  pkt : Pkt
  sent : List (Dest × Pkt)
  writes : List Action

/-- Executing the instructions of a rule (OpenFlow 1.3, 5.9): apply-actions, clear-actions, write-actions, write-metadata. -/
def Inst.run (i : Inst) (s : St) : St where
  pkt := i.forward s.pkt
  sent := s.sent ++ (exec i.apply.iter s.pkt).2
  writes := (if i.clear then [] else s.writes) ++ i.write.iter

/-- The copies sent once the action set is executed at the end of the pipeline. -/
def St.finish (s : St) : List (Dest × Pkt) := s.sent ++ (exec (finalSet s.writes) s.pkt).2

/-- What of a packet leaves the switch: everything but the metadata register. -/
def wire (p : Pkt) : Pkt := { p with fld := fun g d => if g = 2 ∧ d = 0 then 0 else p.fld g d }

/-- The same packets to the same places, in any order. -/
def SameSent (s t : List (Dest × Pkt)) : Prop := (s.map fun x => (x.1, wire x.2)).Perm (t.map fun x => (x.1, wire x.2))

/-- The action does not set the metadata register (OpenFlow has an instruction for that). -/
def NoMeta (l : List Action) : Prop := ∀ v, Action.setField 2 v ∉ l

end OFE
