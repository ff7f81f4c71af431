import Verif.Actions.Redundant
import Verif.Actions.Sem

/-!
# The per-output view of actions with groups

`_per_output_actions_list` (rule.py:689-712) with its GROUP branch.  A GROUP action names its `Group` object by a number, `heap` has the objects; a
bucket is the list of actions that iterating it gives.  A `Group` is built from finished buckets, so the nesting is finite; the fuel bounds its depth.
-/

namespace OFE

/-- The values of `Group.type_` (rule.py:1025) of OpenFlow 1.3; the code under consideration does not look at it. -/
inductive GType where
  | all | select | indirect | ff
deriving DecidableEq, Repr

/-- `Group`, rule.py:1021-1062: `type_` and what iterating each of the buckets (`Bucket`, an `ActionSet`) gives. -/
structure GroupVal where
  type : GType
  buckets : List (List Action)
deriving DecidableEq, Repr

/-- `group_res.update(...)`, rule.py:705 -/
def dictUpdate {κ ν : Type} [DecidableEq κ] (d upd : List (κ × ν)) : List (κ × ν) := upd.foldl (fun d x => dictSet x.1 x.2 d) d

/-- The loop over the buckets, rule.py:704-705; `view` is the recursive call. -/
def bucketsView (view : List Action → Except PyErr (List (OutKey × ActionList))) :
    List (List Action) → List (OutKey × ActionList) → Except PyErr (List (OutKey × ActionList))
  | [], acc => .ok acc
  | b :: bs, acc => do
    let r ← view b
    bucketsView view bs (dictUpdate acc r)

/-- `for k, v in viewitems(group_res): res[k] = current_state + v`, rule.py:706-707 -/
def mergeView (cur : ActionList) : List (OutKey × ActionList) → List (OutKey × ActionList) → Except PyErr (List (OutKey × ActionList))
  | [], res => .ok res
  | (k, v) :: gr, res => do
    let w ← cur.add v
    mergeView cur gr (dictSet k w res)

/-- The loop of `_per_output_actions_list`, rule.py:698-709; `grp` is lines 703-705 for a group. -/
def perOutputLoopG (grp : Nat → Except PyErr (List (OutKey × ActionList))) :
    List Action → ActionList → List (OutKey × ActionList) → Except PyErr (List (OutKey × ActionList) × ActionList)
  | [], cur, res => .ok (res, cur)
  | .output n :: xs, cur, res => do
    let v ← cur.append (.output n)
    perOutputLoopG grp xs cur (dictSet (.port n) v res)
  | .group g :: xs, cur, res => do
    let gr ← grp g
    let res ← mergeView cur gr res
    perOutputLoopG grp xs cur res
  | a :: xs, cur, res => do
    let cur ← cur.append a
    perOutputLoopG grp xs cur res

/-- Lines 703-705 of rule.py: `action[1].buckets` is an `AttributeError` for a bare number. -/
def groupRes (heap : Nat → Option GroupVal) (view : List Action → Except PyErr (List (OutKey × ActionList))) (g : Nat) :
    Except PyErr (List (OutKey × ActionList)) :=
  match heap g with
  | none => .error .attributeError
  | some G => bucketsView view G.buckets []

/-- `_per_output_actions_list`, rule.py:689-712, of a list that iterates as `xs`, the groups nested at most `k` deep. -/
def perOutputIter (heap : Nat → Option GroupVal) : Nat → List Action → Except PyErr (List (OutKey × ActionList))
  | 0, xs => do
    let x ← perOutputLoopG (fun _ => .error .fuel) xs ActionList.empty []
    return dictSet .pass x.2 x.1
  | k + 1, xs => do
    let x ← perOutputLoopG (groupRes heap (perOutputIter heap k)) xs ActionList.empty []
    return dictSet .pass x.2 x.1

/-- `per_output_actions(pass_through=True)`, rule.py:671-687; the frozenset is the list up to order. -/
def ActionList.perOutputPtG (heap : Nat → Option GroupVal) (k : Nat) (l : ActionList) : Except PyErr (List (OutKey × List Action)) := do
  perOutputItems (← perOutputIter heap k l.iter)

/-- `per_output_actions()`, rule.py:671-687 -/
def ActionList.perOutputG (heap : Nat → Option GroupVal) (k : Nat) (l : ActionList) : Except PyErr (List (OutKey × List Action)) := do
  return dictDel .pass (← l.perOutputPtG heap k)

/-- `equiv_equal`, rule.py:714-719 -/
def ActionList.equivEqualG (heap : Nat → Option GroupVal) (k : Nat) (a b : ActionList) : Except PyErr Bool := do
  return sameItems (← a.perOutputG heap k) (← b.perOutputG heap k)

/-! ### Specification -/

/-- Specification: an ALL group sends a copy of the packet through every bucket (an INDIRECT one has a single bucket). -/
def GroupVal.RunsAll (G : GroupVal) : Prop := G.type = .all ∨ G.type = .indirect

/-- Specification: the buckets that a group runs; a SELECT or FF group runs only that one which the switch picks. -/
def GroupVal.run (G : GroupVal) (pick : Nat) : List (List Action) :=
  if G.type = .all ∨ G.type = .indirect then G.buckets else (G.buckets[pick]?).toList

section
variable [Writes]

/-- Specification: what becomes of a copy of the packet that is sent to a port or a group; `pick g` is the bucket that the switch picks of a SELECT or FF
group `g`.  Groups nested deeper than `k` send nothing. -/
def deliver (heap : Nat → Option GroupVal) (pick : Nat → Nat) : Nat → Dest × Pkt → List (Dest × Pkt)
  | _, (.port n, q) => [(.port n, q)]
  | 0, (.group _, _) => []
  | k + 1, (.group g, q) =>
    match heap g with
    | none => []
    | some G => (G.run (pick g)).flatMap fun b => (exec b q).2.flatMap (deliver heap pick k)

/-- Specification: the copies that leave the switch when the actions are applied to a packet. -/
def sentG (heap : Nat → Option GroupVal) (pick : Nat → Nat) (k : Nat) (s : List Action) (p : Pkt) : List (Dest × Pkt) :=
  (exec s p).2.flatMap (deliver heap pick k)

end

/-- Specification: the actions of a list with its groups replaced by the actions in their buckets.  Groups that are not known or nested deeper than `k` stay. -/
def reached (heap : Nat → Option GroupVal) : Nat → List Action → List Action
  | 0, xs => xs
  | k + 1, xs => xs.flatMap fun a =>
    match a with
    | .group g => match heap g with
      | none => [.group g]
      | some G => G.buckets.flatMap (reached heap k)
    | a => [a]

end OFE
