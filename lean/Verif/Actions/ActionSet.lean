import Verif.Actions.Model

/-! # Model of `ActionSet` (rule.py:823-875) -/

namespace OFE

/-- Outcome of the loop at rule.py:834-850. -/
inductive ScanRes where
  | none
  | rem (x : Action)
  | ret
deriving DecidableEq, Repr

/-- Same type, and for set-fields the same field: rule.py:835-842. -/
def sameSlot (a x : Action) : Bool :=
  a.ty == x.ty && match a, x with | .setField f _, .setField g _ => f == g | _, _ => true

/-- `type_ == "GROUP"`, rule.py:844-847 -/
def Action.isGroup : Action → Bool
  | .group _ => true
  | _ => false

/-- `type_ == "OUTPUT"`, rule.py:844-847 -/
def Action.isOutput : Action → Bool
  | .output _ => true
  | _ => false

/-- The loop over the set, rule.py:834-850. -/
def setScan (a : Action) : List Action → ScanRes
  | [] => .none
  | x :: xs =>
    if sameSlot a x then .rem x
    else if a.ty == x.ty then setScan a xs
    else if a.isGroup && x.isOutput then .rem x
    else if a.isOutput && x.isGroup then .ret
    else setScan a xs

/-- `l[l.index(rem)] = item` -/
def replaceFirst (rem item : Action) : List Action → List Action
  | [] => []
  | y :: ys => if y = rem then item :: ys else y :: replaceFirst rem item ys

/-- The loop over the levels, rule.py:856-861. -/
def replaceLevels (rem item : Action) : List (List Action) → List (List Action)
  | [] => []
  | v :: vs => if rem ∈ v then replaceFirst rem item v :: vs else v :: replaceLevels rem item vs

/-- `sort(key=action_set_order.index(x[0]))`, rule.py:868-873: python's sort is stable, so any stable sort gives the same list. -/
def sortByType (l : List Action) : List Action := l.foldl (fun acc x => insort (fun a b => decide (a.ty < b.ty)) x acc) []

/-- `ActionSet.append`, rule.py:828-875 -/
def actionSetAppend (l : ActionList) (item : Action) : Except PyErr ActionList :=
  match setScan item l.iter with
  | .ret => .ok l
  | .rem rem => .ok ⟨replaceLevels rem item l.levels, replaceFirst rem item l.orig⟩
  | .none => do
    let orig := sortByType (l.orig ++ [item])
    let levels ← orig.foldlM ActionList._append []
    return ⟨levels, orig⟩

/-- `ActionSet(dup=[...])` -/
def actionSetOfList (s : List Action) : Except PyErr ActionList := s.foldlM actionSetAppend ActionList.empty

end OFE
