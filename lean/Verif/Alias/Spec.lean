import Verif.Alias.Model

/-!
# Action lists as values

Specification for `Alias/Model`: a world is a list of values, one for each object, and every operation replaces one value or adds one.
Nothing can be shared.
-/

namespace OFE.Alias

/-- Specification: the end of an operation on a value. -/
abbrev VRes := ActionList × Option PyErr

/-- Specification: one item put into its level; levels as they were if a dependency is unknown. -/
def vPut (l : ActionList) (i : Action) : VRes :=
  match ActionList._append l.levels i with
  | .ok lv => (⟨lv, l.orig⟩, none)
  | .error e => (l, some e)

/-- Specification: `append` of an action list. -/
def vListAppend (l : ActionList) (i : Action) : VRes :=
  match l.append i with
  | .ok m => (m, none)
  | .error e => (l, some e)

/-- Specification: `append` of an action set; if putting the sorted items into levels fails then those before stay. -/
def vSetAppend (l : ActionList) (i : Action) : VRes :=
  match setScan i l.iter with
  | .ret => (l, none)
  | .rem rem => (⟨replaceLevels rem i l.levels, replaceFirst rem i l.orig⟩, none)
  | .none => loop vPut ⟨[], sortByType (l.orig ++ [i])⟩ (sortByType (l.orig ++ [i]))

/-- Specification: `append` by class. -/
def vAppend (isSet : Bool) (l : ActionList) (i : Action) : VRes := if isSet then vSetAppend l i else vListAppend l i

/-- Specification: `remove`; the item leaves the original order and the levels from its own on are filled again. -/
def vRemove (l : ActionList) (x : Action) : VRes :=
  if x ∈ l.orig then
    match findLevel x l.levels with
    | none => (⟨l.levels, l.orig.erase x⟩, some .valueError)
    | some (k, offset) => loop vPut ⟨l.levels.take k, l.orig.erase x⟩ ((l.orig.erase x).drop offset)
  else (l, some .valueError)

/-- Specification: a world of values with their classes. -/
abbrev World := List (Bool × ActionList)

/-- Specification: the value of an object. -/
def World.get (w : World) (k : Nat) : Bool × ActionList := w.getD k (false, .empty)

/-- Specification: the items of a source at this moment. -/
def World.items (w : World) : Src → List Action
  | .items xs => xs
  | .obj k => (w.get k).2.iter

/-- Specification: one value replaced. -/
def World.put (w : World) (j : Nat) (r : VRes) : World × Option PyErr := (w.set j ((w.get j).1, r.1), r.2)

/-- Specification: one value added. -/
def World.add (w : World) (isSet : Bool) (r : VRes) : World × Option PyErr := (w ++ [(isSet, r.1)], r.2)

/-- Specification: `copy` of a value: the first of each item to remove is taken out, and the rest is added. -/
def vCopy (isSet : Bool) (l : ActionList) (add remove : List Action) : Except PyErr VRes :=
  if remove.length > 1 then do
    let new ← remove.foldlM (fun (acc : List Action) r =>
      if r ∈ acc then (Except.ok (acc.erase r) : Except PyErr _) else .error .valueError) l.orig
    return loop (vAppend isSet) ActionList.empty (new ++ add)
  else .ok (match loop vRemove l remove with
    | (m, none) => loop (vAppend isSet) m add
    | r => r)

/-- Specification: an operation on values. -/
def World.step (w : World) : Op → World × Option PyErr
  | .new c => w.add c (.empty, none)
  | .ofList c xs => w.add c (loop (vAppend c) ActionList.empty xs)
  | .dup c k => w.add c ((w.get k).2, none)
  | .append j i => w.put j (vAppend (w.get j).1 (w.get j).2 i)
  | .remove j x => w.put j (vRemove (w.get j).2 x)
  | .replace j new => w.put j (loop (vAppend (w.get j).1) ActionList.empty (w.items new))
  | .iadd j other => w.put j (loop (vAppend (w.get j).1) (w.get j).2 (w.items other))
  | .copy j add remove => match vCopy (w.get j).1 (w.get j).2 (w.items add) remove with
    | .ok r => w.add (w.get j).1 r
    | .error e => (w, some e)

/-- Specification: a program on values. -/
def World.run : World → List Op → World × List (Option PyErr)
  | w, [] => (w, [])
  | w, op :: ops =>
    if op.refs.all (· < w.length) then
      let r := w.step op
      let q := World.run r.1 ops
      (q.1, r.2 :: q.2)
    else
      let q := World.run w ops
      (q.1, some .nameError :: q.2)

/-- Specification: the values of all objects. -/
def Heap.world (s : Heap) : World := (List.range s.nobjs).map fun j => ((s.objs j).isSet, s.val j)

end OFE.Alias
