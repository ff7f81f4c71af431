import Verif.Actions.ActionSet

/-!
# Action lists as python objects

In `Actions/Model` an action list is a value.  Here the python lists that it is made of — the level lists, the list `action_levels` of
them, and `orig_order` — are separate objects in a store and are referred to by number, so that two action lists could share one.  Each
operation changes lists in place, makes new ones or keeps references exactly as the code does.  An exception leaves the store as it was
when it was raised.  The cached hash and per-output actions are immutable values and are the subject of `Rule/Equality`.
-/

namespace OFE.Alias

/-- An `ActionList` or `ActionSet` object, rule.py:431-441: references to `action_levels` and `orig_order`, and its class. -/
structure Obj where
  lv : Nat
  ord : Nat
  isSet : Bool
deriving DecidableEq, Repr

/-- All lists and objects: lists of actions (`rows`: levels and `orig_order`s), lists of references to levels (`outers`: the values of
`action_levels`), and action lists.  Cells from the counters upwards are unused.  Created by rule.py:443-461. -/
structure Heap where
  rows : Nat → List Action
  nrows : Nat
  outers : Nat → List Nat
  nouters : Nat
  objs : Nat → Obj
  nobjs : Nat

/-- Nothing created yet (before the first call of rule.py:443). -/
def Heap.init : Heap := ⟨fun _ => [], 0, fun _ => [], 0, fun _ => ⟨0, 0, false⟩, 0⟩

/-- Writing one cell of a store (python's assignment to an attribute or to a list in place; used throughout rule.py:443-579). -/
def upd {α : Type} (f : Nat → α) (i : Nat) (x : α) : Nat → α := fun k => if k = i then x else f k

/-- A list of actions changed in place. -/
def Heap.setRow (s : Heap) (r : Nat) (x : List Action) : Heap := ⟨upd s.rows r x, s.nrows, s.outers, s.nouters, s.objs, s.nobjs⟩

/-- A new list of actions; its reference is the old `nrows`. -/
def Heap.newRow (s : Heap) (x : List Action) : Heap := ⟨upd s.rows s.nrows x, s.nrows + 1, s.outers, s.nouters, s.objs, s.nobjs⟩

/-- An `action_levels` list changed in place. -/
def Heap.setOuter (s : Heap) (o : Nat) (x : List Nat) : Heap := ⟨s.rows, s.nrows, upd s.outers o x, s.nouters, s.objs, s.nobjs⟩

/-- A new list of levels; its reference is the old `nouters`. -/
def Heap.newOuter (s : Heap) (x : List Nat) : Heap := ⟨s.rows, s.nrows, upd s.outers s.nouters x, s.nouters + 1, s.objs, s.nobjs⟩

/-- Assignment to the attributes of an object. -/
def Heap.setObj (s : Heap) (j : Nat) (o : Obj) : Heap := ⟨s.rows, s.nrows, s.outers, s.nouters, upd s.objs j o, s.nobjs⟩

/-- A new object; its reference is the old `nobjs`. -/
def Heap.newObj (s : Heap) (o : Obj) : Heap := ⟨s.rows, s.nrows, s.outers, s.nouters, upd s.objs s.nobjs o, s.nobjs + 1⟩

/-- What an object holds: the lists its references lead to. -/
def Heap.val (s : Heap) (j : Nat) : ActionList := ⟨(s.outers (s.objs j).lv).map s.rows, s.rows (s.objs j).ord⟩

/-- The end of a call: the store, and the exception if one was raised. -/
abbrev Res := Heap × Option PyErr

/-- `for x in xs: body(x)`, left at the first exception. -/
def loop {σ α : Type} (f : σ → α → σ × Option PyErr) : σ → List α → σ × Option PyErr
  | s, [] => (s, none)
  | s, x :: xs => match f s x with
    | (t, none) => loop f t xs
    | (t, some e) => (t, some e)

/-- The place at which `_append` inserts, rule.py:471-477: `deepest_dep + 1`. -/
def place (levels : List (List Action)) (i : Action) : Nat :=
  match deepest dependsB i 0 levels none with | none => 0 | some l => l + 1

/-- `_append`, rule.py:469-480: a new level list at the end of `action_levels`, or `insort` into a level list in place. -/
def Heap._append (s : Heap) (j : Nat) (i : Action) : Res :=
  let levels := (s.val j).levels
  if levels.flatten.any fun item => match depends item i with | .error _ => true | .ok _ => false then (s, some .keyError)
  else
    let o := (s.objs j).lv
    match (s.outers o)[place levels i]? with
    | none => ((s.newRow [i]).setOuter o (s.outers o ++ [s.nrows]), none)
    | some r => (s.setRow r (insort Action.lt i (s.rows r)), none)

/-- `ActionList.append`, rule.py:482-489 -/
def Heap.listAppend (s : Heap) (j : Nat) (i : Action) : Res :=
  match s._append j i with
  | (t, none) => (t.setRow (t.objs j).ord (t.rows (t.objs j).ord ++ [i]), none)
  | r => r

/-- `level[level.index(rem)] = item` in the first level that has it, rule.py:856-861. -/
def replaceIn (rows : Nat → List Action) (rem item : Action) : List Nat → Nat → List Action
  | [] => rows
  | r :: rs => if rem ∈ rows r then upd rows r (replaceFirst rem item (rows r)) else replaceIn rows rem item rs

/-- `ActionSet.append`, rule.py:828-875.  The new, empty `action_levels` is a new list. -/
def Heap.setAppend (s : Heap) (j : Nat) (item : Action) : Res :=
  let o := s.objs j
  match setScan item (s.val j).iter with
  | .ret => (s, none)
  | .rem rem =>
    let t := s.setRow o.ord (replaceFirst rem item (s.rows o.ord))
    (⟨replaceIn t.rows rem item (t.outers o.lv), t.nrows, t.outers, t.nouters, t.objs, t.nobjs⟩, none)
  | .none =>
    let t := s.setRow o.ord (s.rows o.ord ++ [item])
    let t := (t.newOuter []).setObj j ⟨t.nouters, o.ord, o.isSet⟩
    let t := t.setRow o.ord (sortByType (t.rows o.ord))
    loop (fun u x => u._append j x) t (t.rows o.ord)

/-- `append` of the object's class. -/
def Heap.append (s : Heap) (j : Nat) (i : Action) : Res :=
  if (s.objs j).isSet then s.setAppend j i else s.listAppend j i

/-- The first level that has `x`, and the number of actions before it: the loop rule.py:546-555. -/
def findLevel (x : Action) : List (List Action) → Option (Nat × Nat)
  | [] => none
  | v :: rest => if x ∈ v then some (0, 0) else (findLevel x rest).map fun p => (p.1 + 1, p.2 + v.length)

/-- `remove`, rule.py:541-558: `action_levels` becomes a new list that has the first level lists of the old one. -/
def Heap.remove (s : Heap) (j : Nat) (x : Action) : Res :=
  let o := s.objs j
  if x ∈ s.rows o.ord then
    let t := s.setRow o.ord ((s.rows o.ord).erase x)
    match findLevel x (t.val j).levels with
    | none => (t, some .valueError)
    | some (l, offset) =>
      let t := (t.newOuter ((t.outers o.lv).take l)).setObj j ⟨t.nouters, o.ord, o.isSet⟩
      loop (fun u a => u._append j a) t ((t.rows o.ord).drop offset)
  else (s, some .valueError)

/-- What is iterated over: a plain list or tuple of actions, or an action list object. -/
inductive Src where
  | items (xs : List Action)
  | obj (k : Nat)
deriving DecidableEq, Repr

/-- `for x in other: body(x)` over a live action list, rule.py:494-498 and 501-502: the generator holds the list `action_levels` (`o`) as
it was bound at the start, and positions `a` in it and `b` in the level; both lists are looked at again at every step.  Lists of
levels are only ever appended to in place, so that the level at a position stays the same list object.  The first argument bounds the
number of steps. -/
def feed (f : Heap → Action → Res) : Nat → Heap → (o a b : Nat) → Res
  | 0, s, _, _, _ => (s, some .fuel)
  | n + 1, s, o, a, b => match (s.outers o)[a]? with
    | none => (s, none)
    | some r => match (s.rows r)[b]? with
      | none => feed f n s o (a + 1) 0
      | some x => match f s x with
        | (t, none) => feed f n t o a (b + 1)
        | (t, some e) => (t, some e)

/-- `for x in source: self.append(*x)`: rule.py:500-503, 577-578, 818-819. -/
def Heap.appendAll (fuel : Nat) (s : Heap) (j : Nat) : Src → Res
  | .items xs => loop (fun u x => u.append j x) s xs
  | .obj k => feed (fun u x => u.append j x) fuel s (s.objs k).lv 0 0

/-- `replace`, rule.py:571-578: two new lists, then appending. -/
def Heap.replace (fuel : Nat) (s : Heap) (j : Nat) (new : Src) : Res :=
  let t := ((s.newRow []).newOuter []).setObj j ⟨s.nouters, s.nrows, (s.objs j).isSet⟩
  t.appendAll fuel j new

/-- `ActionList()`, `ActionSet()`: rule.py:459-461. -/
def Heap.create (s : Heap) (isSet : Bool) : Heap := ((s.newRow []).newOuter []).newObj ⟨s.nouters, s.nrows, isSet⟩

/-- `[x[:] for x in levels]`, rule.py:447: a new list for each level; the references to them. -/
def Heap.copyRows : Heap → List Nat → Heap × List Nat
  | s, [] => (s, [])
  | s, r :: rs =>
    let p := Heap.copyRows (s.newRow (s.rows r)) rs
    (p.1, s.nrows :: p.2)

/-- `ActionList(dup=another)`, `ActionSet(dup=another)`: rule.py:446-453. -/
def Heap.dup (s : Heap) (isSet : Bool) (k : Nat) : Heap :=
  let p := s.copyRows (s.outers (s.objs k).lv)
  let t := p.1.newRow (s.rows (s.objs k).ord)
  (t.newOuter p.2).newObj ⟨t.nouters, p.1.nrows, isSet⟩

/-- `list(add)` -/
def Src.list (s : Heap) : Src → List Action
  | .items xs => xs
  | .obj k => (s.val k).iter

/-- `copy(add, remove)`, rule.py:793-820.  An object whose construction raised stays in the store, but nobody has a reference to it. -/
def Heap.copy (fuel : Nat) (s : Heap) (j : Nat) (add : Src) (remove : List Action) : Res :=
  let c := (s.objs j).isSet
  if remove.length > 1 then
    match remove.foldlM (fun (acc : List Action) r =>
      if r ∈ acc then (Except.ok (acc.erase r) : Except PyErr _) else .error .valueError) (s.rows (s.objs j).ord) with
    | .error e => (s, some e)
    | .ok new => (s.create c).appendAll fuel s.nobjs (.items (new ++ add.list s))
  else
    match loop (fun u r => u.remove s.nobjs r) (s.dup c j) remove with
    | (t, none) => t.appendAll fuel s.nobjs add
    | r => r

/-- The operations on action lists.  `ofList` is `ActionList(dup=[...])`, rule.py:454-458. -/
inductive Op where
  | new (isSet : Bool)
  | ofList (isSet : Bool) (xs : List Action)
  | dup (isSet : Bool) (k : Nat)
  | append (j : Nat) (i : Action)
  | remove (j : Nat) (x : Action)
  | replace (j : Nat) (new : Src)
  | iadd (j : Nat) (other : Src)
  | copy (j : Nat) (add : Src) (remove : List Action)
deriving DecidableEq, Repr

/-- The operation, rule.py:443-579 and 793-875. -/
def Heap.step (fuel : Nat) (s : Heap) : Op → Res
  | .new c => (s.create c, none)
  | .ofList c xs => (s.create c).appendAll fuel s.nobjs (.items xs)
  | .dup c k => (s.dup c k, none)
  | .append j i => s.append j i
  | .remove j x => s.remove j x
  | .replace j new => s.replace fuel j new
  | .iadd j other => s.appendAll fuel j other
  | .copy j add remove => s.copy fuel j add remove

/-- The objects an operation refers to. -/
def Op.refs : Op → List Nat
  | .new _ | .ofList _ _ => []
  | .dup _ k => [k]
  | .append j _ | .remove j _ => [j]
  | .replace j (.obj k) | .iadd j (.obj k) | .copy j (.obj k) _ => [j, k]
  | .replace j _ | .iadd j _ | .copy j _ _ => [j]

/-- The object that the operation is meant to change. -/
def Op.target : Op → Option Nat
  | .append j _ | .remove j _ | .replace j _ | .iadd j _ => some j
  | _ => none

/-- The operation hands an object to itself: `a += a` or `a.replace(a)`. -/
def Op.self : Op → Bool
  | .replace j (.obj k) | .iadd j (.obj k) => j == k
  | _ => false

/-- A program: operations one after the other; exceptions are caught and noted.  An operation on an object that does not exist cannot be
written in python (there is no reference to it) and is a `NameError`. -/
def Heap.run (fuel : Nat) : Heap → List Op → Heap × List (Option PyErr)
  | s, [] => (s, [])
  | s, op :: ops =>
    if op.refs.all (· < s.nobjs) then
      let r := s.step fuel op
      let q := Heap.run fuel r.1 ops
      (q.1, r.2 :: q.2)
    else
      let q := Heap.run fuel s ops
      (q.1, some .nameError :: q.2)

end OFE.Alias
