import Verif.Rule.Model

/-!
# Equality and hashes of rules

Model of `__eq__` and `__hash__` of `ofequivalence/rule.py`; `__ne__` is the negation everywhere.  Python's hashes of numbers, of
`None`, of tuples and of single actions are parameters.
-/

namespace OFE

/-- `Instructions.__eq__`, rule.py:912-922 -/
def Inst.eq (a b : Inst) : Bool :=
  a.goto == b.goto && a.wmeta == b.wmeta && a.clear == b.clear && a.apply.eq b.apply && a.write.eq b.write && a.meter == b.meter

/-- `Rule.__eq__`, rule.py:293-300 -/
def Rule.eq {π : Type} (a b : Rule π) : Bool :=
  a.priority == b.priority && a.cookie == b.cookie && a.mat.eq b.mat && a.inst.eq b.inst && a.table == b.table

/-- Python's `hash` on the values that occur (any functions): used by rule.py:285-291, 568, 1205. -/
structure Hashes where
  nat : Nat → Int
  none : Int
  tuple : List Int → Int
  action : Action → Int

/-- `hash` of a number or `None` (the cookie in rule.py:288). -/
def Hashes.opt (h : Hashes) : Option Nat → Int
  | .some n => h.nat n
  | .none => h.none

/-- `hash(tuple(self))` of an action list, rule.py:568, when nothing is cached. -/
def ActionList.hashOf (h : Hashes) (l : ActionList) : Int := h.tuple (l.iter.map h.action)

/-- `Match.__hash__`, rule.py:1204-1205 -/
def Match.hashOf (h : Hashes) (m : Match) : Except PyErr Int := do
  let (w, _) ← m.getWildcard
  return h.nat w

/-- `Instructions.__hash__`, rule.py:909-910 -/
def Inst.hashOf (_ : Inst) : Int := 0

/-- `Rule.__hash__`, rule.py:285-291 -/
def Rule.hashOf {π : Type} (h : Hashes) (r : Rule π) : Except PyErr Int := do
  let m ← r.mat.hashOf h
  return h.tuple [h.nat r.priority, h.opt r.cookie, m, r.inst.hashOf, h.nat r.table]

/-! ### Action lists with their caches -/

/-- An `ActionList` or `ActionSet` with `_hash` and the two `_per_output_actions`, rule.py:436-441. -/
structure Cached where
  list : ActionList
  memo : Option Int
  perPt : Option (List (OutKey × List Action))
  per : Option (List (OutKey × List Action))

/-- `ActionList()`, `ActionSet()`: rule.py:459-461 with the class attributes 439-441 -/
def Cached.empty : Cached := ⟨.empty, none, none, none⟩

/-- What can be done to a list: the methods of rule.py that change or read it. -/
inductive ListOp where
  | append (a : Action)
  | remove (a : Action)
  | replace (new : List Action)
  | dup
  | copy (add remove : List Action)
  | hash
  | perOutput (passThrough : Bool)

/-- The `append` of the class: `ActionList.append` rule.py:482-489 or `ActionSet.append` rule.py:828-875. -/
def appendOf (isSet : Bool) (l : ActionList) (a : Action) : Except PyErr ActionList :=
  if isSet then actionSetAppend l a else l.append a

/-- `append` with `invalidate_cache`, rule.py:464-467, 486, 832 -/
def Cached.append (isSet : Bool) (c : Cached) (a : Action) : Except PyErr Cached := do
  let l ← appendOf isSet c.list a
  return ⟨l, none, none, none⟩

/-- `remove`, rule.py:541-558 -/
def Cached.remove (c : Cached) (a : Action) : Except PyErr Cached := do
  let l ← c.list.remove a
  return ⟨l, none, none, none⟩

/-- `replace`, rule.py:571-578 -/
def Cached.replace (isSet : Bool) (new : List Action) : Except PyErr Cached := new.foldlM (Cached.append isSet) Cached.empty

/-- `__init__(dup=another list)`, rule.py:446-453: the caches are copied. -/
def Cached.dup (c : Cached) : Cached := ⟨c.list, c.memo, c.perPt, c.per⟩

/-- `copy(add, remove)`, rule.py:793-820 -/
def Cached.copy (isSet : Bool) (c : Cached) (add remove : List Action) : Except PyErr Cached :=
  if remove.length > 1 then do
    let new ← remove.foldlM (fun (acc : List Action) r =>
      if r ∈ acc then (Except.ok (acc.erase r) : Except PyErr _) else .error .valueError) c.list.orig
    Cached.replace isSet (new ++ add)
  else do
    let cpy ← remove.foldlM Cached.remove c.dup
    add.foldlM (Cached.append isSet) cpy

/-- `__hash__`, rule.py:560-569: the hash, and the list with the cache filled. -/
def Cached.hash (h : Hashes) (c : Cached) : Int × Cached :=
  match c.memo with
  | some v => (v, c)
  | none => (c.list.hashOf h, { c with memo := some (c.list.hashOf h) })

/-- Filling the two caches, rule.py:679-684: only `_per_output_actions` is tested. -/
def Cached.fill (c : Cached) : Except PyErr Cached :=
  match c.per with
  | some _ => .ok c
  | none => do
    let pt ← c.list.perOutputPt
    return { c with perPt := some pt, per := some (dictDel .pass pt) }

/-- `per_output_actions`, rule.py:671-687 -/
def Cached.perOutput (c : Cached) (passThrough : Bool) : Except PyErr (Option (List (OutKey × List Action)) × Cached) := do
  let c ← c.fill
  return (if passThrough then c.perPt else c.per, c)

/-- One step. -/
def Cached.step (h : Hashes) (isSet : Bool) (c : Cached) : ListOp → Except PyErr Cached
  | .append a => c.append isSet a
  | .remove a => c.remove a
  | .replace new => Cached.replace isSet new
  | .dup => .ok c.dup
  | .copy add remove => c.copy isSet add remove
  | .hash => .ok (c.hash h).2
  | .perOutput pt => do return (← c.perOutput pt).2

/-- A series of steps on a new list. -/
def Cached.runOps (h : Hashes) (isSet : Bool) (ops : List ListOp) : Except PyErr Cached :=
  ops.foldlM (Cached.step h isSet) Cached.empty

end OFE
