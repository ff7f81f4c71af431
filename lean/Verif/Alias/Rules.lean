import Verif.Alias.Spec
import Verif.Rule.Model

/-!
# Rules as python objects

A rule refers to a `Match` and an `Instructions` object, and the latter to two action lists of `Alias/Model`.
-/

namespace OFE.Alias

/-- An `Instructions` object, rule.py:878-891: references to its action list and action set, and its plain attributes. -/
structure InstObj where
  ap : Nat
  wr : Nat
  goto : Option Nat
  wmeta : MetaW
  clear : Bool
  meter : Option Nat
deriving DecidableEq, Repr

/-- A `Rule` object, rule.py:113-124: references to its match and instructions, and its plain attributes (`path` is a tuple). -/
structure RuleObj (π : Type) where
  mat : Nat
  inst : Nat
  priority : Nat
  cookie : Option Nat
  table : Nat
  path : List π
deriving DecidableEq, Repr

/-- All objects.  A `Match` is a dict of tuples and holds no other changeable object (rule.py:1066-1098). -/
structure Store (π : Type) where
  heap : Heap
  mats : Nat → Match
  nmats : Nat
  insts : Nat → InstObj
  ninsts : Nat
  rules : Nat → RuleObj π
  nrules : Nat

/-- One of the two action lists of a rule. -/
inductive Part where
  | apply
  | write
deriving DecidableEq, Repr

/-- A source for `replace` and `+=`: plain actions, or the actions of a rule. -/
inductive RSrc where
  | items (xs : List Action)
  | part (i : Nat) (p : Part)
deriving DecidableEq, Repr

/-- What is done to an action list. -/
inductive ListAct where
  | append (a : Action)
  | remove (a : Action)
  | replace (new : RSrc)
  | iadd (other : RSrc)
deriving DecidableEq, Repr

/-- The operations on rules: `Rule(...)`, `copy()`, a method of `rule.instructions.apply_actions` or `write_actions`, assignment to the plain
attributes of `rule.instructions`, the methods of `rule.match`, and merging with the given match and metadata. -/
inductive RuleOp where
  | new (priority : Nat) (cookie : Option Nat) (table : Nat)
  | copy (i : Nat)
  | act (i : Nat) (p : Part) (a : ListAct)
  | setInst (i : Nat) (goto : Option Nat) (wmeta : MetaW) (clear : Bool) (meter : Option Nat)
  | matAppend (i : Nat) (f v : Nat) (mask : Option Nat)
  | matDel (i : Nat) (f : Nat)
  | merge (a b : Nat) (m : Match) (wmeta : MetaW)

variable {π : Type}

/-- Nothing created yet (before the first call of rule.py:126). -/
def Store.init : Store π :=
  ⟨.init, fun _ => .empty, 0, fun _ => ⟨0, 0, none, none, false, none⟩, 0, fun _ => ⟨0, 0, 0, none, 0, []⟩, 0⟩

/-- `rule.instructions` -/
def Store.instOf (s : Store π) (i : Nat) : InstObj := s.insts (s.rules i).inst

/-- `rule.instructions.apply_actions`, `rule.instructions.write_actions` -/
def Store.part (s : Store π) (i : Nat) : Part → Nat
  | .apply => (s.instOf i).ap
  | .write => (s.instOf i).wr

/-- The same store with other lists. -/
def Store.withHeap (s : Store π) (h : Heap) : Store π := ⟨h, s.mats, s.nmats, s.insts, s.ninsts, s.rules, s.nrules⟩

/-- A new rule made of a new match and new instructions, rule.py:126-152. -/
def Store.addRule (s : Store π) (h : Heap) (m : Match) (i : InstObj) (r : RuleObj π) : Store π :=
  ⟨h, upd s.mats s.nmats m, s.nmats + 1, upd s.insts s.ninsts i, s.ninsts + 1,
    upd s.rules s.nrules ⟨s.nmats, s.ninsts, r.priority, r.cookie, r.table, r.path⟩, s.nrules + 1⟩

/-- `Rule(priority, cookie, table)`, rule.py:136-149 with `Instructions()`, rule.py:904-906. -/
def Store.newRule (s : Store π) (priority : Nat) (cookie : Option Nat) (table : Nat) : Store π :=
  let h := (s.heap.create false).create true
  s.addRule h .empty ⟨s.heap.nobjs, s.heap.nobjs + 1, none, none, false, none⟩ ⟨0, 0, priority, cookie, table, []⟩

/-- `Rule.copy`, rule.py:314-318 with rule.py:128-135 and `Instructions(dup)`, rule.py:895-903. -/
def Store.copyRule (s : Store π) (i : Nat) : Store π :=
  let o := s.instOf i
  let h := (s.heap.dup false o.ap).dup true o.wr
  s.addRule h (s.mats (s.rules i).mat) ⟨s.heap.nobjs, s.heap.nobjs + 1, o.goto, o.wmeta, o.clear, o.meter⟩ (s.rules i)

/-- The objects of a source. -/
def Store.src (s : Store π) : RSrc → Src
  | .items xs => .items xs
  | .part i p => .obj (s.part i p)

/-- The operation on the action list itself. -/
def Store.listOp (s : Store π) (j : Nat) : ListAct → Op
  | .append a => .append j a
  | .remove a => .remove j a
  | .replace new => .replace j (s.src new)
  | .iadd other => .iadd j (s.src other)

/-- `Instructions.merge`, rule.py:977-1005, followed by the assignment of the metadata and the new rule, rule.py:391-423.  The lists of
the `Instructions()` of rule.py:985 are dropped at once; they are left out.  The match and the metadata are computed from values (the
subject of the properties on merging) and are given. -/
def Store.mergeRule (fuel : Nat) (s : Store π) (a b : Nat) (m : Match) (wmeta : MetaW) : Store π × Option PyErr :=
  let x := s.instOf a
  let y := s.instOf b
  let n := s.heap.nobjs
  match (if y.clear then s.heap.copy fuel y.wr (.items []) [] else s.heap.copy fuel x.wr (.obj y.wr) []) with
  | (h, some e) => (s.withHeap h, some e)
  | (h, none) => match h.copy fuel x.ap (.obj y.ap) [] with
    | (h, some e) => (s.withHeap h, some e)
    | (h, none) => (s.addRule h m ⟨n + 1, n, y.goto, wmeta, x.clear || y.clear, none⟩
        ⟨0, 0, (s.rules a).priority + (s.rules b).priority, (s.rules a).cookie, (s.rules a).table, []⟩, none)

/-- The operation, rule.py:126-152, 314-318, 391-423, 893-906, 977-1005, 1159-1202. -/
def Store.step (fuel : Nat) (s : Store π) : RuleOp → Store π × Option PyErr
  | .new p c t => (s.newRule p c t, none)
  | .copy i => (s.copyRule i, none)
  | .act i p a =>
    let r := s.heap.step fuel (s.listOp (s.part i p) a)
    (s.withHeap r.1, r.2)
  | .setInst i g w c m => (⟨s.heap, s.mats, s.nmats,
      upd s.insts (s.rules i).inst ⟨(s.instOf i).ap, (s.instOf i).wr, g, w, c, m⟩, s.ninsts, s.rules, s.nrules⟩, none)
  | .matAppend i f v mask => (⟨s.heap, upd s.mats (s.rules i).mat ((s.mats (s.rules i).mat).append f v mask), s.nmats,
      s.insts, s.ninsts, s.rules, s.nrules⟩, none)
  | .matDel i f => match (s.mats (s.rules i).mat).del f with
    | .ok m => (⟨s.heap, upd s.mats (s.rules i).mat m, s.nmats, s.insts, s.ninsts, s.rules, s.nrules⟩, none)
    | .error e => (s, some e)
  | .merge a b m w => s.mergeRule fuel a b m w

/-- The rules an action refers to besides its own. -/
def ListAct.refs : ListAct → List Nat
  | .replace (.part i _) | .iadd (.part i _) => [i]
  | _ => []

/-- The rules an operation refers to. -/
def RuleOp.refs : RuleOp → List Nat
  | .new _ _ _ => []
  | .copy i | .setInst i _ _ _ _ | .matAppend i _ _ _ | .matDel i _ => [i]
  | .act i _ a => i :: a.refs
  | .merge a b _ _ => [a, b]

/-- The operation hands an action list to itself. -/
def RuleOp.self : RuleOp → Bool
  | .act i p (.replace (.part k q)) | .act i p (.iadd (.part k q)) => i == k && p == q
  | _ => false

/-- A program on rules; exceptions are caught and noted, a rule that does not exist is a `NameError`. -/
def Store.run (fuel : Nat) : Store π → List RuleOp → Store π × List (Option PyErr)
  | s, [] => (s, [])
  | s, op :: ops =>
    if op.refs.all (· < s.nrules) then
      let r := s.step fuel op
      let q := Store.run fuel r.1 ops
      (q.1, r.2 :: q.2)
    else
      let q := Store.run fuel s ops
      (q.1, some .nameError :: q.2)

/-! ### Rules as values -/

/-- Specification: what a rule is. -/
def Store.ruleVal (s : Store π) (i : Nat) : Rule π :=
  let r := s.rules i
  let o := s.instOf i
  ⟨r.priority, r.cookie, r.table, s.mats r.mat, ⟨o.goto, s.heap.val o.ap, s.heap.val o.wr, o.wmeta, o.clear, o.meter⟩, r.path⟩

/-- Specification: all rules. -/
def Store.values (s : Store π) : List (Rule π) := (List.range s.nrules).map s.ruleVal

/-- Specification: an empty rule. -/
def blank (π : Type) : Rule π := ⟨0, none, 0, .empty, .empty, []⟩

/-- Specification: the actions of a part. -/
def partOf (r : Rule π) : Part → ActionList
  | .apply => r.inst.apply
  | .write => r.inst.write

/-- Specification: the rule with other actions in one part. -/
def withPart (r : Rule π) (l : ActionList) : Part → Rule π
  | .apply => { r with inst := { r.inst with apply := l } }
  | .write => { r with inst := { r.inst with write := l } }

/-- Specification: the class of a part. -/
def Part.isSet : Part → Bool
  | .apply => false
  | .write => true

/-- Specification: the items of a source at this moment. -/
def itemsOf (w : List (Rule π)) : RSrc → List Action
  | .items xs => xs
  | .part i p => (partOf (w.getD i (blank π)) p).iter

/-- Specification: an action on a value. -/
def vAct (w : List (Rule π)) (c : Bool) (l : ActionList) : ListAct → VRes
  | .append a => vAppend c l a
  | .remove a => vRemove l a
  | .replace new => loop (vAppend c) ActionList.empty (itemsOf w new)
  | .iadd other => loop (vAppend c) l (itemsOf w other)

/-- Specification: an operation on a list of rules, each a value of its own. -/
def valStep (w : List (Rule π)) : RuleOp → List (Rule π) × Option PyErr
  | .new p c t => (w ++ [⟨p, c, t, .empty, .empty, []⟩], none)
  | .copy i => (w ++ [w.getD i (blank π)], none)
  | .act i p a =>
    let r := w.getD i (blank π)
    let v := vAct w p.isSet (partOf r p) a
    (w.set i (withPart r v.1 p), v.2)
  | .setInst i g m c t =>
    let r := w.getD i (blank π)
    (w.set i { r with inst := ⟨g, r.inst.apply, r.inst.write, m, c, t⟩ }, none)
  | .matAppend i f v mask =>
    let r := w.getD i (blank π)
    (w.set i { r with mat := r.mat.append f v mask }, none)
  | .matDel i f =>
    let r := w.getD i (blank π)
    match r.mat.del f with
    | .ok m => (w.set i { r with mat := m }, none)
    | .error e => (w, some e)
  | .merge a b m wm =>
    let x := w.getD a (blank π)
    let y := w.getD b (blank π)
    match x.inst.merge y.inst with
    | .ok i => (w ++ [⟨x.priority + y.priority, x.cookie, x.table, m, { i with wmeta := wm }, []⟩], none)
    | .error e => (w, some e)

/-- Specification: a program on values. -/
def valRun : List (Rule π) → List RuleOp → List (Rule π) × List (Option PyErr)
  | w, [] => (w, [])
  | w, op :: ops =>
    if op.refs.all (· < w.length) then
      let r := valStep w op
      let q := valRun r.1 ops
      (q.1, r.2 :: q.2)
    else
      let q := valRun w ops
      (q.1, some .nameError :: q.2)

end OFE.Alias
