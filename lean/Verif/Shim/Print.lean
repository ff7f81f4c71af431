import Verif.Shim.Paths
import Verif.Match.Model
import Verif.Fmt.Model

/-!
# Shims as text, as keys and as objects

Model of the remaining methods of `BooleanShim` (`ofequivalence/normaliseheaderspace.py`): `__str__`, `__hash__`, and `dup` together with the way the
attributes of the objects are stored.
-/

namespace OFE
namespace Shim
open Fmt

/-- One entry of `fields_to_str`, normaliseheaderspace.py:145-148; the name of a field is its key in `oxm_fields`, openflow_desc.py:194-273. -/
def entryStr (x : Nat × Nat × Option Nat) : List Char :=
  match x.2.2 with
  | none => (allFields.getD x.1 ("", 0)).1.toList ++ '=' :: digits 10 x.2.1
  | some m => (allFields.getD x.1 ("", 0)).1.toList ++ '=' :: (digits 10 x.2.1 ++ '/' :: digits 10 m)

/-- `fields_to_str(flow_wildcard_to_fields(wc))`, normaliseheaderspace.py:142-149, 154-157. -/
def wcStr (wc : Nat) : Except PyErr (List Char) := do return joinWith ',' ((← wildcardToFields wc).map entryStr)

/-- A text put in its place, for `sorted`, normaliseheaderspace.py:158: by code points, the shorter of two texts first if it begins the other. -/
def insertText (a : List Char) : List (List Char) → List (List Char)
  | [] => [a]
  | b :: l => if a ≤ b then a :: b :: l else b :: insertText a l

/-- `sorted` of texts, normaliseheaderspace.py:158 -/
def sortTexts (l : List (List Char)) : List (List Char) := l.foldr insertText []

/-- `__str__`, normaliseheaderspace.py:138-160.  The keys of `ex_map` are the members of a set, so that it has one value for each of them.  Without an
included wildcard `flow_wildcard_to_fields(None)` raises TypeError. -/
def str (s : Shim) : Except PyErr (List Char) :=
  if s.zero then .ok "empty".toList
  else do
    let ex ← s.exc.mapM wcStr
    match s.inc with
    | none => .error .typeError
    | some m => return '(' :: (← wcStr m) ++ ") ".toList ++ (sortTexts ex).flatMap fun a => "!(".toList ++ a ++ ") ".toList

/-- `__hash__`, normaliseheaderspace.py:162-165.  Python's `hash` of a bool, of a number or `None`, of a `frozenset` (from its members in the order they are
stored in) and of a pair are parameters. -/
def hash {η : Type} (hb : Bool → η) (hi : Option Nat → η) (hs : List Nat → η) (hp : η → η → η) (s : Shim) : η :=
  if s.zero then hb s.zero else hp (hi s.inc) (hs s.exc)

/-! ### Objects -/

/-- An object: the attributes of its own (without one, that of the class is read: `zero = False`, `include = None`, normaliseheaderspace.py:35-37) and the
reference to its set of excludes, normaliseheaderspace.py:40. -/
structure Obj where
  zero : Option Bool
  inc : Option (Option Nat)
  exc : Nat
deriving DecidableEq, Repr

/-- The sets and the objects that exist (normaliseheaderspace.py:34-44). -/
structure Mem where
  sets : List (List Nat)
  objs : List Obj
deriving DecidableEq, Repr

/-- `self.zero`, with the class attribute of normaliseheaderspace.py:35. -/
def Obj.getZero (o : Obj) : Bool := o.zero.getD false

/-- `self.include`, with the class attribute of normaliseheaderspace.py:36. -/
def Obj.getInc (o : Obj) : Option Nat := o.inc.getD none

/-- The members of `self.excludes`, normaliseheaderspace.py:37, 40. -/
def Mem.exc (h : Mem) (o : Obj) : List Nat := h.sets.getD o.exc []

/-- `set()` or `set(x)`: a new set, normaliseheaderspace.py:40, 49. -/
def Mem.newSet (h : Mem) (l : List Nat) : Mem × Nat := ({ h with sets := h.sets ++ [l] }, h.sets.length)

/-- `add(wc, include)`, normaliseheaderspace.py:53-124, of an object that may not be among the objects yet (when called from `__init__`, line 42): it
assigns attributes and changes its set in place. -/
def Mem.addTo (n : Nat) (ord : List Nat → List Nat) (h : Mem) (o : Obj) (wc : Nat) (include_ : Bool) : Except PyErr (List (List Nat) × Obj) :=
  if o.getZero then .ok (h.sets, o)
  else if include_ then
    match o.getInc with
    | none => if wc = 0 then .ok (h.sets, { o with inc := some (some wc), zero := some true }) else .ok (h.sets, { o with inc := some (some wc) })
    | some m =>
      let m' := wcIntersect n m wc
      if m' = 0 then .ok (h.sets, { o with inc := some (some m'), zero := some true })
      else .ok (h.sets, (ord (h.exc o)).foldl (fun o x => if wcIsSubset m' x then { o with zero := some true } else o) { o with inc := some (some m') })
  else
    match o.getInc with
    | none => .error .typeError
    | some m =>
      if wcIsSubset m wc then .ok (h.sets, { o with zero := some true })
      else do
        match ← scan wc (ord (h.exc o)) [] with
        | none => return (h.sets, o)
        | some rem => return (h.sets.set o.exc (Deps.setAdd wc (rem.foldl (fun s x => s.filter (· ≠ x)) (h.exc o))), o)

/-- `BooleanShim(wc)`, normaliseheaderspace.py:39-44; the result is the object, not yet kept anywhere. -/
def Mem.init (n : Nat) (ord : List Nat → List Nat) (h : Mem) (wc : Option Nat) : Except PyErr (List (List Nat) × Obj) :=
  let x := h.newSet []
  match wc with
  | some w => x.1.addTo n ord ⟨none, none, x.2⟩ w true
  | none => .ok (x.1.sets, ⟨some true, none, x.2⟩)

/-- `dup()`, normaliseheaderspace.py:46-51: the attributes of the new object are replaced. -/
def Mem.dup (h : Mem) (o : Obj) : Except PyErr (List (List Nat) × Obj) := do
  let (sets, _) ← h.init 0 id none
  let x := Mem.newSet { h with sets := sets } (h.exc o)
  return (x.1.sets, ⟨some o.getZero, some o.getInc, x.2⟩)

/-- What a program can do with shims: make one, copy one, add a wildcard to one, intersect one (normaliseheaderspace.py:39, 46, 53, 173). -/
inductive Op where
  | make (wc : Option Nat)
  | dup (i : Nat)
  | add (i wc : Nat) (include_ : Bool)
  | inter (i w : Nat)
deriving DecidableEq, Repr

/-- One operation; new objects come last.  After an exception the sets that were made are out of use (normaliseheaderspace.py:39-51, 53-124, 173-176). -/
def Mem.step (n : Nat) (ord : List Nat → List Nat) (h : Mem) : Op → Except PyErr Mem
  | .make wc => do
    let (sets, o) ← h.init n ord wc
    return ⟨sets, h.objs ++ [o]⟩
  | .dup i =>
    match h.objs[i]? with
    | none => .ok h
    | some o => do
      let (sets, o') ← h.dup o
      return ⟨sets, h.objs ++ [o']⟩
  | .add i wc b =>
    match h.objs[i]? with
    | none => .ok h
    | some o => do
      let (sets, o') ← h.addTo n ord o wc b
      return ⟨sets, h.objs.set i o'⟩
  | .inter i w =>
    match h.objs[i]? with
    | none => .ok h
    | some o => do
      let (sets, o') ← h.dup o
      match o.getInc with
      | none => .error .typeError
      | some m => return ⟨sets, h.objs ++ [{ o' with inc := some (some (wcIntersect n m w)) }]⟩

/-- A program: after an exception it goes on with the objects it had (normaliseheaderspace.py:39-176). -/
def Mem.run (n : Nat) (ord : List Nat → List Nat) (h : Mem) : List Op → Mem × List (Option PyErr)
  | [] => (h, [])
  | op :: ops =>
    match h.step n ord op with
    | .ok h' => let r := Mem.run n ord h' ops; (r.1, none :: r.2)
    | .error e => let r := Mem.run n ord h ops; (r.1, some e :: r.2)

end Shim
end OFE
