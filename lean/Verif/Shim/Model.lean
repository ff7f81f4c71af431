import Verif.Common
import Verif.Wildcard.Model
import Verif.Deps.Model

/-!
# Normalisation by header space

Model of `ofequivalence/normaliseheaderspace.py`.  Wildcards are the numbers of `Verif/Wildcard`, `n` is the number of header bits.
-/

namespace OFE
namespace Shim

/-- Class `BooleanShim`, normaliseheaderspace.py:34-37: an included wildcard and a set of excluded ones (a list in some order of iteration). -/
structure Shim where
  zero : Bool
  inc : Option Nat
  exc : List Nat
deriving DecidableEq, Repr

/-- The loop over `self.excludes`, normaliseheaderspace.py:80-88: the ones to remove, or nothing if the method returns there. -/
def scan (wc : Nat) : List Nat → List Nat → Except PyErr (Option (List Nat))
  | [], rem => .ok (some rem)
  | e :: es, rem =>
    if wcIsSubset e wc then scan wc es (rem ++ [e])
    else if wcIsSubset wc e then (if rem.isEmpty then .ok none else .error .assertion)
    else scan wc es rem

/-- `add(wc, include)`, normaliseheaderspace.py:53-124.  `ord` is the order in which the set of excludes is iterated over.  The search for a bit pattern that
continues another (lines 94-122) is dead code: `str(i) == "empty"` never holds for an int.  `include` is only `None` if `zero` is set; the subset test on
`None` would raise TypeError. -/
def add (n : Nat) (ord : List Nat → List Nat) (s : Shim) (wc : Nat) (include_ : Bool) : Except PyErr Shim :=
  if s.zero then .ok s
  else if include_ then
    match s.inc with
    | none => .ok { s with inc := some wc, zero := decide (wc = 0) }
    | some m =>
      let m' := wcIntersect n m wc
      if m' = 0 then .ok { s with inc := some m', zero := true }
      else .ok { s with inc := some m', zero := s.exc.any fun x => wcIsSubset m' x }
  else
    match s.inc with
    | none => .error .typeError
    | some m =>
      if wcIsSubset m wc then .ok { s with zero := true }
      else do
        match ← scan wc (ord s.exc) [] with
        | none => return s
        | some rem => return { s with exc := Deps.setAdd wc (s.exc.filter fun x => !rem.contains x) }

/-- `BooleanShim()`, normaliseheaderspace.py:39-44 -/
def nothing : Shim := ⟨true, none, []⟩

/-- `BooleanShim(wc)`, normaliseheaderspace.py:39-42 -/
def ofWc (n : Nat) (ord : List Nat → List Nat) (wc : Nat) : Except PyErr Shim := add n ord ⟨false, none, []⟩ wc true

/-- `__eq__`, normaliseheaderspace.py:126-133 (sets are equal if they have the same members) -/
def eqv (a b : Shim) : Bool :=
  if a.zero || b.zero then a.zero && b.zero
  else decide (a.inc = b.inc) && (a.exc.all fun x => b.exc.contains x) && b.exc.all fun x => a.exc.contains x

section
variable {α : Type}

/-- `d.get(k)` for a dict keyed by shims -/
def get (k : Shim) (d : List (Shim × α)) : Option α := (d.find? fun x => eqv k x.1).map (·.2)

/-- `d[k] = v`: an equal key stays in its place -/
def set (k : Shim) (v : α) : List (Shim × α) → List (Shim × α)
  | [] => [(k, v)]
  | (k', v') :: d => if eqv k k' then (k', v) :: d else (k', v') :: set k v d

/-- `if k not in d: d[k] = v` -/
def setNew (k : Shim) (v : α) (d : List (Shim × α)) : List (Shim × α) := if (get k d).isSome then d else set k v d

/-- `del d[k]` -/
def del (k : Shim) (d : List (Shim × α)) : Except PyErr (List (Shim × α)) :=
  if (get k d).isSome then .ok (d.filter fun x => !eqv k x.1) else .error .keyError

/-- `d1 == d2` -/
def dictEqv [DecidableEq α] (d1 d2 : List (Shim × α)) : Bool :=
  d1.length == d2.length && d1.all fun x => decide (get x.1 d2 = some x.2)

/-- `rules_to_shim_map(rules)`, normaliseheaderspace.py:179-187 -/
def shimMap (n : Nat) (ord : List Nat → List Nat) (rules : List (Nat × α)) : Except PyErr (List (Shim × α)) :=
  rules.foldlM (fun d r => do return setNew (← ofWc n ord r.1) r.2 d) []

/-- The inner loop of `merge_rules` over `group_rules`, normaliseheaderspace.py:253-262. -/
def splitBy (n : Nat) (ord : List Nat → List Nat) (v : α) (a : Nat) (group : List (Shim × α)) : Except PyErr (List (Shim × α)) :=
  group.foldlM (fun d z => do
    let neg ← add n ord z.1 a false
    let pos ← add n ord z.1 a true
    return setNew neg v (setNew pos v d)) []

/-- `merge_rules(rules_in, add_fields)`, normaliseheaderspace.py:246-267; `fields` is the order of iteration of the set `add_fields`. -/
def mergeRules (n : Nat) (ord : List Nat → List Nat) (rules : List (Shim × α)) (fields : List Nat) : Except PyErr (List (Shim × α)) :=
  rules.foldlM (fun resulting r => do
    let group ← fields.foldlM (fun g a => splitBy n ord r.2 a g) [r]
    return resulting.foldl (fun z x => set x.1 x.2 z) group) []

/-- `normalise(rules)`, normaliseheaderspace.py:190-243, of wildcards with the actions done (`per_output_actions()`).  The set of fields is kept in the order
of first appearance; `ord` also stands for its order of iteration. -/
def normalise (n : Nat) (ord : List Nat → List Nat) (rules : List (Nat × α)) : Except PyErr (List (Shim × α) × List Nat) := do
  let fields := rules.foldl (fun s x => Deps.setAdd x.1 s) []
  let m ← shimMap n ord rules
  return (← mergeRules n ord m (ord fields), fields)

/-- The two dicts that `check_equal` compares, normaliseheaderspace.py:279-298. -/
def mergeBoth (n : Nat) (ord : List Nat → List Nat) (n1 n2 : List (Shim × α) × List Nat) : Except PyErr (List (Shim × α) × List (Shim × α)) := do
  let w1 ← mergeRules n ord n1.1 (ord (n2.2.filter fun x => !n1.2.contains x))
  let w2 ← mergeRules n ord n2.1 (ord (n1.2.filter fun x => !n2.2.contains x))
  let w1 ← del nothing w1
  let w2 ← del nothing w2
  return (w1, w2)

/-- `check_equal(norm1, norm2)`, normaliseheaderspace.py:270-330, without `diff`. -/
def checkEqual [DecidableEq α] (n : Nat) (ord : List Nat → List Nat) (n1 n2 : List (Shim × α) × List Nat) : Except PyErr Bool := do
  let w ← mergeBoth n ord n1 n2
  return dictEqv w.1 w.2

/-- `check_equal(norm1, norm2, diff=True)`: the keys with different actions, normaliseheaderspace.py:300-305, 325-328. -/
def checkEqualDiff [DecidableEq α] (n : Nat) (ord : List Nat → List Nat) (n1 n2 : List (Shim × α) × List Nat) : Except PyErr (Bool × List Shim) := do
  let w ← mergeBoth n ord n1 n2
  let newOnly := w.1.filter fun x => (get x.1 w.2).isNone
  let missingOnly := w.2.filter fun x => (get x.1 w.1).isNone
  let difference := w.1.filter fun x => (get x.1 w.2).isSome && decide (get x.1 w.2 ≠ some x.2)
  if newOnly.isEmpty && missingOnly.isEmpty then return (dictEqv w.1 w.2, difference.map (·.1)) else .error .assertion

end
end Shim
end OFE
