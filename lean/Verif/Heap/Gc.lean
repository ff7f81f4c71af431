import Verif.Common

/-!
# Collecting the node table of cbddmodule.cpp

Objects are addresses; the memory gives the reference count and the children of each allocated object.  Only the objects of `NODE_CACHE` are
modelled: references from elsewhere (python variables, the LRU caches, nodes that are not in the table) show in the counts only.

Simplified: the reference counts are natural numbers without overflow; `printf` is left out; the dictionary is the list of its keys in the order of
`PyDict_Next` (each key is its own value, cbddmodule.cpp:424, cbdd.py:128, and holds two references).
-/

namespace OFE
namespace Heap

/-- Address of an object. -/
abbrev Addr := Nat

/-- What the collector sees of a `BDDNode` (cbddmodule.cpp:61-68): its reference count and its children that are not `NULL`, `zero` first. -/
structure Cell where
  rc : Nat
  kids : List Addr
deriving DecidableEq, Repr

/-- The memory (freed addresses have no cell) and the keys of `NODE_CACHE` (cbddmodule.cpp:84). -/
structure Tbl where
  mem : Addr → Option Cell
  table : List Addr

/-- Write one cell. -/
def put (m : Addr → Option Cell) (x : Addr) (c : Option Cell) : Addr → Option Cell := fun y => if y = x then c else m y

/-- `Py_DECREF(x)` for all `x` of the list in turn, with `BDDNode_dealloc`, cbddmodule.cpp:130-135 (`BDDTerm_dealloc`, 284-289, has no children).  Use of a
freed object is a `runtimeError`. -/
def decref : Nat → List Addr → (Addr → Option Cell) → Except PyErr (Addr → Option Cell)
  | _, [], m => .ok m
  | 0, _ :: _, _ => .error .fuel
  | fuel + 1, x :: xs, m =>
    match m x with
    | none => .error .runtimeError
    | some c =>
      if c.rc = 1 then
        match decref fuel c.kids (put m x (some ⟨0, c.kids⟩)) with
        | .ok m => decref fuel xs (put m x none)
        | .error e => .error e
      else decref fuel xs (put m x (some ⟨c.rc - 1, c.kids⟩))

/-- `PyDict_DelItem(NODE_CACHE, x)`: `KeyError` if it is not there; otherwise the references to the key and to the value are dropped. -/
def delItem (s : Tbl) (x : Addr) : Except PyErr Tbl :=
  if x ∈ s.table then
    match decref (2 * s.table.length + 4) [x, x] s.mem with
    | .ok m => .ok ⟨m, s.table.erase x⟩
    | .error e => .error e
  else .error .keyError

/-- `Py_REFCNT(x)` -/
def refcnt (s : Tbl) (x : Addr) : Nat :=
  match s.mem x with
  | some c => c.rc
  | none => 0

/-- Loop over `to_remove`, cbddmodule.cpp:730-742, with `to_remove_next` and `removed`. -/
def gcRound : List Addr → Tbl × List Addr × Nat → Except PyErr (Tbl × List Addr × Nat)
  | [], st => .ok st
  | x :: xs, (s, next, removed) =>
    match s.mem x with
    | none => .error .runtimeError
    | some c =>
      if c.rc = 2 then
        match delItem s x with
        | .ok s' => gcRound xs (s', next ++ c.kids.filter (fun k => refcnt s k == 3), removed + 1)
        | .error e => .error e
      else .error .assertion

/-- `while (to_remove_next.size())`, cbddmodule.cpp:728-744. -/
def gcLoop : Nat → Tbl × List Addr × Nat → Except PyErr (Tbl × Nat)
  | 0, _ => .error .fuel
  | fuel + 1, (s, next, removed) =>
    if next = [] then .ok (s, removed)
    else
      match gcRound next (s, [], removed) with
      | .ok st => gcLoop fuel st
      | .error e => .error e

/-- `gc_node_cache`, cbddmodule.cpp:713-748: the table afterwards and the number printed as removed. -/
def gcNodeCache (s : Tbl) : Except PyErr (Tbl × Nat) :=
  gcLoop (s.table.length + 2) (s, s.table.filter (fun x => refcnt s x == 2), 0)

end Heap
end OFE
