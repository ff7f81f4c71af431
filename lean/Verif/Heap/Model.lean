import Verif.Heap.Gc
import Verif.Store.Model

/-!
# The C++ node table: objects are freed and their addresses given out again

Model of `c_src/cbddmodule.cpp` and `ofequivalence/cbdd.py` with addresses.  All objects are in `NODE_CACHE` (the temporary ones that `cbdd.py` makes to look an
equal one up are not shown); an object is freed when the collection (`Verif.Heap.Gc`) removes it, and its address may then be that of any later object.
What the caches drop, which free address an object gets, and which argument of a call is evaluated first (C++ leaves it open) is arbitrary (`Env`).

Simplified: python's reference counts are derived from the references that there are (`refs`): two of the table, those of `zero` and `one` of the objects in the
table, of the keys and values of the caches, of the roots held by the caller, and two for `IS_DIFFERING`.  The references of the arguments of a running call are
left out: the caller holds the same objects.  Reading a freed object is a `runtimeError`.  Not modelled: memory exhaustion, the depth of the C stack.
-/

namespace OFE
namespace Heap
open Store (Ref Obj Op Memo RuleEntry termNum)
variable {α : Type} [DecidableEq α]

/-- The module state, cbddmodule.cpp:85-92: `NODE_CACHE` and its objects, the LRU caches, the address of `IS_DIFFERING`, `cleanup_threshold`; and a counter of
steps for the open choices. -/
structure CSt (α : Type) where
  mem : Addr → Option (Obj α)
  table : List Addr
  memo : List Memo
  rules : List RuleEntry
  differing : Addr
  threshold : Nat
  clock : Nat

/-- What is left open: what the caches keep at a given time, the address of the next object, given the allocated ones, and the order of evaluation of
arguments. -/
structure Env where
  memo : Nat → List Memo → List Memo
  rules : Nat → List RuleEntry → List RuleEntry
  alloc : Nat → List Addr → Addr
  oneFirst : Bool

/-- After `moduleinit`, cbddmodule.cpp:910-966: only `IS_DIFFERING` is in the table; the threshold of line 86. -/
def initC (e : Env) (d : α) : CSt α :=
  let a := e.alloc 0 []
  ⟨fun x => if x = a then some (.term d) else none, [a], [], [], a, 1000000, 1⟩

/-- One use of an LRU cache (moduleinit, cbddmodule.cpp:938-954): it may drop entries. -/
def tickC (e : Env) (s : CSt α) : CSt α :=
  { s with memo := e.memo s.clock s.memo, rules := e.rules s.clock s.rules, clock := s.clock + 1 }

/-- `x->num, x->zero, x->one, x->has_none` (terminations: cbddmodule.cpp:298-312).  For `NULL` the number is that of a termination (`NULL` is only read as right
argument of `_difference_recursive`, which then descends on the left, cbddmodule.cpp:534-542) and `has_none` is 1 as in cbddmodule.cpp:430. -/
def viewC (s : CSt α) : Ref → Except PyErr (Nat × Ref × Ref × Bool)
  | none => .ok (termNum, none, none, true)
  | some i => match s.mem i with
    | some (.node num z o h) => .ok (num, z, o, h)
    | some (.term _) => .ok (termNum, none, none, false)
    | none => .error .runtimeError

/-- `x == y` for two keys of `NODE_CACHE`: `BDDNode_richcmp`, cbddmodule.cpp:206-225, number and addresses of the children; `BDDTerm_richcmp`, 350-360, actions. -/
def sameObj : Obj α → Obj α → Bool
  | .node num z o _, .node num' z' o' _ => num == num' && z == z' && o == o'
  | .term a, .term a' => a == a'
  | _, _ => false

/-- `PyDict_GetItem(NODE_CACHE, x)`; adds `x` at a free address if there is none (get_node, cbddmodule.cpp:417-435; `check_ncache`, cbdd.py:122-129). -/
def internC (e : Env) (x : Obj α) (s : CSt α) : Addr × CSt α :=
  match s.table.find? (fun i => match s.mem i with | some y => sameObj x y | none => false) with
  | some i => (i, s)
  | none =>
    let i := e.alloc s.clock s.table
    (i, { s with mem := fun y => if y = i then some x else s.mem y, table := s.table ++ [i], clock := s.clock + 1 })

/-- `get_node`, cbddmodule.cpp:386-436 (`has_none`: 430). -/
def getNode (e : Env) (num : Nat) (z o : Ref) (s : CSt α) : Except PyErr (Ref × CSt α) :=
  if z = o then .ok (z, s)
  else match viewC s z, viewC s o with
    | .ok vz, .ok vo => let (i, s') := internC e (.node num z o (vz.2.2.2 || vo.2.2.2)) s; .ok (some i, s')
    | .error x, _ => .error x
    | _, .error x => .error x

/-- Termination tests: cbddmodule.cpp:448-454, 501-518, 577-592, 641-645; `na`, `nb` are the numbers, `ha` is `has_none` of the left one. -/
def baseC (op : Op) (differing : Addr) (a b : Ref) (na nb : Nat) (ha : Bool) : Option Ref :=
  match op with
  | .meld =>
    if a = none then some b
    else if b = none then some a
    else if !ha then some a
    else none
  | .difference =>
    if a = b then some none
    else if a = none then some (some differing)
    else if b = none then (if na = termNum then some (some differing) else none)
    else if na = termNum ∧ nb = termNum then some (some differing)
    else none
  | .subtract =>
    if a = b then some none
    else if a = none then some none
    else if b = none then some a
    else if na = termNum ∧ nb = termNum then some a
    else none
  | .intersection =>
    if a = none ∨ b = none then some none
    else if a = b then some a
    else none

/-- Equality of one component of the key `(a, b)` (cbddmodule.cpp:456-457) of an LRU cache: the same object, or equal ones. -/
def sameKey (s : CSt α) (a b : Ref) : Bool :=
  a == b || match a, b with
    | some i, some j => (match s.mem i, s.mem j with | some x, some y => sameObj x y | _, _ => false)
    | _, _ => false

/-- `PyObject_GetItem(CACHE, key)`, cbddmodule.cpp:458-464, 524-530, 651-657; unlike in bdd.py the result `None` is used.  `_subtract_recursive` has no cache (`SC` is 0, cbddmodule.cpp:574). -/
def memoGetC (s : CSt α) (op : Op) (a b : Ref) : Option Ref :=
  (s.memo.find? (fun m => m.op = op && sameKey s a m.a && sameKey s b m.b)).map (·.r)

/-- `PyObject_SetItem(CACHE, key, n)`, cbddmodule.cpp:473, 538, 666. -/
def memoPutC (e : Env) (op : Op) (a b r : Ref) (s : CSt α) : CSt α :=
  if op = .subtract then s else tickC e { s with memo := ⟨op, a, b, r⟩ :: s.memo }

/-- The two recursive calls as arguments of `get_node`, cbddmodule.cpp:470-471, in either order. -/
def both (oneFirst : Bool) (fz fo : CSt α → Except PyErr (Ref × CSt α)) (s : CSt α) : Except PyErr (Ref × Ref × CSt α) :=
  if oneFirst then
    match fo s with
    | .ok (o, s) => (match fz s with | .ok (z, s) => .ok (z, o, s) | .error x => .error x)
    | .error x => .error x
  else
    match fz s with
    | .ok (z, s) => (match fo s with | .ok (o, s) => .ok (z, o, s) | .error x => .error x)
    | .error x => .error x

/-- `_meld_recursive`, `_difference_recursive`, `_subtract_recursive`, `_intersection_recursive`, cbddmodule.cpp:446-497, 499-572, 575-637, 639-690: they differ in
the termination test and in the cache.  A termination has the number 10^12 (cbddmodule.cpp:50), so the assertions `b->num < BDDTERM_NUM` are the order of numbers. -/
def applyC (e : Env) (op : Op) : Nat → Ref → Ref → CSt α → Except PyErr (Ref × CSt α)
  | 0, _, _, _ => .error .fuel
  | fuel + 1, a, b, s =>
    match viewC s a, viewC s b with
    | .error x, _ => .error x
    | _, .error x => .error x
    | .ok (na, az, ao, ha), .ok (nb, bz, bo, _) =>
      match baseC op s.differing a b na nb ha with
      | some r => .ok (r, s)
      | none =>
        let s := tickC e s
        match memoGetC s op a b with
        | some r => .ok (r, s)
        | none =>
          let (num, az', bz', ao', bo') :=
            if na = nb then (na, az, bz, ao, bo)
            else if na < nb then (na, az, b, ao, b)
            else (nb, a, bz, a, bo)
          match both e.oneFirst (applyC e op fuel az' bz') (applyC e op fuel ao' bo') s with
          | .error x => .error x
          | .ok (z, o, s) =>
            match getNode e num z o s with
            | .error x => .error x
            | .ok (r, s) => .ok (r, memoPutC e op a b r s)

/-- Children of an object, for the collector: `BDDNode.zero` and `one`, cbddmodule.cpp:64-69. -/
def objKids : Option (Obj α) → List Addr
  | some (.node _ z o _) => z.toList ++ o.toList
  | _ => []

/-- References to `x` from outside of the table: `IS_DIFFERING` (the static variable and the module, cbddmodule.cpp:958-963), the roots, and keys and values of the
caches; the key `(wc, id(term))` of `RULE_CACHE` holds no object (cbdd.py:161, 170). -/
def extRefs (s : CSt α) (roots : List Ref) (x : Addr) : Nat :=
  (if x = s.differing then 2 else 0) + roots.count (some x) + (s.memo.map fun m => [m.a, m.b, m.r].count (some x)).sum + (s.rules.map (·.r)).count (some x)

/-- `Py_REFCNT(x)` of an object of the table (cbddmodule.cpp:724): two of the table (431-433), of the `zero` and `one` (427-428), and those from outside. -/
def refs (s : CSt α) (roots : List Ref) (x : Addr) : Nat :=
  2 + extRefs s roots x + (s.table.map fun y => (objKids (s.mem y)).count x).sum

/-- The state as the collector (cbddmodule.cpp:713-748) sees it. -/
def toTbl (s : CSt α) (roots : List Ref) : Tbl :=
  ⟨fun x => (s.mem x).map fun o => ⟨refs s roots x, objKids (some o)⟩, s.table⟩

/-- `gc_node_cache`, cbddmodule.cpp:713-748, with the given roots in the hands of the caller. -/
def collect (s : CSt α) (roots : List Ref) : Except PyErr (CSt α) :=
  match gcNodeCache (toTbl s roots) with
  | .ok (t, _) => .ok { s with mem := fun x => if (t.mem x).isSome then s.mem x else none, table := t.table }
  | .error x => .error x

/-- `memory_cleanup`, cbddmodule.cpp:750-756. -/
def cleanup (s : CSt α) (roots : List Ref) : Except PyErr (CSt α) :=
  if s.threshold ≠ 0 ∧ s.threshold < s.table.length then collect s roots else .ok s

/-- `meld_recursive`, `difference_recursive`, `subtract_recursive`, `intersection_recursive`, cbddmodule.cpp:764-816, and the methods of `BDD`, cbdd.py:40-58.  For
`n` header bits the recursion is at most `2 n + 3` deep. -/
def binopC (e : Env) (n : Nat) (op : Op) (a b : Ref) (roots : List Ref) (s : CSt α) : Except PyErr (Ref × CSt α) :=
  match cleanup s roots with
  | .ok s => applyC e op (2 * n + 3) a b s
  | .error x => .error x

/-- The loop of `wc_to_BDD`, cbddmodule.cpp:837-848.  A python int is stored in digits of 30 bits, as many as it needs: reading past the last is a `runtimeError`.
The two bits 00 are skipped like 11. -/
def wcLoopC (e : Env) (n wc : Nat) : Nat → Nat → Ref → CSt α → Except PyErr (Ref × CSt α)
  | _, 0, c, s => .ok (c, s)
  | b, k + 1, c, s =>
    if wc >>> (b * 2 / 30 * 30) = 0 then .error .runtimeError
    else
      let value := (((wc >>> (b * 2 / 30 * 30)) % 2 ^ 30) >>> (b * 2 % 30)) &&& 3
      if value = 1 then
        match getNode e (n - 1 - b) c none s with
        | .ok (c, s) => wcLoopC e n wc (b + 1) k c s
        | .error x => .error x
      else if value = 2 then
        match getNode e (n - 1 - b) none c s with
        | .ok (c, s) => wcLoopC e n wc (b + 1) k c s
        | .error x => .error x
      else wcLoopC e n wc (b + 1) k c s

/-- `RULE_CACHE.get((wc, id(cnode)))` with the test `root is not None`, cbdd.py:161-164. -/
def ruleGetC (s : CSt α) (wc t : Nat) : Option Addr :=
  match s.rules.find? (fun m => m.wc = wc && m.term = t) with
  | some m => m.r
  | none => none

/-- `wc_to_BDD`, cbdd.py:147-171. -/
def wcToC (e : Env) (n wc : Nat) (act : α) (s : CSt α) : Except PyErr (Ref × CSt α) :=
  if wc = 0 then .ok (none, s)
  else
    let (t, s) := internC e (.term act) s
    let s := tickC e s
    match ruleGetC s wc t with
    | some r => .ok (some r, s)
    | none =>
      match wcLoopC e n wc 0 n (some t) s with
      | .ok (c, s) => .ok (c, tickC e { s with rules := ⟨wc, t, c⟩ :: s.rules })
      | .error x => .error x

/-- One call: build a diagram from a wildcard, combine two held diagrams, let one go (`del`), `gc_node_cache()`, `set_cleanup_threshold(t)` (cbddmodule.cpp:853-862; negative thresholds are refused). -/
inductive CCall (α : Type) where
  | wc (wc : Nat) (act : α)
  | op (op : Op) (i j : Nat)
  | release (i : Nat)
  | gc
  | limit (t : Nat)

/-- The roots that the caller holds (`bdd.root`, cbdd.py:42, 169). -/
def held (slots : List (Option Ref)) : List Ref := slots.filterMap id

/-- Run one call (cbdd.py:40-58, 147-171; cbddmodule.cpp:713, 853) with the diagrams held so far (`none`: let go); a call that names no held diagram does nothing. -/
def stepC (e : Env) (n : Nat) (x : CSt α × List (Option Ref)) (c : CCall α) : Except PyErr (CSt α × List (Option Ref)) :=
  match c with
  | .wc wc act =>
    match wcToC e n wc act x.1 with
    | .ok (r, s) => .ok (s, x.2 ++ [some r])
    | .error er => .error er
  | .op op i j =>
    match x.2[i]?, x.2[j]? with
    | some (some a), some (some b) =>
      match binopC e n op a b (held x.2) x.1 with
      | .ok (r, s) => .ok (s, x.2 ++ [some r])
      | .error er => .error er
    | _, _ => .ok x
  | .release i => .ok (x.1, x.2.set i none)
  | .gc =>
    match collect x.1 (held x.2) with
    | .ok s => .ok (s, x.2)
    | .error er => .error er
  | .limit t => .ok ({ x.1 with threshold := t }, x.2)

/-- Run a history from the freshly imported module (cbddmodule.cpp:910-966). -/
def runC (e : Env) (n : Nat) (d : α) (h : List (CCall α)) : Except PyErr (CSt α × List (Option Ref)) :=
  h.foldlM (stepC e n) (initC e d, [])

end Heap
end OFE
