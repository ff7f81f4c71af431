import Verif.Bdd.Model

/-!
# Decision diagrams, level 2: the shared node table

Model of `ofequivalence/bdd.py` with object identity, the node table `NODE_CACHE`, the memo tables (LRU caches) and the rule
cache.  An object is its position in an append-only list (bdd.py never removes an entry of `NODE_CACHE`, so the identity of a
node that is in the table is never reused); a reference is `none` for python `None` or `some i`.

The LRU caches may drop entries whenever they are written or read.  Which ones is left to an arbitrary function of the time
and the contents (`Evict`), so every eviction policy and every capacity is covered.

Not modelled: python's recursion limit and memory exhaustion.
-/

namespace OFE
namespace Store
variable {α : Type} [DecidableEq α]

/-- Reference to an object of the node table, `none` is python `None`. -/
abbrev Ref := Option Nat

/-- An object in `NODE_CACHE`: `BDDTermination` (bdd.py:149-185) or `BDDNode` (bdd.py:123-146) with its `has_none` slot. -/
inductive Obj (α : Type) where
  | term (a : α)
  | node (num : Nat) (zero one : Ref) (hasNone : Bool)
deriving DecidableEq, Repr

/-- The four recursive operations, each with its own memo table (bdd.py:30-34). -/
inductive Op where
  | meld | difference | subtract | intersection
deriving DecidableEq, Repr

/-- One memo entry: table, key `(id(a), id(b))`, value. -/
structure Memo where
  op : Op
  a : Ref
  b : Ref
  r : Ref
deriving DecidableEq, Repr

/-- One entry of `RULE_CACHE`: key `(wc, id(term))`, value. -/
structure RuleEntry where
  wc : Nat
  term : Nat
  r : Ref
deriving DecidableEq, Repr

/-- The module state of bdd.py:27-34 and a step counter for the eviction oracle. -/
structure St (α : Type) where
  nodes : List (Obj α)
  memo : List Memo
  rules : List RuleEntry
  clock : Nat
deriving DecidableEq, Repr

/-- What the caches keep at a given time. -/
structure Evict where
  memo : Nat → List Memo → List Memo
  rules : Nat → List RuleEntry → List RuleEntry

/-- State after import: `NODE_CACHE[IS_DIFFERING] = IS_DIFFERING`, bdd.py:332-334; `IS_DIFFERING` is object 0. -/
def init (d : α) : St α := ⟨[.term d], [], [], 0⟩

/-- One use of a cache: the cache may drop entries. -/
def tick (e : Evict) (s : St α) : St α :=
  { s with memo := e.memo s.clock s.memo, rules := e.rules s.clock s.rules, clock := s.clock + 1 }

/-- `has_none` of a reference as used in `BDDNode.__init__`, bdd.py:133-134: `x is None or x.has_none`. -/
def refHasNone (s : St α) : Ref → Bool
  | none => true
  | some i => match s.nodes[i]? with
    | some (.node _ _ _ h) => h
    | _ => false

/-- Dictionary key test for a `BDDNode`, bdd.py:136-139: number and identity of both children. -/
def sameNode (num : Nat) (z o : Ref) : Obj α → Bool
  | .node num' z' o' _ => num == num' && z == z' && o == o'
  | .term _ => false

/-- Dictionary key test for a `BDDTermination`, bdd.py:160-163. -/
def sameTerm (a : α) : Obj α → Bool
  | .term a' => a == a'
  | .node .. => false

/-- Look an object up in `NODE_CACHE`, insert it when it is missing (`check_ncache`, bdd.py:188-196, and the second half of
`check_ncache_rm_dup`, bdd.py:205-210). -/
def intern (same : Obj α → Bool) (x : Obj α) (s : St α) : Nat × St α :=
  match s.nodes.findIdx? same with
  | some i => (i, s)
  | none => (s.nodes.length, { s with nodes := s.nodes ++ [x] })

/-- `check_ncache(BDDNode(num, z, o))`. -/
def internNode (num : Nat) (z o : Ref) (s : St α) : Nat × St α :=
  intern (sameNode num z o) (.node num z o (refHasNone s z || refHasNone s o)) s

/-- `check_ncache(BDDTermination(a, _))`. -/
def internTerm (a : α) (s : St α) : Nat × St α := intern (sameTerm a) (.term a) s

/-- `check_ncache_rm_dup`, bdd.py:198-210. -/
def mkNode (num : Nat) (z o : Ref) (s : St α) : Ref × St α :=
  if z = o then (z, s) else let (i, s') := internNode num z o s; (some i, s')

/-- `BDDTermination.num`, bdd.py:151. -/
def termNum : Nat := 1000000000000

/-- `x.num, x.zero, x.one`.  For `None` (only reached as right argument of `difference_recursive`, bdd.py:364-368, which then
descends on the left) the values of a termination have the same effect. -/
def view (s : St α) : Ref → Nat × Ref × Ref
  | none => (termNum, none, none)
  | some i => match s.nodes[i]? with
    | some (.node num z o _) => (num, z, o)
    | _ => (termNum, none, none)

/-- `x.num == BDDTermination.num` -/
def refIsTerm (s : St α) (x : Ref) : Bool := (view s x).1 == termNum

/-- `a == b` on two objects, bdd.py:136-139 and 160-163. -/
def objEq (s : St α) (i j : Nat) : Bool :=
  match s.nodes[i]?, s.nodes[j]? with
  | some (.node num z o _), some (.node num' z' o' _) => num == num' && z == z' && o == o'
  | some (.term a), some (.term a') => a == a'
  | _, _ => false

/-- Termination tests on references: bdd.py:298-303, 344-354, 395-404, 438-441. -/
def baseS (op : Op) (s : St α) (a b : Ref) : Option Ref :=
  match op with
  | .meld =>
    if a = none then some b
    else if b = none then some a
    else if !refHasNone s a then some a
    else none
  | .difference =>
    if a = b then some none
    else if a = none then some (some 0)
    else if b = none then (if refIsTerm s a then some (some 0) else none)
    else if refIsTerm s a && refIsTerm s b then some (some 0)
    else none
  | .subtract =>
    if a = b then some none
    else if a = none then some none
    else if b = none then some a
    else if refIsTerm s a && refIsTerm s b then some a
    else none
  | .intersection =>
    match a, b with
    | some i, some j => if objEq s i j then some (some i) else none
    | _, _ => some none

/-- `cached = CACHE.get((id(a), id(b)))`; the result `None` is never reused because of the test `cached is not None`. -/
def memoGet (s : St α) (op : Op) (a b : Ref) : Option Nat :=
  match s.memo.find? (fun m => m.op = op && m.a = a && m.b = b) with
  | some m => m.r
  | none => none

/-- `CACHE[(id(a), id(b))] = r` -/
def memoPut (e : Evict) (op : Op) (a b r : Ref) (s : St α) : St α :=
  tick e { s with memo := ⟨op, a, b, r⟩ :: s.memo }

/-- `meld_recursive`, `difference_recursive`, `subtract_recursive`, `intersection_recursive`, bdd.py:279-330, 337-385,
388-428, 431-465: they differ only in the termination test and in the cache used.  `none` is exhausted fuel. -/
def applyS (e : Evict) (op : Op) : Nat → Ref → Ref → St α → Option (Ref × St α)
  | 0, _, _, _ => none
  | fuel + 1, a, b, s =>
    match baseS op s a b with
    | some r => some (r, s)
    | none =>
      let s := tick e s
      match memoGet s op a b with
      | some r => some (some r, s)
      | none =>
        let (na, az, ao) := view s a
        let (nb, bz, bo) := view s b
        let (num, az', bz', ao', bo') :=
          if na = nb then (na, az, bz, ao, bo)
          else if na < nb then (na, az, b, ao, b)
          else (nb, a, bz, a, bo)
        match applyS e op fuel az' bz' s with
        | none => none
        | some (z, s) =>
          match applyS e op fuel ao' bo' s with
          | none => none
          | some (o, s) =>
            let (r, s) := mkNode num z o s
            some (r, memoPut e op a b r s)

/-- Recursion depth that always suffices: children are older than their parents. -/
def rank : Ref → Nat
  | none => 0
  | some i => i + 1

/-- `BDD.__add__`, `BDD.difference`, `BDD.subtract`, `BDD.intersection`, bdd.py:44-62. -/
def binop (e : Evict) (op : Op) (a b : Ref) (s : St α) : Option (Ref × St α) :=
  applyS e op (rank a + rank b + 1) a b s

/-- Loop of `wc_to_BDD`, bdd.py:242-248.  The first component is `none` when the assertion of line 244 fails (the nodes built
so far stay in the table). -/
def wcLoopS (n wc : Nat) : Nat → Nat → Nat → St α → Option Nat × St α
  | _, 0, c, s => (some c, s)
  | b, k + 1, c, s =>
    let value := (wc >>> (b * 2)) &&& 3
    if value = 0 then (none, s)
    else if value = 1 then
      let (c', s') := internNode (n - 1 - b) (some c) none s
      wcLoopS n wc (b + 1) k c' s'
    else if value = 2 then
      let (c', s') := internNode (n - 1 - b) none (some c) s
      wcLoopS n wc (b + 1) k c' s'
    else wcLoopS n wc (b + 1) k c s

/-- `RULE_CACHE.get((wc, id(cnode)))` with the test `root is not None`. -/
def ruleGet (s : St α) (wc t : Nat) : Option Nat :=
  match s.rules.find? (fun m => m.wc = wc && m.term = t) with
  | some m => m.r
  | none => none

/-- `wc_to_BDD`, bdd.py:213-251.  Outer `none` is the `AssertionError`. -/
def wcToS (e : Evict) (n wc : Nat) (act : α) (s : St α) : Option Ref × St α :=
  if wc = 0 then (some none, s)
  else
    let (t, s) := internTerm act s
    let s := tick e s
    match ruleGet s wc t with
    | some r => (some (some r), s)
    | none =>
      match wcLoopS n wc 0 n t s with
      | (none, s) => (none, s)
      | (some c, s) => (some (some c), tick e { s with rules := ⟨wc, t, some c⟩ :: s.rules })

/-- One call of the public interface: build a diagram from a wildcard, or combine the `i`-th and `j`-th diagram built so
far. -/
inductive Call (α : Type) where
  | wc (wc : Nat) (act : α)
  | op (op : Op) (i j : Nat)

/-- Run one call; a failing or ill-addressed call produces no diagram. -/
def step (e : Evict) (n : Nat) (x : St α × List Ref) (c : Call α) : St α × List Ref :=
  match c with
  | .wc wc act =>
    match wcToS e n wc act x.1 with
    | (some r, s) => (s, x.2 ++ [r])
    | (none, s) => (s, x.2)
  | .op op i j =>
    match x.2[i]?, x.2[j]? with
    | some a, some b =>
      match binop e op a b x.1 with
      | some (r, s) => (s, x.2 ++ [r])
      | none => x
    | _, _ => x

/-- Run a history from the freshly imported module. -/
def run (e : Evict) (n : Nat) (d : α) (h : List (Call α)) : St α × List Ref :=
  h.foldl (step e n) (init d, [])

end Store
end OFE
