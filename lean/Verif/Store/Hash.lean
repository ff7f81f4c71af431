/-! # Hashes and equality of diagram nodes, bdd.py:124-186 and cbddmodule.cpp:192-216,337-361

Objects have an address; an absent branch has the address of `None` in python and 0 in C++.  Actions and their friendly names are python objects of which
only `==` and `hash` are used, which are parameters; `hash` gives none where it raises TypeError. -/

namespace OFE.NodeHash

variable {α φ : Type}

/-- What a user may store as action: its `==` and `hash`, and `hash` of the friendly name. -/
structure PyObj (α φ : Type) where
  eq : α → α → Bool
  hash : α → Option Int
  fhash : φ → Option Int

/-- BDDTermination.num, bdd.py:151; BDDTERM_NUM, cbddmodule.cpp:50 -/
def termNumH : Int := 1000000000000

/-! ### bdd.py -/

/-- A BDDNode (bdd.py:124-134, `zero` and `one` by address) or BDDTermination (bdd.py:149-158). -/
inductive PyNode (α φ : Type) where
  | node (num : Int) (zero one : Nat)
  | term (action : α) (friendly : φ)

/-- `a == b`: BDDNode.__eq__, bdd.py:137-140, which does not look at the class of `other`, and BDDTermination.__eq__, bdd.py:160-163.
`none` is `id(None)`, the address in the class attributes zero and one of terminations (bdd.py:152-153). -/
def pyEq (o : PyObj α φ) (none : Nat) : PyNode α φ → PyNode α φ → Bool
  | .node n z e, .node n' z' e' => n == n' && z == z' && e == e'
  | .node n z e, .term _ _ => n == termNumH && z == none && e == none
  | .term _ _, .node _ _ _ => false
  | .term a _, .term b _ => o.eq a b

/-- BDDNode.__hash__, bdd.py:145-146, and BDDTermination.__hash__, bdd.py:168-179; `tuple` is python's hash of a tuple of numbers. -/
def pyHash (o : PyObj α φ) (tuple : Int → Nat → Nat → Int) : PyNode α φ → Int
  | .node n z e => tuple n z e
  | .term a f =>
    match o.hash a with
    | some h => h
    | none =>
      match o.fhash f with
      | some h => h
      | none => 0

/-! ### cbddmodule.cpp -/

/-- A BDDNode or BDDTerm, cbddmodule.cpp:65-71 and 230-234; the part that a BDDTerm has from BDDNode is that of BDDTerm_new (cbddmodule.cpp:299-312). -/
inductive CxxNode (α φ : Type) where
  | node (num zero one : BitVec 64)
  | term (action : α) (friendly : φ)

/-- BDDTERM_NUM, cbddmodule.cpp:50 -/
def cxxTermNum : BitVec 64 := 1000000000000#64

/-- num, zero and one of the part that is a BDDNode. -/
def CxxNode.base : CxxNode α φ → BitVec 64 × BitVec 64 × BitVec 64
  | .node n z e => (n, z, e)
  | .term _ _ => (cxxTermNum, 0#64, 0#64)

/-- `a == b`: BDDTerm_richcmp between two terminations (cbddmodule.cpp:350-361); otherwise BDDNode_richcmp on the part that is a BDDNode
(cbddmodule.cpp:208-225), as a BDDTerm is an instance of BDDNode, BDDTerm_richcmp answers NotImplemented and python then asks the other side. -/
def cxxEq (o : PyObj α φ) : CxxNode α φ → CxxNode α φ → Bool
  | .term a _, .term b _ => o.eq a b
  | a, b => a.base.1 == b.base.1 && a.base.2.1 == b.base.2.1 && a.base.2.2 == b.base.2.2

/-- LONG_HASH, cbddmodule.cpp:192 -/
def longHash (x : BitVec 64) : BitVec 64 := if x = -1#64 then -2#64 else x

/-- BDDNode_hash, cbddmodule.cpp:193-206.  Overflow of `long` is taken to wrap, as compilers do here; the standard leaves it open. -/
def nodeHash (num zero one : BitVec 64) : BitVec 64 :=
  let x := 0x345678#64
  let x := (x ^^^ longHash num) * 1000003#64
  let x := (x ^^^ longHash zero) * 1082527#64
  let x := (x ^^^ longHash one) * 1165049#64
  longHash (x + 97531#64)

/-- PyObject_Hash: -1 for an error. -/
def cHash (h : Option Int) : BitVec 64 :=
  match h with
  | some h => BitVec.ofInt 64 h
  | none => -1#64

/-- BDDTerm_hash, cbddmodule.cpp:337-348.  The last line is an assignment, `hash = (-1 ? 0 : hash)`, so the hash of the friendly name is not used. -/
def termHash (o : PyObj α φ) (a : α) (_f : φ) : BitVec 64 :=
  let hash := cHash (o.hash a)
  if hash ≠ -1#64 then hash else 0#64

/-- tp_hash of both types, cbddmodule.cpp:112 and 265 -/
def cxxHash (o : PyObj α φ) : CxxNode α φ → BitVec 64
  | .node n z e => nodeHash n z e
  | .term a f => termHash o a f

/-! ### The node table -/

/-- NODE_CACHE[key]: python dicts compare the stored hash, then the stored key with `==`.  (A key that is the same object is found without `==`.)  The order
in which entries with the same hash are tried is that of insertion. -/
def find {β η : Type} [DecidableEq η] (eq : β → β → Bool) (hash : β → η) (tab : List (η × β)) (key : β) : Option β :=
  (tab.find? fun e => decide (e.1 = hash key) && eq e.2 key).map (·.2)

/-- check_ncache, bdd.py:188-195 and cbdd.py:122-129, and the part of get_node after the search, cbddmodule.cpp:415-440 -/
def intern {β η : Type} [DecidableEq η] (eq : β → β → Bool) (hash : β → η) (tab : List (η × β)) (key : β) : β × List (η × β) :=
  match find eq hash tab key with
  | some x => (x, tab)
  | none => (key, tab ++ [(hash key, key)])

/-- The table after interning each of the objects. -/
def internAll {β η : Type} [DecidableEq η] (eq : β → β → Bool) (hash : β → η) (keys : List β) : List (η × β) :=
  keys.foldl (fun tab key => (intern eq hash tab key).2) []

end OFE.NodeHash
