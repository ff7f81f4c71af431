/-! # Arguments of the C++ module, cbddmodule.cpp:142-190,299-335,693-701,750-774,853-867

Objects by address; an argument is a python value. -/

namespace OFE.Args

/-- A python value given as argument. -/
inductive Val where
  | none
  | int (n : Int)
  /-- an instance of BDDNode or BDDTermination -/
  | node (addr : Nat)
  /-- any other object -/
  | other (addr : Nat)
deriving DecidableEq, Repr

/-- Exceptions that the module raises; systemError is python's own if a function reports failure without an exception. -/
inductive Exc where
  | typeError | overflowError | valueError | systemError
deriving DecidableEq, Repr

/-- A BDDNode, cbddmodule.cpp:65-71; `has_none` is a char. -/
structure NodeObj where
  num : Int
  zero : Option Nat
  one : Option Nat
  hasNone : Int
deriving DecidableEq, Repr

/-- A BDDTerm without the part of BDDNode, cbddmodule.cpp:230-234 -/
structure TermObj where
  action : Option Val
  friendly : Option Val
deriving DecidableEq, Repr

/-- BDDNode_new, cbddmodule.cpp:142-153 -/
def nodeNew : NodeObj := ⟨-1, none, none, -1⟩

/-- BDDTerm_new, cbddmodule.cpp:299-312 -/
def termNew : TermObj := ⟨none, none⟩

/-- "l" and "n" of PyArg_ParseTuple: a number that fits 64 bits. -/
def parseLong : Val → Except Exc Int
  | .int n => if -2 ^ 63 ≤ n ∧ n < 2 ^ 63 then .ok n else .error .overflowError
  | _ => .error .typeError

/-- `if (zero == Py_None) zero = NULL`, cbddmodule.cpp:164-167; arguments that were not given are NULL before. -/
def noneToNull : Option Val → Option Val
  | some .none => none
  | v => v

/-- `zero ? self->zero->has_none : 1`, cbddmodule.cpp:187-188 -/
def noneOf (heap : Nat → NodeObj) : Option Nat → Int
  | some a => (heap a).hasNone
  | none => 1

/-- Bitwise or of two chars that are -1, 0 or 1: cbddmodule.cpp:188 -/
def orChar (a b : Int) : Int := if a = -1 ∨ b = -1 then -1 else if a = 0 ∧ b = 0 then 0 else 1

/-- The part of BDDNode_init for one branch, cbddmodule.cpp:169-176 and 177-184: none if it returns -1, which sets no exception. -/
def setBranch (arg : Option Val) (old : Option Nat) : Option (Option Nat) :=
  match arg with
  | none => some old
  | some (.node a) => some (some a)
  | some _ => none

/-- The address of an argument that was accepted. -/
def argAddr : Option Val → Option Nat
  | some (.node a) => some a
  | _ => none

/-- BDDNode_init, cbddmodule.cpp:155-190, called with num, zero and one; the object afterwards in either case.  If it returns -1 without an exception the
interpreter raises SystemError.  `heap` has the objects that arguments refer to. -/
def nodeInit (heap : Nat → NodeObj) (self : NodeObj) (num : Val) (zero one : Option Val) : Option Exc × NodeObj :=
  match parseLong num with
  | .error e => (some e, self)
  | .ok n =>
    let zero := noneToNull zero
    let one := noneToNull one
    match setBranch zero self.zero with
    | none => (some .systemError, self)
    | some z =>
      let self := { self with zero := z }
      match setBranch one self.one with
      | none => (some .systemError, self)
      | some o =>
        (none, ⟨n, z, o, orChar (noneOf heap (argAddr zero)) (noneOf heap (argAddr one))⟩)

/-- `BDDNode(num, zero, one)`: a new object, which is dropped if there is an exception. -/
def nodeCall (heap : Nat → NodeObj) (num : Val) (zero one : Option Val) : Except Exc NodeObj :=
  match nodeInit heap nodeNew num zero one with
  | (none, x) => .ok x
  | (some e, _) => .error e

/-- BDDTerm_init, cbddmodule.cpp:314-335; both arguments are needed ("OO"). -/
def termInit (self : TermObj) (args : List Val) : Option Exc × TermObj :=
  match args with
  | [a, f] => (none, ⟨some a, some f⟩)
  | _ => (some .typeError, self)

/-- set_cleanup_threshold, cbddmodule.cpp:853-862: the value is stored by PyArg_ParseTuple, before it is checked. -/
def setThreshold (old : Int) (args : List Val) : Option Exc × Int :=
  match args with
  | [v] =>
    match parseLong v with
    | .error e => (some e, old)
    | .ok n => if n < 0 then (some .valueError, n) else (none, n)
  | _ => (some .typeError, old)

/-- memory_cleanup, cbddmodule.cpp:750-756: is the node table cleaned? -/
def cleans (threshold : Int) (size : Nat) : Bool := threshold != 0 && decide ((size : Int) > threshold)

/-- READY_BDD_TYPE, cbddmodule.cpp:693-701; PyErr_BadArgument raises TypeError. -/
def ready : Val → Except Exc (Option Nat)
  | .node a => .ok (some a)
  | .none => .ok none
  | _ => .error .typeError

/-- The four functions on diagrams, cbddmodule.cpp:764-829: both arguments are checked before the table is cleaned and the diagrams are combined (`go`). -/
def opCall {σ : Type} (go : Option Nat → Option Nat → σ → Option Nat × σ) (clean : σ → σ) (args : List Val) (s : σ) :
    Except Exc (Option Nat) × σ :=
  match args with
  | [a, b] =>
    match ready a with
    | .error e => (.error e, s)
    | .ok a =>
      match ready b with
      | .error e => (.error e, s)
      | .ok b =>
        let r := go a b (clean s)
        (.ok r.1, r.2)
  | _ => (.error .typeError, s)

end OFE.Args
