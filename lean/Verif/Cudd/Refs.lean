import Verif.Cudd.Model

/-!
# References held on CUDD nodes

`c_src/cuddmodule.c` keeps nodes alive with `Cudd_Ref` and lets go of them with `Cudd_Deref`/`Cudd_RecursiveDeref`.  CUDD
itself counts the references among nodes, so what the module is responsible for are the *external* references: the model
keeps them as a list, one entry per `Cudd_Ref` not yet undone.  A node may be collected once no entry reaches it.  Constants
are treated as nodes; `BK` additionally belongs to the manager.
-/

namespace OFE
namespace Cudd
open DD

/-- The python `BDD` objects (cuddmodule.c:54) with their roots, the external references, and the next unused object name. -/
structure RefState where
  objs : List (Nat × DD Nat)
  ext : List (DD Nat)
  fresh : Nat
deriving DecidableEq

/-- After the module is loaded: `DIFFERS` is referenced, cuddmodule.c:889-890. -/
def RefState.init : RefState := ⟨[], [addConst (encode 1 0)], 0⟩

/-- `Cudd_Ref` (external). -/
def RefState.ref (x : DD Nat) (s : RefState) : RefState := { s with ext := x :: s.ext }

/-- `Cudd_Deref` and `Cudd_RecursiveDeref` (external): dropping a reference nobody holds is undefined in C; here it is
`runtimeError`. -/
def RefState.deref (x : DD Nat) (s : RefState) : Except PyErr RefState :=
  if x ∈ s.ext then .ok { s with ext := s.ext.erase x } else .error .runtimeError

/-- `BDD(action)`: `BDD_new`, `BDD_init`, cuddmodule.c:178-201 -/
def RefState.newBdd (action : Nat) (s : RefState) : RefState :=
  { objs := (s.fresh, addConst (encode action 0)) :: s.objs, ext := addConst (encode action 0) :: s.ext,
    fresh := s.fresh + 1 }

/-- `obj->root = x` -/
def RefState.setRoot (id : Nat) (x : DD Nat) (s : RefState) : RefState :=
  { s with objs := s.objs.map fun o => if o.1 = id then (id, x) else o }

/-- The root of a live object; using an object that is not there cannot be written in python and is a `typeError` here. -/
def RefState.root (id : Nat) (s : RefState) : Except PyErr (DD Nat) :=
  match s.objs.lookup id with
  | some x => .ok x
  | none => .error .typeError

/-- The end of `bmeld_recursive` and its like, cuddmodule.c:555-558 (same lines in 581-584, 604-607, 627-630, 659-662,
682-685): make an object, drop the reference on its placeholder root, give it the root `ret`. -/
def RefState.give (ret : DD Nat) (s : RefState) : Except PyErr RefState :=
  match (s.newBdd 0).deref (addConst (encode 0 0)) with
  | .error e => .error e
  | .ok s' => .ok (s'.setRoot s.fresh ret)

/-- `Cudd_T` / `Cudd_E` of a node that is not constant, cuddmodule.c:712-713, 728-729; otherwise `PyErr_BadArgument`. -/
def branch (b : Bool) : DD Nat → Except PyErr (DD Nat)
  | node _ z o => .ok (if b then o else z)
  | _ => .error .typeError

/-- `oget_true` and `oget_false`, cuddmodule.c:708-738: here the reference is taken after the object is made. -/
def RefState.child (b : Bool) (id : Nat) (s : RefState) : Except PyErr RefState :=
  match s.root id with
  | .error e => .error e
  | .ok x =>
    match branch b x with
    | .error e => .error e
    | .ok y =>
      match s.give y with
      | .error e => .error e
      | .ok s' => .ok (s'.ref y)

/-- `b…_recursive`, cuddmodule.c:548-685, for an operation on diagrams. -/
def RefState.binary (f : DD Nat → DD Nat → DD Nat) (a b : Nat) (s : RefState) : Except PyErr RefState :=
  match s.root a, s.root b with
  | .ok x, .ok y => (s.ref (f x y)).give (f x y)
  | _, _ => .error .typeError

/-- Loop of the C `wc_to_BDD`, cuddmodule.c:773-790, with the references it takes (`Cudd_Ref(tmp)`, lines 780 and 785; the
reference on the previous `f` is not dropped). -/
def wcRefs (n wc : Nat) : Nat → Nat → DD Nat → List (DD Nat) → DD Nat × List (DD Nat)
  | _, 0, c, ext => (c, ext)
  | b, k + 1, c, ext =>
    let d := (wc >>> (b * 2)) &&& 3
    if d = 1 then wcRefs n wc (b + 1) k (mk (n - 1 - b) c bot) (mk (n - 1 - b) c bot :: ext)
    else if d = 2 then wcRefs n wc (b + 1) k (mk (n - 1 - b) bot c) (mk (n - 1 - b) bot c :: ext)
    else wcRefs n wc (b + 1) k c ext

/-- The C `wc_to_BDD`, cuddmodule.c:756-796 -/
def RefState.wcToBdd (n wc t : Nat) (s : RefState) : Except PyErr RefState :=
  let r := wcRefs n wc 0 n (addConst (encode t 0)) (addConst (encode t 0) :: s.ext)
  RefState.give r.1 { s with ext := r.2 }

/-- `obj.__init__(action)` on an object that already has a root, cuddmodule.c:192-201: the root is overwritten. -/
def RefState.reinit (id action : Nat) (s : RefState) : Except PyErr RefState :=
  match s.root id with
  | .error e => .error e
  | .ok _ => .ok ((s.ref (addConst (encode action 0))).setRoot id (addConst (encode action 0)))

/-- `BDD_dealloc`, cuddmodule.c:172-176, when python has no more use for the object. -/
def RefState.release (id : Nat) (s : RefState) : Except PyErr RefState :=
  match s.root id with
  | .error e => .error e
  | .ok x =>
    match s.deref x with
    | .error e => .error e
    | .ok s' => .ok { s' with objs := s'.objs.filter fun o => o.1 ≠ id }

/-- The binary operations, cuddmodule.c:548-685 -/
inductive BinOp where
  | meld | difference | subtract | diffTagged | intersection
deriving DecidableEq

/-- What each computes, cuddmodule.c:484-546 -/
def BinOp.eval : BinOp → DD Nat → DD Nat → DD Nat
  | .meld => Cudd.meld
  | .difference => Cudd.difference (encode 1 0)
  | .subtract => Cudd.subtract
  | .diffTagged => Cudd.diffTagged
  | .intersection => Cudd.intersection

/-- What python can do with the module's `BDD` objects. -/
inductive RefOp where
  | new (action : Nat)
  | binary (op : BinOp) (a b : Nat)
  | child (b : Bool) (a : Nat)
  | wc (n wc t : Nat)
  | reinit (a action : Nat)
  | release (a : Nat)
deriving DecidableEq

/-- One operation. -/
def RefState.step (s : RefState) : RefOp → Except PyErr RefState
  | .new a => .ok (s.newBdd a)
  | .binary op a b => s.binary op.eval a b
  | .child b a => s.child b a
  | .wc n w t => s.wcToBdd n w t
  | .reinit a x => s.reinit a x
  | .release a => s.release a

/-- A history of operations. -/
def RefState.run (s : RefState) : List RefOp → Except PyErr RefState
  | [] => .ok s
  | op :: ops =>
    match s.step op with
    | .error e => .error e
    | .ok s' => s'.run ops

end Cudd
end OFE
