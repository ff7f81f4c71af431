import Verif.Cudd.Model

/-!
# The iterator of the CUDD back end

`BDDIterator` of `c_src/cuddmodule.c:56-61, 268-394`, through which `cuddbdd.BDD_to_wcs` (cuddbdd.py:74-91) reads a diagram.
CUDD is external: `Cudd_FirstCube`/`Cudd_NextCube` are taken to enumerate, else-branch first, the paths to constants other
than the background; a cube is an array over the variables with 0 (else), 1 (then) or 2 (not on the path).
-/

namespace OFE
namespace Cudd
open DD

/-- The cubes `Cudd_FirstCube` and `Cudd_NextCube` deliver for a diagram, cuddmodule.c:327-334 (external, see above).
`size` is `Cudd_ReadSize`, the length of the arrays. -/
def cubes {α : Type} (size : Nat) : DD α → List (List Nat × α)
  | bot => []
  | term a => [(List.replicate size 2, a)]
  | node i z o => (cubes size z).map (fun c => (c.1.set i 0, c.2)) ++ (cubes size o).map (fun c => (c.1.set i 1, c.2))

/-- One round of the loop of `BDDIterator_next`, cuddmodule.c:345-374: entry `c` at variable `i`.  A variable above `bits`
makes `PyNumber_Lshift` raise for a negative count (its result is not checked). -/
def cubeStep (bits i c wc : Nat) : Except PyErr Nat :=
  if c = 0 then (if i ≤ bits then .ok (andNot wc (2 <<< ((bits - i) * 2))) else .error .valueError)
  else if c = 1 then (if i ≤ bits then .ok (andNot wc (1 <<< ((bits - i) * 2))) else .error .valueError)
  else .ok wc

/-- The loop of `BDDIterator_next`, cuddmodule.c:345-374, from variable `i` on. -/
def cubeWc (bits : Nat) : Nat → List Nat → Nat → Except PyErr Nat
  | _, [], wc => .ok wc
  | i, c :: l, wc =>
    match cubeStep bits i c wc with
    | .error e => .error e
    | .ok wc' => cubeWc bits (i + 1) l wc'

/-- `BDDIterator`, cuddmodule.c:56-61: the diagram, the wildcard to start from, `bits`, and `gen`: `none` for `NULL`,
otherwise the cubes not yet delivered. -/
structure Iter where
  root : DD Nat
  wc : Nat
  bits : Nat
  gen : Option (List (List Nat × Nat))
deriving DecidableEq

/-- `BDDIterator_init`, cuddmodule.c:292-308 -/
def Iter.init (root : DD Nat) (wc bits : Nat) : Iter := ⟨root, wc, bits, none⟩

/-- `BDDIterator_iter`, cuddmodule.c:310-318 -/
def Iter.iter (it : Iter) : Iter := { it with gen := none }

/-- Where the generator stands when `BDDIterator_next` looks at it: `Cudd_FirstCube` if there is none yet, else
`Cudd_NextCube`, cuddmodule.c:326-332. -/
def Iter.pending (size : Nat) (it : Iter) : List (List Nat × Nat) :=
  match it.gen with
  | none => cubes size it.root
  | some cs => cs

/-- The wildcard `BDDIterator_next` makes of a cube, cuddmodule.c:341-374: the loop runs to the number of variables the
manager has *now*, while the array was allocated by `Cudd_FirstCube` for those it had then; reading past its end (undefined
in C) is modelled as an error. -/
def cubeRead (size bits : Nat) (cube : List Nat) (wc : Nat) : Except PyErr Nat :=
  if cube.length < size then .error .indexError else cubeWc bits 0 (cube.take size) wc

/-- `BDDIterator_next`, cuddmodule.c:320-376: `ok none` is `StopIteration`; `size` is `Cudd_ReadSize` at the call. -/
def Iter.next (size : Nat) (it : Iter) : Except PyErr (Option (Nat × Nat × Nat)) × Iter :=
  match it.pending size with
  | [] => (.ok none, { it with gen := none })
  | c :: cs =>
    match cubeRead size it.bits c.1 it.wc with
    | .error e => (.error e, { it with gen := some cs })
    | .ok w => (.ok (some (w, (decode c.2).1, (decode c.2).2)), { it with gen := some cs })

/-- `k` calls of `next()` in a row. -/
def Iter.nexts (size : Nat) : Nat → Iter → List (Except PyErr (Option (Nat × Nat × Nat))) × Iter
  | 0, it => ([], it)
  | k + 1, it => ((it.next size).1 :: (Iter.nexts size k (it.next size).2).1, (Iter.nexts size k (it.next size).2).2)

/-- `size_rec`, cuddmodule.c:378-385 -/
def sizeRec {α : Type} : DD α → Nat
  | bot => 0
  | term _ => 1
  | node _ z o => sizeRec z + sizeRec o

/-- `BDDIterator_len`, cuddmodule.c:387-394 -/
def Iter.len (it : Iter) : Nat := sizeRec it.root

/-- What the generator of `BDD_to_wcs`, cuddbdd.py:89-90, collects before the lookup of the actions: `next()` until
`StopIteration`; the number of calls is bounded by the first argument. -/
def Iter.collect (size : Nat) : Nat → Iter → Except PyErr (List (Nat × Nat × Nat))
  | 0, _ => .error .fuel
  | k + 1, it =>
    match it.next size with
    | (.error e, _) => .error e
    | (.ok none, _) => .ok []
    | (.ok (some x), it') =>
      match Iter.collect size k it' with
      | .error e => .error e
      | .ok l => .ok (x :: l)

end Cudd
end OFE
