import Verif.Bdd.Model
import Verif.Common

/-!
# The CUDD back end

`c_src/cuddmodule.c` supplies leaf operators to `Cudd_addApply`; `ofequivalence/cuddbdd.py` numbers the terminal actions.
CUDD itself is external: `Cudd_addApply op f g` is taken to be the recursion `DD.apply op` on reduced ordered diagrams, two
diagrams being the same pointer exactly when they are the same tree, and `BK` (the background, constant 0) is `DD.bot`.
Terminal values are doubles; all values used are integers below 2^52 (proved in `C08_difftagged`), which doubles represent
exactly, so they are modelled as `Nat`.
-/

namespace OFE
namespace Cudd
open DD

/-- `Cudd_IsConstant` -/
def isConst {α : Type} : DD α → Bool
  | node .. => false
  | _ => true

/-- `Cudd_V` of a constant; the background constant is 0. -/
def constVal : DD Nat → Nat
  | term v => v
  | _ => 0

/-- `Cudd_addConst`: constant 0 is the background. -/
def addConst (v : Nat) : DD Nat := if v = 0 then bot else term v

/-- `ENCODE_TERMINAL`, cuddmodule.c:75 -/
def encode (a b : Nat) : Nat := a ||| (b <<< 26)

/-- `DECODE_TERMINAL`, cuddmodule.c:76-78 (the cast to `int` keeps the low 32 bits). -/
def decode (t : Nat) : Nat × Nat := ((t % 2 ^ 32) &&& 0x3FFFFFF, ((t >>> 26) % 2 ^ 32) &&& 0x3FFFFFF)

section
variable {α : Type} [DecidableEq α]

/-- `Cudd_addMeld`, cuddmodule.c:484-493 -/
def meldLeaf (f g : DD α) : Option (DD α) :=
  if f = g ∨ f = bot then some g
  else if isConst f ∨ g = bot then some f
  else none

/-- `Cudd_addSubtract`, cuddmodule.c:495-505 -/
def subtractLeaf (f g : DD α) : Option (DD α) :=
  if f = g then some bot
  else if isConst f && isConst g then some f
  else none

/-- `Cudd_addDifference`, cuddmodule.c:509-521; `DIFFERS` is constant 1 (cuddmodule.c:889). -/
def differenceLeaf (d : α) (f g : DD α) : Option (DD α) :=
  if f = g then some bot
  else if f = bot then some (term d)
  else if isConst f && isConst g then some (term d)
  else none

/-- `Cudd_addIntersection`, cuddmodule.c:536-546 -/
def intersectionLeaf (f g : DD α) : Option (DD α) :=
  if f = g then some f
  else if isConst f && isConst g then some bot
  else none

/-- `bmeld_recursive`, cuddmodule.c:548-560 -/
def meld (f g : DD α) : DD α := apply meldLeaf f g
/-- `osubtract_recursive` -/
def subtract (f g : DD α) : DD α := apply subtractLeaf f g
/-- `odifference_recursive` -/
def difference (d : α) (f g : DD α) : DD α := apply (differenceLeaf d) f g
/-- `ointersection_recursive` -/
def intersection (f g : DD α) : DD α := apply intersectionLeaf f g

/-- Loop of the C `wc_to_BDD`, cuddmodule.c:773-790.  There is no assertion: a `z` tbit is skipped like a don't care. -/
def wcLoop (n wc : Nat) : Nat → Nat → DD α → DD α
  | _, 0, c => c
  | b, k + 1, c =>
    let d := (wc >>> (b * 2)) &&& 3
    if d = 1 then wcLoop n wc (b + 1) k (mk (n - 1 - b) c bot)
    else if d = 2 then wcLoop n wc (b + 1) k (mk (n - 1 - b) bot c)
    else wcLoop n wc (b + 1) k c

/-- `cuddbdd.wc_to_BDD` without the terminal numbering, cuddbdd.py:50-71 and cuddmodule.c:756-796. -/
def wcToDD (n wc : Nat) (t : α) : DD α := if wc = 0 then bot else wcLoop n wc 0 n (term t)

end

/-- `Cudd_addDiffTagged`, cuddmodule.c:523-534 -/
def diffTaggedLeaf (f g : DD Nat) : Option (DD Nat) :=
  if f = g then some bot
  else if isConst f && isConst g then some (addConst (encode (constVal f) (constVal g)))
  else none

/-- `odifftagged_recursive` -/
def diffTagged (f g : DD Nat) : DD Nat := apply diffTaggedLeaf f g

/-- Terminal numbering state of cuddbdd.py:31-38: `ACTION_MAPPING`, `TERM_TO_ACTION`, `ACTION_COUNTER`.  `φ` is the type of
friendly actions (dictionary keys), `α` of actions. -/
structure Reg (φ α : Type) where
  mapping : List (φ × Nat)
  termTo : List (Nat × Option α)
  counter : Nat

variable {φ α : Type} [DecidableEq φ]

/-- cuddbdd.py:31-38 after import. -/
def Reg.init (fDiffers : φ) (differs : α) : Reg φ α :=
  ⟨[(fDiffers, 1)], [(0, none), (1, some differs)], 2⟩

/-- Terminal id for a (friendly action, action) pair, cuddbdd.py:58-66. -/
def Reg.id (r : Reg φ α) (f : φ) (a : α) : Nat × Reg φ α :=
  match r.mapping.lookup f with
  | some i => (i, r)
  | none => (r.counter, ⟨r.mapping ++ [(f, r.counter)], r.termTo ++ [(r.counter, some a)], r.counter + 1⟩)

/-- A history of `wc_to_BDD` calls (non-zero wildcards), cuddbdd.py:50-71: the terminal ids handed to `_cudd.wc_to_BDD` and
the final tables. -/
def Reg.run (r : Reg φ α) : List (φ × α) → List Nat × Reg φ α
  | [] => ([], r)
  | (f, a) :: h =>
    let x := r.id f a
    let y := Reg.run x.2 h
    (x.1 :: y.1, y.2)

/-- `TERM_TO_ACTION[i]` -/
def Reg.action (r : Reg φ α) (i : Nat) : Except PyErr (Option α) :=
  match r.termTo.lookup i with
  | some a => .ok a
  | none => .error .keyError

/-- `BDD_to_wcs`, cuddbdd.py:74-91 with the iterator of cuddmodule.c:396-428: all (wildcard, left, right). -/
def toWcs (r : Reg φ α) (n : Nat) (t : DD Nat) : Except PyErr (List (Nat × Option α × Option α)) :=
  (DD.toWcs n t).mapM fun x => do
    let l ← r.action (decode x.2).1
    let rr ← r.action (decode x.2).2
    return (x.1, l, rr)

end Cudd
end OFE
