import Verif.Wildcard.Model

/-!
# Decision diagrams, level 1: trees

Model of the recursive operations of `ofequivalence/bdd.py` (same recursion in `c_src/cbddmodule.cpp`, and, through
`Cudd_addApply` with the leaf operators of `c_src/cuddmodule.c`, in the CUDD back end).  At this level a diagram is a tree and
object identity `is` is structural equality; `Verif.Store` adds the shared node table, identities and memo tables and
proves that they implement this level.
-/

namespace OFE

/-- A diagram root: python `None` (`bot`; CUDD: the background constant), a `BDDTermination` (`term`, bdd.py:149-166) or a
`BDDNode` (`node`, bdd.py:123-146). -/
inductive DD (α : Type) where
  | bot
  | term (a : α)
  | node (num : Nat) (zero one : DD α)
deriving DecidableEq, Repr

namespace DD
variable {α : Type}

/-- `has_none` of `BDDNode.__init__`, bdd.py:133-134, and of `BDDTermination`, bdd.py:154.  The code never asks it of
`None`. -/
def hasNone : DD α → Bool
  | bot => true
  | term _ => false
  | node _ z o => z.hasNone || o.hasNone

variable [DecidableEq α]

/-- `check_ncache_rm_dup`, bdd.py:198-210 (without the node table, see `Verif.Store`). -/
def mk (num : Nat) (zero one : DD α) : DD α :=
  if zero = one then zero else node num zero one

/-- The recursion shared by `meld_recursive` (bdd.py:310-330), `difference_recursive` (bdd.py:359-385),
`subtract_recursive` (bdd.py:406-428) and `intersection_recursive` (bdd.py:443-465), and by `Cudd_addApply`: first the
operation's own termination test `base`, then descend at the smaller node number.  A termination has number 10^12
and `None` children, larger than every node number, so two leaves that are not caught by `base` give `None`
(only reached by intersection).  `difference_recursive` with `b = None` (bdd.py:364-368) is the leaf case of `b`.
Memoisation is not visible at this level. -/
def apply (base : DD α → DD α → Option (DD α)) (a b : DD α) : DD α :=
  match base a b with
  | some r => r
  | none =>
    match a, b with
    | node n z o, node m z' o' =>
      if n = m then mk n (apply base z z') (apply base o o')
      else if n < m then mk n (apply base z (node m z' o')) (apply base o (node m z' o'))
      else mk m (apply base (node n z o) z') (apply base (node n z o) o')
    | node n z o, bot => mk n (apply base z bot) (apply base o bot)
    | node n z o, term t => mk n (apply base z (term t)) (apply base o (term t))
    | bot, node m z' o' => mk m (apply base bot z') (apply base bot o')
    | term t, node m z' o' => mk m (apply base (term t) z') (apply base (term t) o')
    | _, _ => bot
termination_by sizeOf a + sizeOf b

/-- Termination test of `meld_recursive`, bdd.py:298-303. -/
def meldBase (a b : DD α) : Option (DD α) :=
  if a = bot then some b
  else if b = bot then some a
  else if !a.hasNone then some a
  else none

/-- `meld_recursive`, bdd.py:279-330; `BDD.__add__`, bdd.py:44-47; cbddmodule.cpp `_meld_recursive`. -/
def meld (a b : DD α) : DD α := apply meldBase a b

/-- A diagram root is a termination (`a.num == BDDTermination.num`). -/
def isTerm : DD α → Bool
  | term _ => true
  | _ => false

/-- Termination test of `difference_recursive`, bdd.py:344-354.  `d` is the action of `IS_DIFFERING`. -/
def differenceBase (d : α) (a b : DD α) : Option (DD α) :=
  if a = b then some bot
  else if a = bot then some (term d)
  else if b = bot then (if a.isTerm then some (term d) else none)
  else if a.isTerm && b.isTerm then some (term d)
  else none

/-- `difference_recursive`, bdd.py:337-385; `BDD.difference`, bdd.py:49-52; cbddmodule.cpp:510-572. -/
def difference (d : α) (a b : DD α) : DD α := apply (differenceBase d) a b

/-- Termination test of `subtract_recursive`, bdd.py:395-404. -/
def subtractBase (a b : DD α) : Option (DD α) :=
  if a = b then some bot
  else if a = bot then some bot
  else if b = bot then some a
  else if a.isTerm && b.isTerm then some a
  else none

/-- `subtract_recursive`, bdd.py:388-428; `BDD.subtract`, bdd.py:54-57; cbddmodule.cpp:575-637. -/
def subtract (a b : DD α) : DD α := apply subtractBase a b

/-- Termination test of `intersection_recursive`, bdd.py:438-441. -/
def intersectionBase (a b : DD α) : Option (DD α) :=
  if a = bot ∨ b = bot then some bot
  else if a = b then some a
  else none

/-- `intersection_recursive`, bdd.py:431-465; `BDD.intersection`, bdd.py:59-62; cbddmodule.cpp:639-690. -/
def intersection (a b : DD α) : DD α := apply intersectionBase a b

/-- Loop of `wc_to_BDD`, bdd.py:242-248, from bit `b` on, `k` bits remaining out of `n = b + k`; the node number of bit
`b` is `n-1-b`.  `none` is the `AssertionError` of line 244 for a `z` tbit. -/
def wcLoop (n wc : Nat) : Nat → Nat → DD α → Option (DD α)
  | _, 0, c => some c
  | b, k + 1, c =>
    let value := (wc >>> (b * 2)) &&& 3
    if value = 0 then none
    else if value = 1 then wcLoop n wc (b + 1) k (node (n - 1 - b) c bot)
    else if value = 2 then wcLoop n wc (b + 1) k (node (n - 1 - b) bot c)
    else wcLoop n wc (b + 1) k c

/-- `wc_to_BDD`, bdd.py:213-251 (cbddmodule.cpp:822-851, cuddmodule.c:756-796).  The rule cache is not visible here. -/
def wcToDD (n wc : Nat) (act : α) : Option (DD α) :=
  if wc = 0 then some bot else wcLoop n wc 0 n (term act)

/-- `_BDD_to_wcs`, bdd.py:262-276, `bits = n - 1`: all paths with their wildcard (cuddmodule.c:396-428). -/
def toWcsAux (bits : Nat) : DD α → Nat → List (Nat × α)
  | bot, _ => []
  | term a, wc => [(wc, a)]
  | node num z o, wc =>
    toWcsAux bits z (andNot wc (2 <<< ((bits - num) * 2))) ++
    toWcsAux bits o (andNot wc (1 <<< ((bits - num) * 2)))

/-- `BDD_to_wcs`, bdd.py:254-257: start from `Match().get_wildcard()`, i.e. all ones. -/
def toWcs (n : Nat) (t : DD α) : List (Nat × α) := toWcsAux (n - 1) t (wcFull n)

end DD
end OFE
