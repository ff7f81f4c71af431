import Verif.Bdd.Model
import Verif.Common

/-!
# Normalisation of a single-table ruleset and the equality check

Model of `ofequivalence/normalisebdd.py` at the level of diagrams.
-/

namespace OFE
set_option linter.unusedSectionVars false
variable {α : Type} [DecidableEq α]

/-- What normalisation reads from a single-table rule: `rule.table`, `rule.match.get_wildcard()` and
`rule.instructions.full_actions().per_output_actions()` (normalisebdd.py:123-132). -/
structure NRule (α : Type) where
  table : Nat
  wc : Nat
  acts : α
deriving DecidableEq, Repr

/-- `assert len({rule.table for rule in rules}) <= 1`, normalisebdd.py:123 and 160. -/
def oneTable (rules : List (NRule α)) : Bool :=
  match rules with
  | [] => true
  | r :: rs => rs.all fun s => s.table == r.table

/-- `wc_to_BDD` with its assertion as an exception, bdd.py:213-251. -/
def wcToDDE (n wc : Nat) (act : α) : Except PyErr (DD α) :=
  match DD.wcToDD n wc act with
  | some t => .ok t
  | none => .error .assertion

/-- The (wildcard, actions) pairs fed to `wc_to_BDD` for the rules, normalisebdd.py:125-132.  `expand` is
`normalise_set_fields` when `match_redundancy` is set, and `fun r => [(r.wc, r.acts)]` otherwise. -/
def entries (expand : NRule α → List (Nat × α)) (rules : List (NRule α)) : List (Nat × α) :=
  rules.flatMap expand

/-- `match_redundancy=False`, normalisebdd.py:129-132. -/
def plain (r : NRule α) : List (Nat × α) := [(r.wc, r.acts)]

/-- One round of the while loop, normalisebdd.py:134-140: `[a+b for a, b in zip(bdds[::2], bdds[1::2])]` plus the odd
last one. -/
def pairUp : List (DD α) → List (DD α)
  | [] => []
  | [a] => [a]
  | a :: b :: rest => DD.meld a b :: pairUp rest


theorem pairUp_length : ∀ l : List (DD α), (pairUp l).length = (l.length + 1) / 2
  | [] => by simp [pairUp]
  | [_] => by simp [pairUp]
  | _ :: _ :: rest => by
    simp only [pairUp, List.length_cons, pairUp_length rest]; omega

/-- `while len(bdds) > 1`, normalisebdd.py:133-140. -/
def pairLoop (bdds : List (DD α)) : List (DD α) :=
  if bdds.length > 1 then pairLoop (pairUp bdds) else bdds
termination_by bdds.length
decreasing_by rw [pairUp_length]; omega

/-- `normalise_divide_and_conquer`, normalisebdd.py:107-142. -/
def normaliseDC (n : Nat) (expand : NRule α → List (Nat × α)) (rules : List (NRule α)) : Except PyErr (DD α) :=
  if oneTable rules then do
    let bdds ← (entries expand rules).mapM fun e => wcToDDE n e.1 e.2
    match pairLoop bdds with
    | [t] => .ok t
    | _ => .error .assertion
  else .error .assertion

/-- `normalise_naive`, normalisebdd.py:145-172. -/
def normaliseNaive (n : Nat) (expand : NRule α → List (Nat × α)) (rules : List (NRule α)) : Except PyErr (DD α) :=
  if oneTable rules then
    (entries expand rules).foldlM (fun bdd e => do return DD.meld bdd (← wcToDDE n e.1 e.2)) DD.bot
  else .error .assertion

/-- `check_equal(a, b, check_match_redundancy=False)`, normalisebdd.py:230: `a == b`, which compares root identities
(bdd.py:116, cuddmodule.c:200). -/
def checkEqualPlain (a b : DD α) : Bool := decide (a = b)

/-- The loop body of `_collect_paths`, normalisebdd.py:255-265, over the single-table rules (wildcard and path).
`d` is the action of `IS_DIFFERING_TUPLE`.  Returns the collected pieces and the remaining diagram. -/
def collectLoop {π : Type} (n : Nat) (d : α) :
    List (Nat × π) → DD α → List (π × DD α) → Except PyErr (List (π × DD α) × DD α)
  | [], rem, acc => .ok (acc, rem)
  | (wc, path) :: rest, rem, acc => do
    let rBdd ← wcToDDE n wc d
    let inter := DD.intersection rem rBdd
    let (rem', acc') := if inter ≠ DD.bot then (DD.difference d rem inter, acc ++ [(path, inter)]) else (rem, acc)
    if rem' = DD.bot then .ok (acc', rem') else collectLoop n d rest rem' acc'

/-- `_collect_paths`, normalisebdd.py:238-273.  The path of packets that no rule covers is the empty tuple `noPath`.
The `assert rule.table == 0` is a precondition on the caller (single-table rulesets) and not modelled. -/
def collectPaths {π : Type} (n : Nat) (d : α) (noPath : π) (bdd : DD α) (rules : List (Nat × π)) :
    Except PyErr (List (π × DD α)) := do
  let (acc, rem) ← collectLoop n d rules bdd []
  return if rem ≠ DD.bot then acc ++ [(noPath, rem)] else acc

/-- `find_conflicting_paths`, normalisebdd.py:276-308, with `no_sort=True` (callers pass rulesets in priority order; the
sorting of lines 297-299 is `sort_ruleset`).  `frozenset(new_conflicts)` is kept as a list. -/
def findConflictingPaths {π : Type} [DecidableEq π] (n : Nat) (d : α) (noPath : π) (diff : DD α)
    (orig new : List (Nat × π)) : Except PyErr (List (π × List π)) := do
  let parts ← collectPaths n d noPath diff orig
  parts.foldlM (fun res x => do
    let news ← collectPaths n d noPath x.2 new
    return dictSet x.1 (news.map (·.1)) res) []

end OFE

namespace OFE
set_option linter.unusedSectionVars false
variable {α : Type} [DecidableEq α]

set_option wf.preprocess false in
/-- The grouping loop of `check_equivalence.main`, check_equivalence.py:166-180: take the first canonical ruleset, put
all later ones that `check_equal` accepts in its group, repeat with the rest. -/
def groupEqual {ν β : Type} (eq : β → β → Bool) (l : List (ν × β)) : List (List (ν × β)) :=
  match l with
  | [] => []
  | original :: others =>
    (original :: others.filter fun o => eq original.2 o.2) ::
      groupEqual eq (others.filter fun o => !eq original.2 o.2)
termination_by l.length
decreasing_by
  have := List.length_filter_le (fun o : ν × β => !eq original.2 o.2) others
  simp only [List.length_cons]; omega

end OFE
