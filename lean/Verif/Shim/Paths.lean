import Verif.Shim.Model

/-!
# Conflicting paths by header space

Model of `find_conflicting_paths` of `ofequivalence/normaliseheaderspace.py`.  A rule is its wildcard (`match.get_wildcard()`) and its path; the lists are
those after `sort_ruleset` (lines 369, 370).
-/

namespace OFE
namespace Shim

section
variable {π : Type}

/-- `matches(match)`, normaliseheaderspace.py:167-171; a shim without an included wildcard raises TypeError in `None & match`. -/
def matchesWc (n : Nat) (s : Shim) (w : Nat) : Except PyErr Bool :=
  match s.inc with
  | none => .error .typeError
  | some m => .ok (decide (m = wcIntersect n m w))

/-- `intersection(match)`, normaliseheaderspace.py:173-176, with `dup`, 46-51: the excluded wildcards and `zero` are kept. -/
def intersection (n : Nat) (s : Shim) (w : Nat) : Except PyErr Shim :=
  match s.inc with
  | none => .error .typeError
  | some m => .ok { s with inc := some (wcIntersect n m w) }

/-- `_collect_paths(headerspace, ruleset)`, normaliseheaderspace.py:333-344. -/
def collectPaths (n : Nat) (s : Shim) (rules : List (Nat × π)) : Except PyErr (List (π × Shim)) :=
  rules.foldlM (fun acc r => do
    if ← matchesWc n s r.1 then return acc ++ [(r.2, ← intersection n s r.1)] else return acc) []

/-- `r[orig_path] |= frozenset(new_conflicts)` or `r[orig_path] = frozenset(new_conflicts)`, normaliseheaderspace.py:379-382; a set is a list without
repetitions. -/
def addConflicts [DecidableEq π] (o : π) (ns : List π) : List (π × List π) → List (π × List π)
  | [] => [(o, ns.foldl (fun s x => Deps.setAdd x s) [])]
  | (o', s) :: r => if o = o' then (o', ns.foldl (fun s x => Deps.setAdd x s) s) :: r else (o', s) :: addConflicts o ns r

/-- `find_conflicting_paths(diff, orig_flows, new_flows)`, normaliseheaderspace.py:347-383. -/
def findConflictingPaths [DecidableEq π] (n : Nat) (diff : List Shim) (orig new : List (Nat × π)) : Except PyErr (List (π × List π)) :=
  diff.foldlM (fun r s => do
    (← collectPaths n s orig).foldlM (fun r o => do return addConflicts o.1 ((← collectPaths n o.2 new).map (·.1)) r) r) []

end
end Shim
end OFE
