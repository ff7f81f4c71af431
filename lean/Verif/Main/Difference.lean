import Verif.Main.Model
import Verif.Cudd.Model

/-!
# The command line tool with `-D`

Model of the last part of `main` of `ofequivalence/check_equivalence.py`: for the first rulesets of successive lines, the paths of the packets
that differ.  The text that is printed for a path is that of `format_path` (C89).
-/

namespace OFE

/-- The arguments of `_collect_paths` for the rules, normalisebdd.py:255-259.  `get_wildcard` and the assertion that the table is 0 are evaluated
for all rules at once; the loop stops at the first rule that leaves nothing. -/
def pathEntries (rules : List (Rule Nat)) : Except PyErr (List (Nat × List Nat)) :=
  rules.mapM fun r => if r.table = 0 then do return ((← r.mat.getWildcard).1, r.path) else .error .assertion

/-- `find_conflicting_paths(diff, orig, new)` on rulesets, normalisebdd.py:276-308, with the sorting of lines 297-299 (`sort_ruleset` has the key
of check_equivalence.py:137, ruleset.py:34-48).  The mark of differing packets is terminal 1, cuddbdd.py:31-36; a path is a list of positions in
the ruleset given to `to_single_table`, so two equal rules at different positions are kept apart here, while in the dict they are one key. -/
def conflictingRules (diff : DD Nat) (orig new : List (Rule Nat)) : Except PyErr (List (List Nat × List (List Nat))) := do
  findConflictingPaths totBits 1 [] diff (← pathEntries (sortRuleset orig)) (← pathEntries (sortRuleset new))

/-- The dict `single_tables`, check_equivalence.py:143-145 -/
def singleTables {ν : Type} (files : List (ν × List (Rule Nat))) : Except PyErr (List (ν × List (Rule Nat))) :=
  files.mapM fun x => do return (x.1, ← toSingleTable (sortRuleset x.2) true)

/-- Body of the loop over two successive lines, check_equivalence.py:183-188; `first[0]` is the first ruleset of the line.  The difference is the
one of `cuddbdd`. -/
def showDifference {ν : Type} [DecidableEq ν] (singles : List (ν × List (Rule Nat))) (first second : List (ν × DD Nat)) :
    Except PyErr (ν × ν × List (List Nat × List (List Nat))) :=
  match first, second with
  | (a, t) :: _, (b, u) :: _ =>
    match singles.lookup a, singles.lookup b with
    | some cs, some ds => do return (a, b, ← conflictingRules (Cudd.difference 1 t u) cs ds)
    | _, _ => .error .keyError
  | _, _ => .error .indexError

/-- What is shown with `-D`, check_equivalence.py:182-192: for each two successive lines the names of their first rulesets and the dict of paths. -/
def mainDifferences {ν : Type} [DecidableEq ν] (dc : Bool) (files : List (ν × List (Rule Nat))) :
    Except PyErr (List (ν × ν × List (List Nat × List (List Nat)))) := do
  let forms ← canonicalForms dc (Cudd.Reg.init none none) files
  let singles ← singleTables files
  if files.length ≤ 1 then return []
  let groups := groupEqual checkEqualPlain forms
  (groups.zip groups.tail).mapM fun x => showDifference singles x.1 x.2

end OFE
