import Verif.Check.Model
import Verif.Ruleset.Model

/-!
# The command line tool

Model of `main` of `ofequivalence/check_equivalence.py` without options other than `-d`: what is printed under "Equivalent rulesets are printed on
the same line".  Loading of files, progress and statistics output are left out.
-/

namespace OFE

/-- Insert before the first rule whose key `(table, -priority)` is not smaller. -/
def insertKeyed {π : Type} (r : Rule π) : List (Rule π) → List (Rule π)
  | [] => [r]
  | s :: ss => if r.table < s.table ∨ (r.table = s.table ∧ s.priority ≤ r.priority) then r :: s :: ss else s :: insertKeyed r ss

/-- `sorted(ruleset, key=lambda f: (f.table, -f.priority))`, check_equivalence.py:136-137; stable, like `sorted`. -/
def sortRuleset {π : Type} (rules : List (Rule π)) : List (Rule π) := rules.foldr insertKeyed []

/-- Body of the loop over the rulesets, check_equivalence.py:132-159: sort, `to_single_table`, normalise.  `dc` is the option `-d`. -/
def canonicalForm (dc : Bool) (reg : LReg) (rules : List (Rule Nat)) : Except PyErr (DD Nat × LReg) := do
  let single ← toSingleTable (sortRuleset rules) true
  if dc then normaliseRules reg single else normaliseRulesNaive reg single

/-- The loop over the rulesets, check_equivalence.py:132-159.  `files` are the items of the dict `rulesets`. -/
def canonicalForms {ν : Type} (dc : Bool) : LReg → List (ν × List (Rule Nat)) → Except PyErr (List (ν × DD Nat))
  | _, [] => .ok []
  | reg, (name, rules) :: rest => do
    let x ← canonicalForm dc reg rules
    let more ← canonicalForms dc x.2 rest
    return (name, x.1) :: more

/-- The lines printed, check_equivalence.py:161-180; nothing for fewer than two rulesets. -/
def mainGroups {ν : Type} (dc : Bool) (files : List (ν × List (Rule Nat))) : Except PyErr (List (List ν)) := do
  let forms ← canonicalForms dc (Cudd.Reg.init none none) files
  return if files.length ≤ 1 then [] else (groupEqual checkEqualPlain forms).map (·.map Prod.fst)

end OFE
