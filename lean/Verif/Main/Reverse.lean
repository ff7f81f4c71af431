import Verif.Main.Model
import Verif.Reverse.Model

/-!
# The command line tool with the option -r

Model of `main` of `ofequivalence/check_equivalence.py` with the options `-d` and `-r`.  As in `Main/Model`, loading of files, progress and
statistics output are left out.
-/

namespace OFE

/-- Sorting and, with `-r`, reversing, check_equivalence.py:135-141. -/
def prepareRuleset (py3 rev : Bool) (rules : List (Rule Nat)) : Except PyErr (List (Rule Nat)) :=
  if rev then reverseFields py3 (sortRuleset rules) else .ok (sortRuleset rules)

/-- Body of the loop over the rulesets, check_equivalence.py:132-159. -/
def optionForm (py3 rev dc : Bool) (reg : LReg) (rules : List (Rule Nat)) : Except PyErr (DD Nat × LReg) := do
  let prepared ← prepareRuleset py3 rev rules
  let single ← toSingleTable prepared true
  if dc then normaliseRules reg single else normaliseRulesNaive reg single

/-- The loop over the rulesets, check_equivalence.py:132-159. -/
def optionForms {ν : Type} (py3 rev dc : Bool) : LReg → List (ν × List (Rule Nat)) → Except PyErr (List (ν × DD Nat))
  | _, [] => .ok []
  | reg, (name, rules) :: rest => do
    let x ← optionForm py3 rev dc reg rules
    let more ← optionForms py3 rev dc x.2 rest
    return (name, x.1) :: more

/-- The lines printed, check_equivalence.py:161-180, with the options `-r` (`rev`) and `-d` (`dc`). -/
def mainLines {ν : Type} (py3 rev dc : Bool) (files : List (ν × List (Rule Nat))) : Except PyErr (List (List ν)) := do
  let forms ← optionForms py3 rev dc (Cudd.Reg.init none none) files
  return if files.length ≤ 1 then [] else (groupEqual checkEqualPlain forms).map (·.map Prod.fst)

end OFE
