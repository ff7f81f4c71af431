import Verif.Ovs.Model
import Verif.Rule.Model

/-!
# Rules as text

Model of the `__str__` methods of `ofequivalence/rule.py` and of `format_path` (`ofequivalence/check_equivalence.py`).  Texts are lists of characters.
Python's own `str` of numbers, `None` and tuples is as in python 3 (python 2 writes `u'...'` for names that are unicode).
-/

namespace OFE.Str
open Fmt

/-- `sep.join(parts)`, as in rule.py:823, 950, 1228. -/
def join (sep : List Char) : List (List Char) → List Char
  | [] => []
  | [p] => p
  | p :: q :: rest => p ++ (sep ++ join sep (q :: rest))

/-- The name of a field: the key of `oxm_fields`, openflow_desc.py:194-273 (rule.py:1225). -/
def fieldName (f : Nat) : List Char := ((allFields.getD f ("", 0)).1).toList

/-- The name of the type of an action, openflow_desc.py:289-293. -/
def actionName (a : Action) : List Char := (actionNames.getD a.ty "").toList

/-- `str(n)` of a number or `None`. -/
def optNum : Option Nat → List Char
  | none => "None".toList
  | some n => digits 10 n

/-- The second part of an action as python writes it within a tuple (rule.py:823 writes `str((type, value))`): the value of a set-field is itself a
tuple of name and value; actions without argument have `None`.  `groupText` is the text of a group, rule.py:1058-1063. -/
def valueText (groupText : Nat → List Char) : Action → List Char
  | .setField f v => "('".toList ++ (fieldName f ++ ("', ".toList ++ (digits 10 v ++ ")".toList)))
  | .popMpls n | .pushMpls n | .pushPbb n | .pushVlan n | .setMplsTtl n | .setNwTtl n | .setQueue n | .output n => digits 10 n
  | .group g => groupText g
  | .copyTtlIn | .popVlan | .popPbb | .copyTtlOut | .decMplsTtl | .decNwTtl => "None".toList

/-- `str((type, value))`, rule.py:823 -/
def actionText (groupText : Nat → List Char) (a : Action) : List Char :=
  "('".toList ++ (actionName a ++ ("', ".toList ++ (valueText groupText a ++ ")".toList)))

/-- `ActionList.__str__`, rule.py:822-823 -/
def listText (groupText : Nat → List Char) (l : ActionList) : List Char :=
  "[".toList ++ (join ",".toList (l.iter.map (actionText groupText)) ++ "]".toList)

/-- `Instructions.__str__`, rule.py:935-950; an action list is true if its length is not zero. -/
def instText (groupText : Nat → List Char) (i : Inst) : List Char :=
  let ret : List (List Char) :=
    (match i.goto with | none => [] | some n => ["goto_table=".toList ++ digits 10 n]) ++
    (if i.apply.len = 0 then [] else ["apply_actions=".toList ++ listText groupText i.apply]) ++
    (if i.write.len = 0 then [] else ["write_actions=".toList ++ listText groupText i.write]) ++
    (match i.wmeta with | none => [] | some (v, m) => ["write_metadata=(".toList ++ (digits 10 v ++ (", ".toList ++ (optNum m ++ ")".toList)))]) ++
    (if i.clear then ["clear_actions".toList] else []) ++
    (match i.meter with | none => [] | some n => ["meter=".toList ++ digits 10 n])
  "Instructions[".toList ++ (join ",".toList ret ++ "]".toList)

/-- One entry of `Match.__str__`, rule.py:1222-1227.  All fields below 56 are in `oxm_fields`; a field added on the fly is there too (openflow_desc.py:97),
but its name is not modelled. -/
def entryText (x : Nat × Nat × Option Nat) : List Char :=
  fieldName x.1 ++ (": ".toList ++ withMask (Ovs.fieldForm x.1).text x.2.1 x.2.2)

/-- `Match.__str__`, rule.py:1220-1228 -/
def matchText (m : Match) : List Char := "{".toList ++ (join ", ".toList (m.items.map entryText) ++ "}".toList)

/-- `Rule.__str__`, rule.py:305-309 -/
def ruleText {π : Type} (groupText : Nat → List Char) (r : Rule π) : List Char :=
  "Rule(\n\tpriority: ".toList ++ (digits 10 r.priority ++ ("\n\tcookie: ".toList ++ (optNum r.cookie ++ ("\n\tmatch: ".toList ++
    (matchText r.mat ++ ("\n\tinstructions: ".toList ++ (instText groupText r.inst ++ ("\n\ttable: ".toList ++ (digits 10 r.table ++ ")".toList)))))))))

/-- `i == halfway` with `halfway = len(lines) / 2`, check_equivalence.py:204-205: a float on python 3, rounded down on python 2. -/
def isHalf (py3 : Bool) (len i : Nat) : Bool := if py3 then 2 * i == len else i == len / 2

/-- The lines of a later rule, check_equivalence.py:205 -/
def indent (py3 : Bool) (lines : List (List Char)) : List (List Char) :=
  lines.mapIdx fun i line => if isHalf py3 lines.length i then "\t--> ".toList ++ line else "\t".toList ++ line

/-- `format_path`, check_equivalence.py:195-207, on the texts of the rules. -/
def formatPath (py3 : Bool) (path : List (List Char)) : List Char :=
  path.foldl (fun build string =>
    if build.isEmpty then build ++ (string ++ "\n".toList)
    else build ++ (joinWith '\n' (indent py3 (Fmt.splitAt '\n' string)) ++ "\n".toList)) []

end OFE.Str
