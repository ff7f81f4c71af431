import Verif.Ryu.Model
import Verif.Ryu.Auto
import Verif.Ovs.FileModel

/-!
# Saving and loading rulesets: `save_ruleset` in `ofequivalence/convert_ruleset.py` and the functions of `ofequivalence/convert_ryu.py` below it

A file is what was put into it: a pickled value, a JSON value, or text.  What `pickle.dump` and `json.dump` write, `pickle.load` and `json.load` read as the
same value; what the load functions do with files of another kind is a parameter.
-/

namespace OFE.Save
open Ryu Auto

/-- An element of a pickled list: a `Rule`, a Ryu flow message, or anything else. -/
inductive PElem (π : Type) where
  | rule (r : Rule π)
  | flow (f : RFlow)
  | other

/-- A value that `pickle.load` returns, convert_ryu.py:217-221: a list, a dict such as scripts/collect_state.py:252 writes, of lists and of values that
cannot be iterated over (`none`), or anything else. -/
inductive PVal (π : Type) where
  | list (l : List (PElem π))
  | dict (l : List (String × Option (List (PElem π))))
  | other

/-- A file.  An emptied file is the empty text. -/
inductive Content (π : Type) where
  | pickled (v : PVal π)
  | json (j : Js)
  | text (t : List Char)

/-- `rule_from_ryu`, convert_ryu.py:149-164, on an element: only flow messages have what it reads.  A `Rule` has a priority, a cookie, a table and a match, but
the match has no `_fields2` (line 55), so that it fails too. -/
def elemFromRyu {π : Type} : PElem π → Except PyErr (PElem π)
  | .flow f => do return .rule (← ruleFromRyu f)
  | .rule _ => .error .attributeError
  | .other => .error .attributeError

/-- `ruleset_from_pickle`, convert_ryu.py:209-231: only the first element is asked whether it is a `Rule`. -/
def rulesetFromPickle {π : Type} : PVal π → Except PyErr (List (PElem π))
  | .list (.rule r :: l) => .ok (.rule r :: l)
  | .list l => l.mapM elemFromRyu
  | .dict d =>
    match d.lookup "flow_stats" with
    | none => .error .keyError
    | some none => .error .typeError
    | some (some l) => l.mapM elemFromRyu
  | .other => .error .typeError

/-- What a function that writes a file at a path leaves there, and whether it raises. -/
abbrev Written (π : Type) := Content π × Except PyErr Unit

/-- A function that writes once everything is computed: the file is emptied by `open` in as_file_handle (utils.py:185-188) before that. -/
def writeOnce {π α : Type} (x : Except PyErr α) (c : α → Content π) : Written π :=
  match x with
  | .ok a => (c a, .ok ())
  | .error e => (.text [], .error e)

/-- `ruleset_to_ryu_json`, convert_ryu.py:174-183; `n` is the counter of group numbers. -/
def rulesetToRyuJson {π : Type} (heap : Nat → Option GroupObj) (fuel n : Nat) (rs : List (Rule π)) : Written π :=
  writeOnce (rulesetToRyu heap fuel rs n) fun x => .json (.list (x.1.map .flow))

/-- `ruleset_to_ryu_pickle`, convert_ryu.py:186-195 -/
def rulesetToRyuPickle {π : Type} (heap : Nat → Option GroupObj) (fuel n : Nat) (rs : List (Rule π)) : Written π :=
  writeOnce (rulesetToRyu heap fuel rs n) fun x => .pickled (.list (x.1.map .flow))

/-- `ruleset_to_pickle`, convert_ryu.py:198-206 -/
def rulesetToPickle {π : Type} (rs : List (Rule π)) : Written π := (.pickled (.list (rs.map .rule)), .ok ())

/-- `file.writelines(gen)`, convert_ovs.py:763-764: the lines before a rule that cannot be written are in the file. -/
def writeLines {π : Type} : List (Rule π) → List Char × Except PyErr Unit
  | [] => ([], .ok ())
  | r :: rest =>
    match Ovs.ruleToOvs r with
    | .error e => ([], .error e)
    | .ok t => (t ++ '\n' :: (writeLines rest).1, (writeLines rest).2)

/-- `ruleset_to_ovs`, convert_ovs.py:753-764, and the file it leaves. -/
def rulesetToOvsFile {π : Type} (rs : List (Rule π)) : Written π := (.text (writeLines rs).1, (writeLines rs).2)

/-- `save_ruleset`, convert_ruleset.py:120-144, to a path at which `old` was before.  `pprint` is the text of `print_ruleset` (166-169). -/
def saveRuleset {π : Type} (heap : Nat → Option GroupObj) (fuel n : Nat) (pprint : List (Rule π) → List Char) (old : Content π) (rs : List (Rule π))
    (format : String) : Written π :=
  if format = "ryu_json" then rulesetToRyuJson heap fuel n rs
  else if format = "ryu_pickle" then rulesetToRyuPickle heap fuel n rs
  else if format = "pickle" then rulesetToPickle rs
  else if format = "ovs" then rulesetToOvsFile rs
  else if format = "text" then (.text (pprint rs), .ok ())
  else (old, .ok ())

/-- What the load functions (convert_ruleset.py:42-48) do with a file of another kind than they are for, and what the positions are; `reply` and `other` are
those of `rulesetFromJson`. -/
structure Readers (π : Type) where
  wrong : Fmt → Content π → Except PyErr (List (PElem π))
  reply : Js → Except PyErr (List RFlow)
  other : Js → Except PyErr RFlow
  fin : Fmt → Nat

/-- The load functions on the file at a path, convert_ruleset.py:42-48. -/
def readers {π : Type} (R : Readers π) (c : Content π) : Load (List (PElem π)) := fun f _ =>
  (match f, c with
    | .json, .json j => (rulesetFromJson R.reply R.other j).map (·.map .rule)
    | .pickle, .pickled v => rulesetFromPickle v
    | .ovs, .text t => (Ovs.rulesetFromOvs (Ovs.fileLines t)).map (·.1.map .rule)
    | f, c => R.wrong f c, R.fin f)

/-- Exceptions of `pickle.load` and `json.load` as `ruleset_from_ryu` tells them apart, convert_ryu.py:253, 260. -/
inductive RyuErr where
  | valueError | unpickling
  | other (e : PyErr)
deriving DecidableEq, Repr

/-- `ruleset_from_ryu`, convert_ryu.py:234-264: `json` and `pickle` are the two load functions from a position; with `seek` the source can be rewound and
is, otherwise it is a path and opened anew.  A name that is a number is a TypeError. -/
def rulesetFromRyu {ρ : Type} (json pickle : Nat → Except RyuErr ρ × Nat) (name : Name) (seek : Bool) (pos : Nat) : Except RyuErr ρ :=
  match name with
  | .number _ => .error (.other .typeError)
  | .text s =>
    if mentions s ["json", "jsn"] then
      match json pos with
      | (.error .valueError, pos') => (pickle (if seek then 0 else pos')).1
      | (r, _) => r
    else
      match pickle pos with
      | (.error .unpickling, pos') => (json (if seek then 0 else pos')).1
      | (r, _) => r

end OFE.Save
