import Verif.Rule.Model
import Verif.Ovs.FileModel

/-!
# Loading rulesets: `ofequivalence/convert_ruleset.py`
-/

namespace OFE.Auto

/-- The load functions, convert_ruleset.py:42-48; "pickle" and "ryu_pickle" are the same function. -/
inductive Fmt where
  | json
  | pickle
  | fib
  | ovs
deriving DecidableEq, Repr

/-- `source.name` or `str(source)`, convert_ruleset.py:64-68; the name of a file opened by its descriptor is a number. -/
inductive Name where
  | text (s : List Char)
  | number (n : Nat)
deriving DecidableEq, Repr

/-- What `source.seek(0)` does, convert_ruleset.py:93-94: there is no such method (a path), it goes to the start, or it raises (a pipe). -/
inductive Seek where
  | absent
  | rewinds
  | raises (e : PyErr)
deriving DecidableEq, Repr

/-- A load function as it works on the source: from a position, the result and the position afterwards.  Only what derives from `Exception` is a result here
(convert_ruleset.py:91).  For a path the position does not matter: the file is opened anew. -/
abbrev Load (ρ : Type) := Fmt → Nat → Except PyErr ρ × Nat

/-- `a in file_name or b in file_name`, convert_ruleset.py:72-78 -/
def mentions (s : List Char) (words : List String) : Bool := words.any fun w => Ovs.hasText w.toList s

/-- `f_priority` before the remaining formats are added, convert_ruleset.py:70-79 -/
def byName (s : List Char) : List Fmt :=
  (if mentions s ["json", "jsn"] then [.json] else []) ++ (if mentions s ["pickle", "pkl"] then [.pickle] else []) ++
    (if mentions s ["fib"] then [.fib] else []) ++ (if mentions s ["ovs"] then [.ovs] else [])

/-- `f_priority`, convert_ruleset.py:82-84.  `values` is `set(_input_load_fn.values())` in the order in which it happens to be iterated over. -/
def tryOrder (values : List Fmt) (s : List Char) : List Fmt := byName s ++ values.filter (fun l => !(byName s ++ [Fmt.ovs]).contains l) ++ [.ovs]

/-- The loop, convert_ruleset.py:87-94; an exception of `seek` is not caught. -/
def tryAll {ρ : Type} (load : Load ρ) (seek : Seek) : List Fmt → Nat → Except PyErr ρ
  | [], _ => .error .valueError
  | l :: rest, pos =>
    match load l pos with
    | (.ok r, _) => .ok r
    | (.error _, pos') =>
      match seek with
      | .absent => tryAll load seek rest pos'
      | .rewinds => tryAll load seek rest 0
      | .raises e => .error e

/-- `ruleset_from_auto`, convert_ruleset.py:51-97; `'json' in 3` is a TypeError. -/
def rulesetFromAuto {ρ : Type} (load : Load ρ) (values : List Fmt) (name : Name) (seek : Seek) (pos : Nat) : Except PyErr ρ :=
  match name with
  | .number _ => .error .typeError
  | .text s => tryAll load seek (tryOrder values s) pos

/-- `_input_load_fn`, convert_ruleset.py:42-48 -/
def inputLoadFn : List (String × Fmt) := [("ryu_json", .json), ("pickle", .pickle), ("ryu_pickle", .pickle), ("ovs", .ovs), ("fib", .fib)]

/-- `load_ruleset`, convert_ruleset.py:100-117, but for the choice of standard input (106-110). -/
def loadRuleset {ρ : Type} (load : Load ρ) (values : List Fmt) (format : String) (name : Name) (seek : Seek) (pos : Nat) : Except PyErr ρ :=
  if format = "auto" then rulesetFromAuto load values name seek pos
  else match inputLoadFn.lookup format with
    | some l => (load l pos).1
    | none => .error .valueError

end OFE.Auto
