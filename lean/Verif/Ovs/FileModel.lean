import Verif.Ovs.Model

/-!
# Open vSwitch text: groups and whole files

Model of the rest of `ofequivalence/convert_ovs.py`.  A GROUP action carries the number of the group; what that group is can be looked up in the
second result of `rulesetFromOvs`.  White space is ASCII white space, and lines end with a newline character.
-/

namespace OFE.Ovs
open Fmt

/-- `Group`, rule.py:1024-1040: `number`, `type_` and `buckets`. -/
structure Grp where
  number : Option Nat
  type : Option (List Char)
  buckets : List ActionList
deriving DecidableEq, Repr

/-- `pat in s` -/
def hasText (pat : List Char) : List Char → Bool
  | [] => pat.isEmpty
  | c :: r => (dropLit pat (c :: r)).isSome || hasText pat r

/-- `s.strip()` -/
def strip (s : List Char) : List Char := ((s.dropWhile isSpace).reverse.dropWhile isSpace).reverse

/-- `[\s,]` -/
def isSep (c : Char) : Bool := isSpace c || c == ','

/-- Separators at the end dropped. -/
def dropEnd (s : List Char) : List Char := (s.reverse.dropWhile isSep).reverse

/-- The pieces behind the first occurrence of the pattern in `re.split(r'[\s,]*bucket=[\s,]*', line)`, convert_ovs.py:547: separators around the
pattern belong to it. -/
def bucketPieces : List (List Char) → List (List Char)
  | [] => []
  | [p] => [p.dropWhile isSep]
  | p :: ps => dropEnd (p.dropWhile isSep) :: bucketPieces ps

/-- `_parse_bucket`, convert_ovs.py:524-539; more than one `actions=` is a ValueError. -/
def parseBucket (groups : List (Nat × Nat)) (line : List Char) : Except PyErr ActionList :=
  if hasText "actions=".toList line then
    match splitOn "actions=".toList line with
    | [_, actions] => actionsFromOvs groups actionSetAppend actions
    | _ => .error .valueError
  else .ok .empty

/-- `re.split(r'[\s,]+', s)`, convert_ovs.py:555: separators at either end leave an empty piece. -/
def splitSep (s : List Char) : List (List Char) :=
  if s.isEmpty then [[]]
  else (if (s.take 1).any isSep then [[]] else []) ++ items s ++ (if (s.reverse.take 1).any isSep then [[]] else [])

/-- One turn of the loop, convert_ovs.py:555-562: an item with no or with several `=` is a ValueError; other keys are ignored. -/
def groupItem (g : Grp) (item : List Char) : Except PyErr Grp :=
  match splitAt '=' item with
  | [k, v] =>
    if k = "group_id".toList then do return { g with number := some (← normaliseString v) }
    else if k = "type".toList then .ok { g with type := some v }
    else .ok g
  | _ => .error .valueError

/-- `_parse_group`, convert_ovs.py:542-567.  Without `bucket=` the variable `buckets` is not assigned before line 563: UnboundLocalError, a
NameError. -/
def parseGroup (groups : List (Nat × Nat)) (line : List Char) : Except PyErr Grp :=
  match splitOn "bucket=".toList line with
  | a :: b :: rest => do
    let g ← (splitSep (strip (dropEnd a))).foldlM groupItem ⟨none, none, []⟩
    let bs ← (bucketPieces (b :: rest)).mapM fun p => parseBucket groups (strip p)
    return { g with buckets := g.buckets ++ bs }
  | _ => do
    let _ ← (splitSep (strip line)).foldlM groupItem ⟨none, none, []⟩
    .error .nameError

/-- The groups as the actions see them: a number that is known stands for itself. -/
def known (gs : List (Option Nat × Grp)) : List (Nat × Nat) := gs.filterMap fun x => x.1.map fun n => (n, n)

/-- The lines that look like groups and like rules, convert_ovs.py:791-804. -/
def sortLines (lines : List (List Char)) : List (List Char) × List (List Char) :=
  let ls := lines.map strip
  (ls.filter fun l => hasText "group_id=".toList l, ls.filter fun l => !hasText "group_id=".toList l && hasText "actions=".toList l)

/-- One turn of the loop over the groups, convert_ovs.py:807-810. -/
def addGroup (gs : List (Option Nat × Grp)) (line : List Char) : Except PyErr (List (Option Nat × Grp)) := do
  let g ← parseGroup (known gs) line
  if (gs.lookup g.number).isSome then .error .assertion else return dictSet g.number g gs

/-- `ruleset_from_ovs`, convert_ovs.py:767-817, on the lines of the file. -/
def rulesetFromOvs {π : Type} (lines : List (List Char)) : Except PyErr (List (Rule π) × List (Option Nat × Grp)) := do
  let gs ← (sortLines lines).1.foldlM addGroup []
  let rs ← (sortLines lines).2.mapM fun l => ruleFromOvs (π := π) (known gs) l
  return (rs, gs)

/-- `ruleset_to_ovs`, convert_ovs.py:753-764: the text of the file. -/
def rulesetToOvs {π : Type} (rs : List (Rule π)) : Except PyErr (List Char) := do
  let ts ← rs.mapM ruleToOvs
  return (ts.map (· ++ ['\n'])).flatten

/-- `for line in file`, convert_ovs.py:791, up to the newline at the end of a line, which `strip` removes; a text that ends with a newline has an
empty line more here, which is skipped. -/
def fileLines (text : List Char) : List (List Char) := splitAt '\n' text

end OFE.Ovs
