import Verif.Main.Reverse
import Verif.Files.Ruleset

/-!
# The three programs: `main` in `ofequivalence/check_equivalence.py`, `ofequivalence/convert_ruleset.py` and `ofequivalence/graph_ruleset_deps.py`

The command line is as argparse leaves it.  Output on the way (progress, times, statistics) is left out.
-/

namespace OFE.Cli
open Save Auto Ryu

/-! ### check_equivalence -/

/-- `INPUT_FORMATS`, convert_ruleset.py:39 -/
def inputFormats : List String := ["auto", "ryu_pickle", "ryu_json", "pickle", "ovs", "fib"]

/-- What the program loads, in order, check_equivalence.py:114-124: the names without an option, then those of each format.  `opts` are the
lists of argparse (`action="append"`). -/
def requests (names : List String) (opts : String → List String) : List (String × String) :=
  names.map (·, "auto") ++ inputFormats.flatMap fun f => (opts f).map (·, f)

/-- The loops, check_equivalence.py:114-124: `rulesets[f_name] = ruleset`.  `load` is `load_ruleset` in a world `σ` that it may change (standard
input can be read once). -/
def loadAll {σ ρ : Type} (load : σ → String → String → Except PyErr ρ × σ) : σ → List (String × String) → List (String × ρ) →
    Except PyErr (List (String × ρ))
  | _, [], d => .ok d
  | st, (n, f) :: rest, d =>
    match load st n f with
    | (.error e, _) => .error e
    | (.ok r, st') => loadAll load st' rest (dictSet n r d)

/-- How the program ends: with the usage and the status -1 (check_equivalence.py:126-129), with the status 0 and nothing said about equivalence (161-162), or
with lines of names (164-180). -/
inductive Outcome where
  | usage
  | quiet
  | lines (l : List (List String))
deriving DecidableEq, Repr

/-- `main`, check_equivalence.py:76-180.  `items` gives the order of `rulesets.items()` (that of insertion on python 3.7, any on older ones). -/
def checkMain {σ : Type} (py3 rev dc : Bool) (items : List (String × List (Rule Nat)) → List (String × List (Rule Nat)))
    (load : σ → String → String → Except PyErr (List (Rule Nat)) × σ) (st : σ) (names : List String) (opts : String → List String) :
    Except PyErr Outcome := do
  let d ← loadAll load st (requests names opts) []
  if d.isEmpty then return .usage
  let lines ← mainLines py3 rev dc (items d)
  return if d.length ≤ 1 then .quiet else .lines lines

/-! ### convert_ruleset -/

/-- The elements of a loaded ruleset as rules.  Simplified: what a ruleset that holds something else is saved as is an error of attributes. -/
def asRules {π : Type} : List (PElem π) → Except PyErr (List (Rule π))
  | [] => .ok []
  | .rule r :: l => do return r :: (← asRules l)
  | _ :: _ => .error .attributeError

/-- Files by their paths. -/
abbrev Disk (π : Type) := String → Option (Content π)

/-- `main`, convert_ruleset.py:147-163, from a path to a path: the files afterwards and whether it raises.  A path without a file cannot be opened
(`missing`). -/
def convertMain {π : Type} (R : Readers π) (values : List Fmt) (heap : Nat → Option GroupObj) (fuel n : Nat) (pprint : List (Rule π) → List Char)
    (missing : PyErr) (disk : Disk π) (source inFormat destination outFormat : String) : Disk π × Except PyErr Unit :=
  match disk source with
  | none => (disk, .error missing)
  | some c =>
    match loadRuleset (readers R c) values inFormat (.text source.toList) .absent 0 with
    | .error e => (disk, .error e)
    | .ok l =>
      match asRules l with
      | .error e => (disk, .error e)
      | .ok rs =>
        let w := saveRuleset heap fuel n pprint ((disk destination).getD (.text [])) rs outFormat
        (fun p => if p = destination then (if outFormat ∈ ["ryu_json", "ryu_pickle", "pickle", "ovs", "text"] then some w.1 else disk p) else disk p, w.2)

/-! ### graph_ruleset_deps -/

/-- The choices of `--type`, graph_ruleset_deps.py:188 -/
inductive GType where
  | dotraw
  | dotpdf
  | d3
  | pyplot
deriving DecidableEq, Repr

/-- `args.type in FILE_EXT`, graph_ruleset_deps.py:163-167 -/
def GType.hasExt : GType → Bool
  | .pyplot => false
  | _ => true

/-- What the program does that can be seen from outside. -/
inductive Event where
  | usage
  | tempMade (path : String)
  | window
  | wrote (path : String)
  | printed
  | opened (path : String)
  | tempGone (path : String)
deriving DecidableEq, Repr

/-- The drawing functions, graph_ruleset_deps.py:455-462, 548-609: what they do, and whether they raise.  `made` says whether the drawing can be made
at all (`create_dot`, `json.dumps`).  `dot` is the command of the same name: it may not exist (`Popen` raises) or fail, which is not looked at. -/
def draw (t : GType) (made : Except PyErr Unit) (dot : Except PyErr Bool) (output : Option String) : List Event × Except PyErr Unit :=
  match made with
  | .error e => ([], .error e)
  | .ok () =>
    match t with
    | .pyplot => ([.window], .ok ())
    | .dotpdf =>
      match dot with
      | .error e => ([], .error e)
      | .ok false => ([], .ok ())
      | .ok true => (match output with | some p => [.wrote p] | none => [.printed], .ok ())
    | _ => (match output with | some p => [.wrote p] | none => [.printed], .ok ())

/-- `args.output` and similar tests: neither None nor the empty string, graph_ruleset_deps.py:444, 448, 465. -/
def given (o : Option String) : Option String := o.filter (· ≠ "")

/-- `with ctx as tmpfile: …` and what is in it, graph_ruleset_deps.py:447-469; `tmp` is the name of the temporary file, which is removed even when an
exception is raised. -/
def graphBody (t : GType) (output : Option String) (outputOnly : Bool) (tmp : String) (made : Except PyErr Unit) (dot : Except PyErr Bool) :
    List Event × Except PyErr Unit :=
  let temp := (given output).isNone && !outputOnly && t.hasExt
  let path := match given output with
    | some p => some p
    | none => if outputOnly || !t.hasExt then none else some tmp
  let drawn := draw t made dot path
  let shown := match drawn.2, path with
    | .ok (), some p => if outputOnly then [] else [.opened p]
    | _, _ => []
  ((if temp then [.tempMade tmp] else []) ++ drawn.1 ++ shown ++ (if temp then [.tempGone tmp] else []), drawn.2)

/-- `main`, graph_ruleset_deps.py:432-469, with the check of the arguments, 217-221 (which ends with the status 0).  `built` says whether the ruleset
can be loaded and its graph built. -/
def graphMain (t : GType) (output : Option String) (outputOnly : Bool) (tmp : String) (built made : Except PyErr Unit) (dot : Except PyErr Bool) :
    List Event × Except PyErr Unit :=
  if t = .pyplot ∧ (outputOnly = true ∨ (given output).isSome) then ([.usage], .ok ())
  else match built with
    | .error e => ([], .error e)
    | .ok () => graphBody t output outputOnly tmp made dot

end OFE.Cli
