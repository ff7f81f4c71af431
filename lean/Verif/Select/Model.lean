import Verif.Groups.Model
import Verif.Main.Model
import Verif.Deps.Indirect

/-!
# Selecting a compressed ruleset

Model of `select_compressed_ruleset` and `compress_ruleset` in `ofequivalence/ruleset.py`.  Rules are told apart by identity (`UniqueRules`).
-/

namespace OFE
namespace Groups

section
variable {ν : Type} [DecidableEq ν]

/-- The variables `groups`, `rule2group` and `assigned` of `select_compressed_ruleset`, ruleset.py:349-367; the set `assigned` is a list. -/
structure Sel (ν : Type) where
  groups : List (ν × List ν)
  r2g : List (ν × ν)
  assigned : List ν

/-- The elements of a list as a set. -/
def toSet (l : List ν) : List ν := l.foldr List.insert []

/-- `d[k]` -/
def getKey {β : Type} (d : List (ν × β)) (k : ν) : Except PyErr β :=
  match d.lookup k with
  | some v => .ok v
  | none => .error .keyError

/-- `_check_option_full(rule2group, assigned, rule)`, ruleset.py:304-312: expected, overlap. -/
def checkFull (t : Tree.Links ν) (s : Sel ν) (r : ν) : Except PyErr (List ν × List ν) := do
  let deps := t.chi r ++ t.par r
  let g ← groupsOf s.r2g deps
  return (g.filter fun x => decide (x ∈ s.assigned), deps.filter fun x => decide (x ∈ s.assigned))

/-- `_check_option(rule2group, assigned, rule)`, ruleset.py:314-327: expected, overlap. -/
def checkOption (t : Tree.Links ν) (s : Sel ν) (r : ν) : Except PyErr (List ν × List ν) := do
  let g ← groupsOf s.r2g (t.chi r)
  return (g, (t.chi r).filter fun x => decide (x ∈ s.assigned))

/-- The loop of `_allowed_options`, ruleset.py:297-301. -/
def keepFull (t : Tree.Links ν) (s : Sel ν) : List ν → Except PyErr (List ν)
  | [] => .ok []
  | o :: rest => do
    let x ← checkFull t s o
    let r ← keepFull t s rest
    return if sameSet x.1 x.2 then o :: r else r

/-- `_allowed_options(groups, rule2group, assigned, group)`, ruleset.py:294-302 -/
def allowedOptions (t : Tree.Links ν) (s : Sel ν) (g : ν) : Except PyErr (List ν) := do
  let opts ← getKey s.groups (← getKey s.r2g g)
  keepFull t s opts

/-- `_switch_assigned(groups, rule2group, assigned, new_assigned)`, ruleset.py:329-346 -/
def switchAssigned (s : Sel ν) (new : ν) : Except PyErr (Sel ν) := do
  let old ← getKey s.r2g new
  if old = new then return s
  else
    let opts ← getKey s.groups old
    let r2g := opts.foldl (fun m r => dictSet r new m) s.r2g
    match opts with
    | [] => .error .valueError
    | o :: rest =>
      if new ∈ o :: rest then
        if o = new then .error .assertion
        else
          let swapped := new :: rest.set (rest.idxOf new) o
          return ⟨dictSet new swapped (dictDel old s.groups), r2g,
            if old ∈ s.assigned then new :: s.assigned.filter fun x => decide (x ≠ old) else s.assigned⟩
      else .error .valueError

/-- The first option all of whose dependencies on rules below are kept, ruleset.py:373-378. -/
def firstOption (t : Tree.Links ν) (s : Sel ν) : List ν → Except PyErr (Option ν)
  | [] => .ok none
  | o :: rest => do
    let x ← checkOption t s o
    if sameSet x.1 x.2 then return some o else firstOption t s rest

/-- `exp - over`, ruleset.py:388-390 -/
def difference (t : Tree.Links ν) (s : Sel ν) (o : ν) : Except PyErr (List ν) := do
  let x ← checkFull t s o
  return toSet (x.1.filter fun y => decide (y ∉ x.2))

/-- Whether a rule that `diff` depends on can be picked from each group, ruleset.py:396-399. -/
def canMove (t : Tree.Links ν) (s : Sel ν) (diff : ν) : List ν → Except PyErr Bool
  | [] => .ok true
  | r :: rest => do
    let a ← allowedOptions t s r
    if a.any fun x => decide (x ∈ t.chi diff) then canMove t s diff rest else return false

/-- Moving the assigned rules, ruleset.py:404-407.  `ord` is the order in which python lists a set; it may depend on anything. -/
def moveAll (t : Tree.Links ν) (ord : Sel ν → List ν → List ν) (diff : ν) : List ν → Sel ν → Except PyErr (Sel ν)
  | [], s => .ok s
  | r :: rest, s => do
    let a ← allowedOptions t s r
    match ord s (a.filter fun x => decide (x ∈ t.chi diff)) with
    | [] => .error .indexError
    | c :: _ => moveAll t ord diff rest (← switchAssigned s c)

/-- The search among the options by the number of changes, ruleset.py:394-417.  When there is none the code imports a debugger that is not a
dependency of the package (`ImportError`, here a runtime error). -/
def shift (t : Tree.Links ν) (ord : Sel ν → List ν → List ν) (s : Sel ν) : List (ν × List ν) → Except PyErr (ν × Sel ν)
  | [] => .error .runtimeError
  | (diff, d) :: rest => do
    if ← canMove t s diff (ord s d) then
      let s' ← moveAll t ord diff (ord s d) s
      if diff ∈ (← allowedOptions t s' diff) then return (diff, ← switchAssigned s' diff)
      else .error .assertion
    else shift t ord s rest

/-- One turn of the `while` loop, ruleset.py:369-416. -/
def assignOne (t : Tree.Links ν) (ord : Sel ν → List ν → List ν) (s : Sel ν) (assigning : ν) : Except PyErr (Sel ν) := do
  let opts ← getKey s.groups assigning
  match ← firstOption t s opts with
  | some o =>
    let s' ← switchAssigned s o
    return { s' with assigned := o :: s'.assigned }
  | none =>
    let ds ← opts.mapM fun o => do return (o, ← difference t s o)
    let (o, s') ← shift t ord s (Deps.sortBy (fun a b => decide (a.2.length ≤ b.2.length)) ds)
    return { s' with assigned := o :: s'.assigned }

/-- `select_compressed_ruleset(ruleset, groups, rule2group)`, ruleset.py:349-418, which changes `groups`; `le` is the order of `sort_ruleset`. -/
def selectCompressed (le : ν → ν → Bool) (t : Tree.Links ν) (ord : Sel ν → List ν → List ν) (x : List (ν × List ν) × List (ν × ν)) : Except PyErr (Sel ν) :=
  match (Deps.sortBy le (x.1.map (·.1))).reverse with
  | [] => .error .indexError
  | g :: rest => rest.foldlM (assignOne t ord) ⟨x.1, x.2, [g]⟩

end

/-- `sort_ruleset`'s order, ruleset.py:34-48 -/
def rankLe {π : Type} (rules : List (Rule π)) (i j : Nat) : Bool :=
  match rules[i]?, rules[j]? with
  | some r, some s => decide (r.table < s.table ∨ (r.table = s.table ∧ s.priority ≤ r.priority))
  | _, _ => true

/-- `compress_ruleset(ruleset, deps=deps)`, ruleset.py:421-461, rules given by their numbers.  At the end of the `with` block the dict is rebuilt with the
usual equality of rules, which changes nothing if no two rules are equal (C51). -/
def compressRuleset {π : Type} (ord : Sel Nat → List Nat → List Nat) (rules : List (Rule π)) (deps : List (Nat × Nat)) :
    Except PyErr (List Nat × List (Nat × List Nat)) := do
  let x ← createSimilarGroups rules deps
  let t ← Tree.nodeToTree deps (List.range rules.length)
  let s ← selectCompressed (rankLe rules) t ord x
  return (Deps.sortBy (rankLe rules) (s.groups.map (·.1)), s.groups)

/-- `main` of compress_ruleset.py:65-110 without options other than `--output`: the ruleset that is passed to `save_ruleset` (line 110), and the compressed
ruleset whose size is printed (line 106).  Loading, timing and printing are left out, as is the conversion to a single table afterwards. -/
def compressMain {π : Type} (depth : Nat) (ord : Sel Nat → List Nat → List Nat) (rules : List (Rule π)) : Except PyErr (List (Rule π) × List (Rule π)) := do
  let ruleset := sortRuleset rules
  let deps ← Deps.buildRulesetDeps depth (ruleset.zipIdx.map fun x => (x.2, x.1))
  let c ← compressRuleset ord ruleset deps
  return (ruleset, c.1.filterMap fun i => ruleset[i]?)

end Groups
end OFE
