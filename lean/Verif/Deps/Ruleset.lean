import Verif.Deps.Indirect
import Verif.Hs.Model

/-!
# Direct dependencies over several tables

Model of `build_ruleset_deps` in `ofequivalence/ruleset_deps_direct.py`.  A rule is given with its goto table.  Only the keys of `reaches` are
kept: the packets on the edges are not read again and not returned.
-/

namespace OFE
namespace Deps

/-- `ruleset_tables[t]`, ruleset_deps_direct.py:259-261: the rules of a table in the order of the ruleset, none for a table that does not occur (it is
a defaultdict). -/
def tableRules (rs : List (DRule × Option Nat)) (t : Nat) : List DRule := (rs.filter fun r => r.1.table == t).map (·.1)

/-- `sorted(ruleset_tables)`, ruleset_deps_direct.py:262 -/
def tableOrder (rs : List (DRule × Option Nat)) : List Nat :=
  sortBy (fun a b => decide (a ≤ b)) (rs.foldl (fun l r => setAdd r.1.table l) [])

/-- `reaches.update(...)` and the assignments of `add_parents`, for the keys: ruleset_deps_direct.py:72, 275 -/
def addEdges (new es : List Edge) : List Edge := new.foldl (fun es e => setAdd e es) es

/-- One rule of the second loop, ruleset_deps_direct.py:276-283.  `parents` is `add_parents_bdd` or `add_parents_hs`. -/
def gotoEdges (parents : DRule → List DRule → Except PyErr (List Edge)) (rs : List (DRule × Option Nat)) (es : List Edge)
    (r : DRule × Option Nat) : Except PyErr (List Edge) :=
  match r.2 with
  | none => .ok es
  | some t => if r.1.table < t then do return addEdges (← parents r.1 (tableRules rs t)) es else .error .assertion

/-- `build_ruleset_deps`, ruleset_deps_direct.py:243-285.  `attach` is `use_bdd`: `AttachBDD(stats)` looks at `stats[0]` (utils.py:79).  The test in
lines 253-256 compares two different functions, so it never holds and nothing happens there; `input_to_table` is not used. -/
def directDeps (attach : Bool) (build : List DRule → Except PyErr (List Edge)) (parents : DRule → List DRule → Except PyErr (List Edge))
    (rs : List (DRule × Option Nat)) : Except PyErr (List Edge) :=
  if attach && rs.isEmpty then .error .indexError
  else do
    let es ← (tableOrder rs).foldlM (fun es t => do return addEdges (← build (tableRules rs t)) es) []
    rs.foldlM (gotoEdges parents rs) es

/-- The edges that `add_parents_bdd` sets, ruleset_deps_direct.py:64-77 -/
def parentsBdd (n : Nat) (R : DRule) (P : List DRule) : Except PyErr (List Edge) := do return (← addParents n R P ⟨[], []⟩).reaches.map (·.1)

/-- The edges that `add_parents_hs` sets, ruleset_deps_direct.py:45-61 -/
def parentsHs (n : Nat) (R : DRule) (P : List DRule) : Except PyErr (List Edge) := do return (← addParentsHs n R P []).map (·.1)

/-- The edges of `build_table_deps(ruleset, use_bdd=True)`, ruleset_deps_direct.py:79-100 -/
def batchEdges (n : Nat) (rs : List DRule) : Except PyErr (List Edge) := do return (← buildTableDeps n rs).map (·.1)

/-- The edges of `build_table_deps(ruleset, use_bdd=False)`, ruleset_deps_direct.py:79-100 -/
def batchEdgesHs (n : Nat) (rs : List DRule) : Except PyErr (List Edge) := do return (← buildTableDepsHs n rs).map (·.1)

/-- The edges of `build_table_deps_incremental(ruleset)`, ruleset_deps_direct.py:203-240, which ignores `use_bdd`. -/
def incrementalEdges (n : Nat) (ord : List DRule → List DRule) (depth : Nat) (rs : List DRule) : Except PyErr (List Edge) := do
  return (← buildIncremental n ord depth rs).map (·.1)

/-- What `build_ruleset_deps` sees of a ruleset (rule.py:113-152, 170-211): see `DRule.ofRule`. -/
def gotoRules {π : Type} (rs : List (URule π)) : Except PyErr (List (DRule × Option Nat)) :=
  rs.mapM fun r => do return (← DRule.ofRule r.1 r.2, r.2.inst.goto)

/-- `build_ruleset_deps(stats, build_table=...)` on rules, ruleset_deps_direct.py:243-285.  Simplified: the wildcards of all matches are computed first (an
exception there comes earlier). -/
def directRuleset {π : Type} (attach : Bool) (build : List DRule → Except PyErr (List Edge)) (parents : DRule → List DRule → Except PyErr (List Edge))
    (rs : List (URule π)) : Except PyErr (List (Nat × Nat)) := do
  return (← directDeps attach build parents (← gotoRules rs)).map fun e => (e.child.uid, e.parent.uid)

end Deps
end OFE
