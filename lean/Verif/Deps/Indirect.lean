import Verif.Deps.OfRule
import Verif.Wildcard.Model

/-!
# Indirect dependencies

Model of `ofequivalence/ruleset_deps_indirect.py`.  Sets are lists without repetition.
-/

namespace OFE
namespace Deps

/-- `add_parents_hs`, ruleset_deps_indirect.py:37-45 -/
def indirectHs (n : Nat) (R : DRule) (P : List DRule) (g : List Edge) : Except PyErr (List Edge) := do
  let wc ← startWc R P
  return P.foldl (fun g p => if wcIntersect n wc p.wc ≠ 0 then setAdd ⟨R, p⟩ g else g) g

/-- `add_parents_bdd`, ruleset_deps_indirect.py:48-60 (without `parent_to_edge`, which no caller passes). -/
def indirectBdd (n : Nat) (R : DRule) (P : List DRule) (g : List Edge) : Except PyErr (List Edge) := do
  let packets := ofWc n (← startWc R P)
  return P.foldl (fun g p => if Cudd.intersection packets (p.bdd n) ≠ .bot then setAdd ⟨R, p⟩ g else g) g

/-- `build_table_deps(ruleset)`, ruleset_deps_indirect.py:63-84 -/
def buildIndirect (n : Nat) (rs : List DRule) : Except PyErr (List Edge) :=
  rs.foldlM (fun g R => indirectHs n R (potential rs R) g) []

/-- `build_table_deps(ruleset, use_bdd=True)`, ruleset_deps_indirect.py:63-84; `AttachBDD` looks at `ruleset[0]` (utils.py:79). -/
def buildIndirectBdd (n : Nat) (rs : List DRule) : Except PyErr (List Edge) :=
  if rs.isEmpty then .error .indexError else rs.foldlM (fun g R => indirectBdd n R (potential rs R) g) []

/-! ### Several tables -/

/-- A rule with its identity: within `UniqueRules` (rule.py:1234-1302) rules are equal only to themselves. -/
abbrev URule (π : Type) := Nat × Rule π

/-- `ruleset_tables`, ruleset_deps_indirect.py:156-158 -/
def groupTables {π : Type} (rs : List (URule π)) : List (Nat × List (URule π)) :=
  rs.foldl (fun d r => dictSet r.2.table ((d.lookup r.2.table).getD [] ++ [r]) d) []

/-- `for parent in parents: edges.add((parent, rule))`, ruleset_deps_indirect.py:137-138 -/
def addAll (parents : List Nat) (b : Nat) (es : List (Nat × Nat)) : List (Nat × Nat) := parents.foldl (fun es a => setAdd (a, b) es) es

/-- `_recurse_goto_deps`, ruleset_deps_indirect.py:124-142.  `depth` is the recursion limit.  The state is the set of edges with a flag that is
set once a table that has no rules was looked up: the defaultdict `tables` gets a new key then.  Matches are not changed except for
their caches, which are left out (`Match.Inv` says they agree). -/
def recurseGoto {π : Type} (tables : List (Nat × List (URule π))) :
    Nat → Nat → Option Match → List Nat → Bool × List (Nat × Nat) → Except PyErr (Bool × List (Nat × Nat))
  | 0, _, _, _, _ => .error .fuel
  | depth + 1, table, mat, parents, st =>
    ((tables.lookup table).getD []).foldlM (fun st r =>
      match r.2.inst.goto with
      | none =>
        match mat with
        | none => .ok (st.1, addAll parents r.1 st.2)
        | some m => do
          let a ← m.getWildcard
          let b ← r.2.mat.getWildcard
          if wcIntersect totBits a.1 b.1 = 0 then return st else return (st.1, addAll parents r.1 st.2)
      | some next =>
        match gotoEgress r.2 mat with
        | .error _ => .ok st
        | .ok egress =>
          let st' := (st.1, addAll parents r.1 st.2)
          if next ≠ 0 then
            if table < next then recurseGoto tables depth next (some egress) (parents ++ [r.1]) st' else .error .assertion
          else .ok st')
      ((st.1 || (tables.lookup table).isNone), st.2)

/-- The loop over the tables, ruleset_deps_indirect.py:160-161.  If a key was added to the dict, python stops the iteration with RuntimeError. -/
def gotoDeps {π : Type} (depth : Nat) (tables : List (Nat × List (URule π))) : Except PyErr (List (Nat × Nat)) :=
  tables.foldlM (fun es t => do
    let st ← recurseGoto tables depth t.1 none [] (false, es)
    if st.1 then .error .runtimeError else return st.2) []

/-- The dependencies within one table, ruleset_deps_indirect.py:163-167. -/
def tableDeps {π : Type} (t : List (URule π)) (es : List (Nat × Nat)) : Except PyErr (List (Nat × Nat)) := do
  let edges ← buildIndirect totBits (← t.mapM fun r => DRule.ofRule r.1 r.2)
  return edges.foldl (fun es e => setAdd (e.child.uid, e.parent.uid) es) es

/-- `build_ruleset_deps(ruleset)`, ruleset_deps_indirect.py:145-169, with the default arguments. -/
def buildRulesetDeps {π : Type} (depth : Nat) (rs : List (URule π)) : Except PyErr (List (Nat × Nat)) := do
  let tables := groupTables rs
  let es ← gotoDeps depth tables
  tables.foldlM (fun es t => tableDeps t.2 es) es

end Deps
end OFE
