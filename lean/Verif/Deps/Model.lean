import Verif.Cudd.Model

/-!
# Dependencies between the rules of a table

Model of `ofequivalence/ruleset_deps_direct.py` and of the single-table part of `ofequivalence/ruleset_deps_indirect.py`.
A diagram built by these modules has one terminal (`wc_to_BDD(wc, "1", "1")` always gives the same id, see C46), modelled as `()`.
-/

namespace OFE
namespace Deps
open DD

/-- What the dependency code reads of a `Rule` (rule.py:113-152): `wc` is `match.get_wildcard()` and `egress` is
`get_goto_egress().get_wildcard()`, or the exception it raises.  `uid` stands for everything else in a rule.  Two rules are the same dict key
exactly when they are equal here. -/
structure DRule where
  uid : Nat
  priority : Nat
  table : Nat
  wc : Nat
  egress : Except PyErr Nat
deriving DecidableEq, Repr

/-- Diagrams with a single terminal. -/
abbrev BDD := DD Unit

/-- `wc_to_BDD(wc, "1", "1")`, cuddbdd.py:50-71, over `n` header bits -/
def ofWc (n wc : Nat) : BDD := Cudd.wcToDD n wc ()

/-- `rule.as_BDD`, utils.py:84 -/
def DRule.bdd (n : Nat) (r : DRule) : BDD := ofWc n r.wc

/-- Insert before the first element that is not smaller. -/
def insertBy {α : Type} (le : α → α → Bool) (x : α) : List α → List α
  | [] => [x]
  | y :: ys => if le x y then x :: y :: ys else y :: insertBy le x ys

/-- python's `sorted`: stable. -/
def sortBy {α : Type} (le : α → α → Bool) (l : List α) : List α := l.foldr (insertBy le) []

/-- `sorted(P, key=lambda x: -x.priority)`, ruleset_deps_direct.py:51, 69 -/
def descending (P : List DRule) : List DRule := sortBy (fun a b => decide (b.priority ≤ a.priority)) P

/-- An edge, a pair (child, parent) in the code. -/
structure Edge where
  child : DRule
  parent : DRule
deriving DecidableEq, Repr

/-- `reaches`: edge (child, parent) to the packets on it, a dict. -/
abbrev Reaches (β : Type) := List (Edge × β)

/-- `s.add(x)` of a set kept as a list without repetition. -/
def setAdd {α : Type} [DecidableEq α] (x : α) (s : List α) : List α := if x ∈ s then s else s ++ [x]

/-- The state shared by the functions of `ruleset_deps_direct.py`: `reaches` and `parent_to_edge` (a `defaultdict(set)`). -/
structure Dag where
  reaches : Reaches BDD
  children : List (DRule × List DRule)
deriving DecidableEq, Repr

/-- `parent_to_edge[rule]` -/
def Dag.kids (g : Dag) (r : DRule) : List DRule := (g.children.lookup r).getD []

/-- `reaches[edge]` -/
def Dag.label (g : Dag) (e : Edge) : Except PyErr BDD :=
  match g.reaches.lookup e with
  | some b => .ok b
  | none => .error .keyError

/-- `reaches[(child, parent)] = b; parent_to_edge[parent].add(child)`, ruleset_deps_direct.py:72-74, 185-186.  (Where `parent_to_edge` is
None it is not used, so filling it in the model is harmless.) -/
def Dag.setEdge (g : Dag) (child parent : DRule) (b : BDD) : Dag :=
  ⟨dictSet ⟨child, parent⟩ b g.reaches, dictSet parent (setAdd child (g.kids parent)) g.children⟩

/-- The packets to start with, ruleset_deps_direct.py:65-68 (and 46-50, ruleset_deps_indirect.py:38-41, 51-54 for the wildcard): the
rule's own if the first potential parent is in the same table, else those leaving it.  Note the call of `get_goto_egress` when there
is no potential parent. -/
def startWc (R : DRule) (P : List DRule) : Except PyErr Nat :=
  match P with
  | p :: _ => if R.table = p.table then .ok R.wc else R.egress
  | [] => R.egress

/-- The loop of `add_parents_bdd`, ruleset_deps_direct.py:69-77 -/
def parentsLoop (n : Nat) (R : DRule) : BDD → List DRule → Dag → Dag
  | _, [], g => g
  | packets, p :: ps, g =>
    let isect := Cudd.intersection packets (p.bdd n)
    if isect = bot then parentsLoop n R packets ps g
    else
      let packets' := Cudd.subtract packets (p.bdd n)
      if packets' = bot then g.setEdge R p isect else parentsLoop n R packets' ps (g.setEdge R p isect)

/-- `add_parents_bdd`, ruleset_deps_direct.py:64-77 -/
def addParents (n : Nat) (R : DRule) (P : List DRule) (g : Dag) : Except PyErr Dag := do
  return parentsLoop n R (ofWc n (← startWc R P)) (descending P) g

/-- `potential_parents`, ruleset_deps_direct.py:93-94, ruleset_deps_indirect.py:77-78 -/
def potential (rs : List DRule) (R : DRule) : List DRule := rs.filter fun x => decide (x.priority < R.priority ∨ x.table > R.table)

/-- `build_table_deps(ruleset, use_bdd=True)`, ruleset_deps_direct.py:79-100.  `AttachBDD(ruleset)` looks at `ruleset[0]`. -/
def buildTableDeps (n : Nat) (rs : List DRule) : Except PyErr (Reaches BDD) :=
  if rs.isEmpty then .error .indexError
  else do return (← rs.foldlM (fun g R => addParents n R (potential rs R) g) ⟨[], []⟩).reaches

/-! ### Incremental construction -/

/-- `aff_edges` (child to list of edges) and `potential_parents` (a set). -/
structure Aff where
  edges : List (DRule × List Edge)
  parents : List DRule
deriving DecidableEq, Repr

/-- `_find_affected_edges`, ruleset_deps_direct.py:144-161.  `ord` gives the order in which a set is iterated; the number is the
recursion depth left (python stops with `RecursionError`). -/
def findAffected (n : Nat) (ord : List DRule → List DRule) (g : Dag) (new : DRule) : Nat → DRule → Aff → Except PyErr Aff
  | 0, _, _ => .error .fuel
  | depth + 1, rule, s =>
    (ord (g.kids rule)).foldlM (fun s child =>
      if new.priority < child.priority then do
        let b ← g.label ⟨child, rule⟩
        if Cudd.intersection b (new.bdd n) = bot then return s
        else return { s with edges := dictSet child ((s.edges.lookup child).getD [] ++ [⟨child, rule⟩]) s.edges }
      else if child.priority < new.priority then
        if child ∉ s.parents ∧ Cudd.intersection (child.bdd n) (new.bdd n) ≠ bot then
          findAffected n ord g new depth child { s with parents := s.parents ++ [child] }
        else return s
      else return s) s

/-- The inner loop of `_process_affected_edges` for one edge, ruleset_deps_direct.py:175-184 -/
def processEdge (n : Nat) (new : DRule) (x : BDD × Dag) (e : Edge) : Except PyErr (BDD × Dag) := do
  let b ← x.2.label e
  let diff := Cudd.subtract b (new.bdd n)
  if diff = bot then
    if e.child ∈ x.2.kids e.parent then
      return (Cudd.meld x.1 b, ⟨dictDel e x.2.reaches, dictSet e.parent ((x.2.kids e.parent).filter fun c => decide (c ≠ e.child)) x.2.children⟩)
    else .error .keyError
  else return (Cudd.meld x.1 (Cudd.intersection b (new.bdd n)), { x.2 with reaches := dictSet e diff x.2.reaches })

/-- `_process_affected_edges`, ruleset_deps_direct.py:164-186 -/
def processAffected (n : Nat) (new : DRule) (aff : List (DRule × List Edge)) (g : Dag) : Except PyErr Dag :=
  aff.foldlM (fun g x => do
    let y ← x.2.foldlM (processEdge n new) (bot, g)
    return y.2.setEdge x.1 new y.1) g

/-- `dep_dag_insert`, ruleset_deps_direct.py:189-200 -/
def dagInsert (n : Nat) (ord : List DRule → List DRule) (depth : Nat) (default new : DRule) (g : Dag) : Except PyErr Dag := do
  let a ← findAffected n ord g new depth default ⟨[], [default]⟩
  let g ← processAffected n new a.edges g
  addParents n new (ord a.parents) g

/-- `build_table_deps_incremental`, ruleset_deps_direct.py:203-240.  The default is the last match-all rule in order of priority; other
match-all rules are left out. -/
def buildIncremental (n : Nat) (ord : List DRule → List DRule) (depth : Nat) (rs : List DRule) : Except PyErr (Reaches BDD) :=
  let sorted := sortBy (fun a b => decide (a.priority ≤ b.priority)) rs
  let all := 2 ^ (2 * n) - 1
  match (sorted.filter fun r => decide (r.wc = all)).getLast? with
  | none => .error (if rs.isEmpty then .indexError else .valueError)
  | some d => do
    return (← (sorted.filter fun r => decide (r.wc ≠ all)).foldlM (fun g R => dagInsert n ord depth d R g) ⟨[], []⟩).reaches

end Deps
end OFE
