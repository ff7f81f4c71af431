import Verif.Graph.Layout
import Verif.Select.Model

/-!
# Dependency graphs

Model of `build_graph` and `number_groups` in `ofequivalence/graph_ruleset_deps.py`.  Rules are given by their numbers in the sorted ruleset; in the code they
are keys of dicts and compared by `Rule.__eq__`, so this is for rulesets without equal rules.
-/

namespace OFE
namespace Graph

/-- The NetworkX graph with the attributes that are set, graph_ruleset_deps.py:370-427.  An edge has color red instead of black if it leads to another table. -/
structure DepGraph where
  nodes : List Nat
  edges : List ((Nat × Nat) × Bool)
  label : List (Nat × Nat)
  cluster : List (Nat × Nat)
  group : List (Nat × Nat)
  pos : List (Nat × (ℚ × ℚ))
  filled : List Nat
  unreachable : List Nat
deriving DecidableEq

/-- The options `--cluster` and `--group`, graph_ruleset_deps.py:191-196 -/
inductive Grouping where
  | none | compressed | priority | table
deriving DecidableEq

/-- The options that `build_graph` reads, graph_ruleset_deps.py:340-429; `drawn` says whether the type is 'pyplot' or 'd3'. -/
structure GraphOpts where
  compress : Bool
  onlyGroup : Bool
  noTableMiss : Bool
  cluster : Grouping
  group : Grouping
  drawn : Bool

/-- `G.add_edges_from` for one edge: adds the ends unless they are there. -/
def addEdge (g : List Nat × List ((Nat × Nat) × Bool)) (e : (Nat × Nat) × Bool) : List Nat × List ((Nat × Nat) × Bool) :=
  (Deps.setAdd e.1.2 (Deps.setAdd e.1.1 g.1), dictSet e.1 e.2 g.2)

/-- The table of a rule. -/
def tableOf {π : Type} (rules : List (Rule π)) (i : Nat) : Nat := (rules[i]?.map (·.table)).getD 0

/-- The priority of a rule. -/
def prioOf {π : Type} (rules : List (Rule π)) (i : Nat) : Nat := (rules[i]?.map (·.priority)).getD 0

/-- The order of `sort_key_ruleset_priority`, ruleset.py:34-39 -/
def keyLe {π : Type} (rules : List (Rule π)) (i j : Nat) : Bool :=
  decide (tableOf rules i < tableOf rules j ∨ (tableOf rules i = tableOf rules j ∧ prioOf rules j ≤ prioOf rules i))

/-- The nodes and edges, graph_ruleset_deps.py:370-374. -/
def edgesOf {π : Type} (rules : List (Rule π)) (deps : List (Nat × Nat)) : List Nat × List ((Nat × Nat) × Bool) :=
  let same := (deps.filter fun e => decide (tableOf rules e.1 = tableOf rules e.2)).map fun e => (e, false)
  let other := (deps.filter fun e => decide (tableOf rules e.1 ≠ tableOf rules e.2)).map fun e => (e, true)
  (same ++ other).foldl addEdge ([], [])

/-- `no_table_miss`, graph_ruleset_deps.py:357-359.  What remains is numbered anew. -/
def dropMiss {π : Type} (rules : List (Rule π)) (deps : List (Nat × Nat)) : List (Rule π) × List (Nat × Nat) :=
  let keep := (List.range rules.length).filter fun i => decide (prioOf rules i ≠ 0)
  (rules.filter fun r => decide (r.priority ≠ 0),
   (deps.filter fun e => decide (prioOf rules e.1 ≠ 0) && decide (prioOf rules e.2 ≠ 0)).map fun e => (keep.idxOf e.1, keep.idxOf e.2))

/-- `min_ruleset` and `min_groups`, graph_ruleset_deps.py:361-366; they are not assigned without `--compress`. -/
def minsOf {π : Type} (ord : Groups.Sel Nat → List Nat → List Nat) (o : GraphOpts) (rules : List (Rule π)) (deps : List (Nat × Nat)) :
    Except PyErr (Option (List Nat × List (Nat × List Nat))) :=
  if o.compress then
    if o.onlyGroup then (Groups.createSimilarGroups rules deps).map fun x => some ([], x.1)
    else (Groups.compressRuleset ord rules deps).map some
  else .ok none

/-- What the loop in lines 378-401 keeps: labels, unreachable rules, `min_ruleset` and `min_groups`. -/
structure Labels where
  label : List (Nat × Nat)
  unreachable : List Nat
  mins : Option (List Nat × List (Nat × List Nat))

/-- One round of the loop, graph_ruleset_deps.py:378-399: `G.node[rule]` raises KeyError for a rule that is not in the graph.  The label is the number in the
enumeration, formatting (C59) and the other attributes are left out. -/
def labelStep (nodes : List Nat) (s : Labels) (i : Nat) : Except PyErr Labels :=
  if i ∈ nodes then .ok { s with label := s.label ++ [(i, i)] }
  else
    match s.mins with
    | none => .ok { s with unreachable := s.unreachable ++ [i] }
    | some (r, g) =>
      if i ∈ r then
        if (g.lookup i).isSome then .ok ⟨s.label, s.unreachable ++ [i], some (r.erase i, dictDel i g)⟩ else .error .keyError
      else .error .valueError

/-- `number_groups`, graph_ruleset_deps.py:472-485: the number that each rule gets, counting from `n`; KeyError if one is not in the graph. -/
def numberGroups (nodes : List Nat) : Nat → List (List Nat) → List (Nat × Nat) → Except PyErr (List (Nat × Nat))
  | _, [], d => .ok d
  | n, rules :: rest, d =>
    if rules.all fun r => decide (r ∈ nodes) then numberGroups nodes (n + 1) rest (rules.foldl (fun d r => dictSet r n d) d) else .error .keyError

/-- Clusters or groups, graph_ruleset_deps.py:403-419.  (An unassigned local variable raises UnboundLocalError, a NameError.) -/
def grouped {π : Type} (rules : List (Rule π)) (nodes reachables : List Nat) (mins : Option (List Nat × List (Nat × List Nat))) :
    Grouping → Except PyErr (List (Nat × Nat))
  | .none => .ok []
  | .priority => numberGroups nodes 1 (Groups.runs (fun i => (tableOf rules i, prioOf rules i)) reachables) []
  | .table => numberGroups nodes 1 (Groups.runs (tableOf rules) reachables) []
  | .compressed =>
    match mins with
    | none => .error .nameError
    | some (_, g) => numberGroups nodes 1 ((Deps.sortBy (keyLe rules) (g.map (·.1))).map fun k => (g.lookup k).getD []) []

/-- The positions, graph_ruleset_deps.py:421-424, with the default key of `directed_layout`.  (The order of the edges makes no difference to it.) -/
def positionsOf {π : Type} (rules : List (Rule π)) (drawn : Bool) (nodes : List Nat) (edges : List ((Nat × Nat) × Bool)) (group : List (Nat × Nat)) :
    Except PyErr (List (Nat × (ℚ × ℚ))) :=
  if drawn then directedLayout (keyLe rules) 1 true true ⟨nodes, edges.map (·.1), fun i => group.lookup i⟩ else .ok []

/-- `build_graph`, graph_ruleset_deps.py:340-429, for the sorted ruleset and the dependencies (lines 346-355). -/
def buildGraph {π : Type} (ord : Groups.Sel Nat → List Nat → List Nat) (o : GraphOpts) (rules0 : List (Rule π)) (deps0 : List (Nat × Nat)) :
    Except PyErr DepGraph := do
  let x := if o.noTableMiss then dropMiss rules0 deps0 else (rules0, deps0)
  let mins ← minsOf ord o x.1 x.2
  let g := edgesOf x.1 x.2
  let s ← (List.range x.1.length).foldlM (labelStep g.1) ⟨[], [], mins⟩
  let reachables := s.label.map (·.1)
  let cluster ← grouped x.1 g.1 reachables s.mins o.cluster
  let group ← grouped x.1 g.1 reachables s.mins o.group
  let pos ← positionsOf x.1 o.drawn g.1 g.2 group
  return ⟨g.1, g.2, s.label, cluster, group, pos, (s.mins.map (·.1)).getD [], s.unreachable⟩

end Graph
end OFE
