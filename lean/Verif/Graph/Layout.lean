import Verif.Deps.Model
import Mathlib.Data.Rat.Defs

/-!
# Layout of dependency graphs

Model of `directed_layout` in `ofequivalence/graph_ruleset_deps.py`.  Floats are modelled as rationals.
-/

namespace OFE
namespace Graph

/-- The NetworkX graph as far as `directed_layout` reads it (graph_ruleset_deps.py:245-337): nodes and edges in their order, and the attribute
`group` of a node if it has one. -/
structure DiGraph (α : Type) where
  nodes : List α
  edges : List (α × α)
  group : α → Option Nat

variable {α : Type} [DecidableEq α]

/-- `edges_in`, graph_ruleset_deps.py:270 -/
def edgesIn (E : List (α × α)) (x : α) : List α := (E.filter fun e => decide (e.2 = x)).map (·.1)

/-- The destinations of a node, graph_ruleset_deps.py:291-292, 322 -/
def edgesOut (E : List (α × α)) (x : α) : List α := (E.filter fun e => decide (e.1 = x)).map (·.2)

/-- `next_level` before line 278, plus one: one more than the index of the last level that has a parent of `x`, graph_ruleset_deps.py:271-278. -/
def nextLevel (ins : List α) : Nat → List (List α) → Nat
  | _, [] => 0
  | i, l :: ls =>
    let later := nextLevel ins (i + 1) ls
    if later ≠ 0 then later else if l.any fun y => decide (y ∈ ins) then i + 1 else 0

/-- `if len(levels) <= k: levels.append([])` and `levels[k].append(x)`, graph_ruleset_deps.py:279-281.  (`k` is at most the number of levels.) -/
def addAt (x : α) : Nat → List (List α) → List (List α)
  | _, [] => [[x]]
  | 0, l :: ls => (l ++ [x]) :: ls
  | k + 1, l :: ls => l :: addAt x k ls

/-- One round of the loop in lines 269-281 of graph_ruleset_deps.py. -/
def place (E : List (α × α)) (levels : List (List α)) (x : α) : List (List α) := addAt x (nextLevel (edgesIn E x) 0 levels) levels

/-- The while loop over one level, graph_ruleset_deps.py:289-299: what stays, and the next level with what is moved down.  Nodes already moved count as
part of the next level. -/
def pushLevel (E : List (α × α)) : List α → List α → List α × List α
  | [], below => ([], below)
  | x :: xs, below =>
    if (edgesOut E x).any fun y => decide (y ∈ below) then
      let r := pushLevel E xs below
      (x :: r.1, r.2)
    else pushLevel E xs (below ++ [x])

/-- The loop over the levels, from the bottom up, graph_ruleset_deps.py:288-299 -/
def pushAll (E : List (α × α)) : List (List α) → List (List α)
  | [] => []
  | l :: ls =>
    match pushAll E ls with
    | [] => [l]
    | b :: bs => (pushLevel E l b).1 :: (pushLevel E l b).2 :: bs

/-- `_layout`, graph_ruleset_deps.py:265-301.  `le a b` says `key(a) <= key(b)`. -/
def layoutLevels (le : α → α → Bool) (E : List (α × α)) (push : Bool) (nodes : List α) : List (List α) :=
  let levels := (Deps.sortBy le nodes).foldl (place E) []
  if push then pushAll E levels else levels

/-- The levels, with separate levels per group, graph_ruleset_deps.py:303-313.  The graph without nodes raises StopIteration (as `runtimeError` here);
if the first node has a group all must have one. -/
def levelsOf (le : α → α → Bool) (push : Bool) (g : DiGraph α) : Except PyErr (List (List α)) :=
  match g.nodes with
  | [] => .error .runtimeError
  | x :: _ =>
    if (g.group x).isSome then
      if g.nodes.all fun y => (g.group y).isSome then
        let tables := Deps.sortBy (fun a b => decide (a ≤ b)) (g.nodes.foldl (fun s y => Deps.setAdd ((g.group y).getD 0) s) [])
        .ok (tables.flatMap fun t => layoutLevels le g.edges push (g.nodes.filter fun y => decide (g.group y = some t)))
      else .error .keyError
    else .ok (layoutLevels le g.edges push g.nodes)

/-- `generate_sort_level`, graph_ruleset_deps.py:320-325 -/
def sortLevel (E : List (α × α)) (next : List α) (x : α) : Nat :=
  (edgesOut E x).foldl (fun m y => if y ∈ next then min m (next.idxOf y) else m) 99999999999999

/-- The clustering, graph_ruleset_deps.py:318-326: each level is sorted by where its nodes point to in the level below, which is in its final order then. -/
def clusterLevels (E : List (α × α)) : List (List α) → List (List α)
  | [] => []
  | l :: ls =>
    match clusterLevels E ls with
    | [] => [l]
    | b :: bs => Deps.sortBy (fun x y => decide (sortLevel E b x ≤ sortLevel E b y)) l :: b :: bs

/-- The position of node number `n` of `k` in level number `i` of `m`, graph_ruleset_deps.py:332-335 -/
def coord (scale : ℚ) (m i k n : Nat) : ℚ × ℚ :=
  ((1 / (k : ℚ)) * ((n : ℚ) + 1 / 2) * scale, (1 - (1 / (m : ℚ)) * ((i : ℚ) + 1 / 2)) * scale)

/-- The loops in lines 330-335 of graph_ruleset_deps.py. -/
def positions (scale : ℚ) (levels : List (List α)) : List (α × (ℚ × ℚ)) :=
  levels.zipIdx.foldl (fun d l => l.1.zipIdx.foldl (fun d x => dictSet x.1 (coord scale levels.length l.2 l.1.length x.2) d) d) []

/-- `directed_layout`, graph_ruleset_deps.py:245-337 -/
def directedLayout (le : α → α → Bool) (scale : ℚ) (push cluster : Bool) (g : DiGraph α) : Except PyErr (List (α × (ℚ × ℚ))) := do
  let levels ← levelsOf le push g
  return positions scale (if cluster then clusterLevels g.edges levels else levels)

end Graph
end OFE
