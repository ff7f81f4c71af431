import Verif.Store.Model
import Mathlib.Data.List.Dedup

/-!
# Visiting and counting the nodes of a diagram

Model of `BDD.walk`, `BDD.__len__` and `BDD.to_dot` of `ofequivalence/bdd.py` (the text of `ofequivalence/cbdd.py`:60-119 is the same), and of `BDD_len` and
`BDD_shared_size` of `c_src/cuddmodule.c`.
-/

namespace OFE
namespace Store
variable {α : Type} [DecidableEq α]

/-- The loop over the walk of a child unless that is `None`, bdd.py:72-74, 75-77: what it yields, and `visited` afterwards. -/
def walkChild (walk : Nat → List Nat → Option (List Nat × List Nat)) : Ref → List Nat → Option (List Nat × List Nat)
  | none, visited => some ([], visited)
  | some c, visited => walk c visited

/-- `BDD.walk` from a node on, bdd.py:64-79: the nodes it yields, and `visited` afterwards.  The identity of a node is its position in the node table.  The
generators all run to the end, so they are run one after the other here.  The first argument bounds the depth of the recursion; `none` stands for a table
that is not closed or not deep enough. -/
def walkFrom (nodes : List (Obj α)) : Nat → Nat → List Nat → Option (List Nat × List Nat)
  | 0, _, _ => none
  | f + 1, i, visited =>
    if i ∈ visited then some ([], visited)
    else
      match nodes[i]? with
      | none => none
      | some (.term _) => some ([i], i :: visited)
      | some (.node _ z o _) =>
        (walkChild (walkFrom nodes f) z visited).bind fun x => (walkChild (walkFrom nodes f) o x.2).map fun y => (x.1 ++ y.1 ++ [i], i :: y.2)

/-- `BDD.walk()`, bdd.py:64-79 and, word for word the same, cbdd.py:60-76.  A node is younger than its children, so the recursion is at most as deep as the table is long. -/
def walk (nodes : List (Obj α)) : Ref → Option (List Nat)
  | none => some []
  | some i => (walkFrom nodes (i + 1) i []).map (·.1)

/-- `BDD.__len__`, bdd.py:122-123 and cbdd.py:118-119 -/
def len (nodes : List (Obj α)) (root : Ref) : Option Nat := (walk nodes root).map List.length

/-- What `to_dot` writes for a node, bdd.py:84-90.  `friendly` gives the text of the friendly action of a termination and `ident` the `id` of a node. -/
def dotNode (friendly : α → String) (ident : Nat → Nat) (nodes : List (Obj α)) (i : Nat) : List String :=
  match nodes[i]? with
  | some (.term a) => ["n" ++ toString (ident i), "[label=\"" ++ friendly a ++ "\",shape=box];"]
  | some (.node num _ _ _) => ["n" ++ toString (ident i), "[label=\"" ++ toString num ++ "\",shape=circle];"]
  | none => []

/-- What `to_dot` writes for one branch, bdd.py:93-97 -/
def dotBranch (ident : Nat → Nat) (i : Nat) (one : Bool) : Ref → List String
  | none => []
  | some c => ["n" ++ toString (ident i), "--", "n" ++ toString (ident c), if one then "[label=1];" else "[label=0,style=dashed];"]

/-- What `to_dot` writes for the branches of a node, bdd.py:91-97 -/
def dotBranches (ident : Nat → Nat) (nodes : List (Obj α)) (i : Nat) : List String :=
  match nodes[i]? with
  | some (.node _ z o _) => dotBranch ident i false z ++ dotBranch ident i true o
  | _ => []

/-- `to_dot`, bdd.py:81-99 and cbdd.py:78-96: the words that are joined with spaces. -/
def toDot (friendly : α → String) (ident : Nat → Nat) (nodes : List (Obj α)) (root : Ref) : Option (List String) := do
  let l ← walk nodes root
  return ["graph BDD {"] ++ l.flatMap (dotNode friendly ident nodes) ++ l.flatMap (dotBranches ident nodes) ++ ["}"]

end Store

namespace DD
variable {α : Type} [DecidableEq α]

/-- The nodes below a root of the CUDD back end, with the constant BK (`bot`), each as often as there are ways to it. -/
def under : DD α → List (DD α)
  | bot => [bot]
  | term a => [term a]
  | node num z o => node num z o :: (under z ++ under o)

/-- `Cudd_SharingSize` of the CUDD library: the number of different nodes under the roots.  The unique table of CUDD keeps one node per tree. -/
def sharingSize (roots : List (DD α)) : Nat := (roots.flatMap under).dedup.length

/-- `BDD_len`, cuddmodule.c:442-451.  The root may be NULL (`none`) for `BDD()`. -/
def cuddLen : Option (DD α) → Nat
  | none => 0
  | some t => sharingSize [t, bot] - 1

/-- `BDD_shared_size`, cuddmodule.c:461-482, for a list -/
def sharedSize (bdds : List (Option (DD α))) : Nat := sharingSize (bdds.map (·.getD bot))

end DD
end OFE
