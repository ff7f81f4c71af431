import Verif.Deps.Model

/-!
# Dependency trees

Model of `node_to_tree` and `simplify_tree` in `ofequivalence/ruleset.py`.  Nodes are rules told apart by identity (any type with decidable equality); the
attributes `parents` and `children` are functions.
-/

namespace OFE
namespace Tree

variable {ν : Type} [DecidableEq ν]

/-- The attributes `parents` and `children` of all nodes, ruleset.py:181-183 -/
structure Links (ν : Type) where
  par : ν → List ν
  chi : ν → List ν

/-- Assignment to one attribute. -/
def setAt (f : ν → List ν) (n : ν) (l : List ν) : ν → List ν := fun m => if m = n then l else f m

/-- `node_to_tree(dep_list, nodes)`, ruleset.py:174-186.  A node that is not listed has no attributes (if it has some from an earlier call they are used; not
modelled). -/
def nodeToTree (deps : List (ν × ν)) (nodes : List ν) : Except PyErr (Links ν) :=
  deps.foldlM (fun t e =>
    if e.1 ∈ nodes ∧ e.2 ∈ nodes then .ok ⟨setAt t.par e.2 (t.par e.2 ++ [e.1]), setAt t.chi e.1 (t.chi e.1 ++ [e.2])⟩
    else .error .attributeError) ⟨fun _ => [], fun _ => []⟩

/-- `get_parents(node)`, ruleset.py:197-201.  The set is a list in which elements may occur more than once; the fuel is the recursion limit (`RecursionError`
is a `RuntimeError`). -/
def getParents (par : ν → List ν) : Nat → ν → Except PyErr (List ν)
  | 0, _ => .error .runtimeError
  | fuel + 1, n => (par n).foldlM (fun ret p => do return ret ++ (← getParents par fuel p)) (par n)

/-- `list.remove(x)` -/
def listRemove (x : ν) (l : List ν) : Except PyErr (List ν) := if x ∈ l then .ok (l.erase x) else .error .valueError

/-- `item.children.remove(node); node.parents.remove(item)`, ruleset.py:207-209 -/
def unlink (n : ν) (t : Links ν) (item : ν) : Except PyErr (Links ν) := do
  let c ← listRemove n (t.chi item)
  let p ← listRemove item (t.par n)
  return ⟨setAt t.par n p, setAt t.chi item c⟩

/-- One round of `simplify_tree`, ruleset.py:194-209; `ord` is the order in which the set is iterated. -/
def simplifyNode (ord : List ν → List ν) (limit : Nat) (t : Links ν) (n : ν) : Except PyErr (Links ν) := do
  let above ← (t.par n).foldlM (fun acc p => do return acc ++ (← getParents t.par limit p)) []
  let mine := (t.par n).foldl (fun s x => Deps.setAdd x s) []
  (ord (mine.filter fun x => decide (x ∈ above))).foldlM (unlink n) t

/-- `simplify_tree(nodes)`, ruleset.py:189-209 -/
def simplifyTree (ord : List ν → List ν) (limit : Nat) (nodes : List ν) (t : Links ν) : Except PyErr (Links ν) :=
  nodes.foldlM (simplifyNode ord limit) t

end Tree
end OFE
