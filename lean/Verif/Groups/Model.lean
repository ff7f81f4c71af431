import Verif.Tree.Model
import Verif.Rule.Model

/-!
# Groups of similar rules

Model of `create_similar_groups` in `ofequivalence/ruleset.py`.  Rules are told apart by identity (`UniqueRules`, rule.py:1234-1302).
-/

namespace OFE
namespace Groups

/-- `_get_similar_tuple(flow)`, ruleset.py:224-239.  `priority` is compared negated. -/
structure SimKey where
  table : Nat
  priority : Nat
  mask : Nat
  goto : Nat
  actions : List TypeKey
deriving DecidableEq, Repr

/-- `get_wildcard_mask`, headerspace.py:335-337 -/
def wildcardMask (wc : Nat) : Nat := (wc &&& (wc >>> 1)) &&& oddMask (bytesNeeded * 8)

/-- An action type in python's order of strings (or of tuples of strings): names are replaced by their alphabetical ranks, as in `Action.key`; 0 marks a
tuple `("SET_FIELD", field)`, 1 a string. -/
def typeCode : TypeKey → List Int
  | .s f => [0, fieldRank f, f]
  | .t i => [1, typeRank i, i]

/-- `tuple(sorted(actions, key=str))` of the set of action types, ruleset.py:226-233: the text of a tuple starts with a bracket, so tuples come first. -/
def actionTuple (l : List TypeKey) : List TypeKey :=
  Deps.sortBy (fun a b => decide (typeCode a ≤ typeCode b)) (l.foldl (fun s x => Deps.setAdd x s) [])

/-- `_get_similar_tuple(flow)`, ruleset.py:224-239 -/
def simKey {π : Type} (r : Rule π) : Except PyErr SimKey := do
  let w ← r.mat.getWildcard
  return ⟨r.table, r.priority, wildcardMask w.1, r.inst.goto.getD 0, actionTuple (r.inst.write.iter.map Action.toType ++ r.inst.apply.iter.map Action.toType)⟩

/-- The key as a list that is ordered like the tuple. -/
def simCode (k : SimKey) : List Int := [(k.table : Int), -(k.priority : Int), (k.mask : Int), (k.goto : Int)] ++ k.actions.flatMap typeCode

/-- The first differing actions of two tuples are a string and a tuple. -/
def clash : List TypeKey → List TypeKey → Bool
  | .s f :: xs, .s g :: ys => if f = g then clash xs ys else false
  | .t i :: xs, .t j :: ys => if i = j then clash xs ys else false
  | .s _ :: _, .t _ :: _ => true
  | .t _ :: _, .s _ :: _ => true
  | _, _ => false

/-- `a < b` on similar tuples: a string and a tuple cannot be compared in python 3. -/
def keyLt (a b : SimKey) : Except PyErr Bool :=
  if a.table = b.table ∧ a.priority = b.priority ∧ a.mask = b.mask ∧ a.goto = b.goto ∧ clash a.actions b.actions = true then .error .typeError
  else .ok (decide (simCode a < simCode b))

section
variable {ν : Type} [DecidableEq ν]

/-- One insertion of a stable sort (which may raise). -/
def insertM (lt : ν → ν → Except PyErr Bool) (x : ν) : List ν → Except PyErr (List ν)
  | [] => .ok [x]
  | y :: ys => do if ← lt y x then return y :: (← insertM lt x ys) else return x :: y :: ys

/-- `sorted(ruleset, key=_get_similar_tuple)`, ruleset.py:261.  Python's sort compares other pairs than insertion does, so with incomparable keys it may raise
for other lists; on comparable keys the result of a stable sort is determined. -/
def sortM (lt : ν → ν → Except PyErr Bool) (l : List ν) : Except PyErr (List ν) := l.foldrM (insertM lt) []

/-- `groupby(rules_sorted, _get_similar_tuple)`, ruleset.py:262: runs of equal keys. -/
def runs {κ : Type} [DecidableEq κ] (key : ν → κ) : List ν → List (List ν)
  | [] => []
  | x :: l => match runs key l with
    | (y :: ys) :: rest => if key x = key y then (x :: y :: ys) :: rest else [x] :: (y :: ys) :: rest
    | rest => [x] :: rest

/-- `_get_p_and_c(flow)`, ruleset.py:241-244, as the order of the sort in line 263. -/
def pcLe (uid : ν → Nat) (t : Tree.Links ν) (a b : ν) : Bool :=
  let s := fun l : List ν => Deps.sortBy (fun x y => decide (x ≤ y)) (l.map uid)
  decide (s (t.par a) < s (t.par b) ∨ (s (t.par a) = s (t.par b) ∧ s (t.chi a) ≤ s (t.chi b)))

/-- Equality of frozensets. -/
def sameSet (a b : List ν) : Bool := a.all (fun x => decide (x ∈ b)) && b.all (fun x => decide (x ∈ a))

/-- `new_groups[(p_set, c_set)].append(rule)`, ruleset.py:276-280 -/
def splitAdd (k : List ν × List ν) (r : ν) : List ((List ν × List ν) × List ν) → List ((List ν × List ν) × List ν)
  | [] => [(k, [r])]
  | (k', l) :: rest => if sameSet k.1 k'.1 && sameSet k.2 k'.2 then (k', l ++ [r]) :: rest else (k', l) :: splitAdd k r rest

/-- `[rule2group[x] for x in …]` -/
def groupsOf (r2g : List (ν × ν)) (l : List ν) : Except PyErr (List ν) := l.mapM fun x => match r2g.lookup x with
  | none => .error .keyError
  | some g => .ok g

/-- The parts of one group, ruleset.py:276-280. -/
def splitGroup (t : Tree.Links ν) (r2g : List (ν × ν)) (rules : List ν) : Except PyErr (List (List ν)) := do
  let parts ← rules.foldlM (fun acc r => do
    let p ← groupsOf r2g (t.par r)
    let c ← groupsOf r2g (t.chi r)
    return splitAdd (p, c) r acc) []
  return parts.map (·.2)

/-- The search for a group to split, ruleset.py:273-281. -/
def findSplit (t : Tree.Links ν) (r2g : List (ν × ν)) : List (ν × List ν) → Except PyErr (Option (ν × List (List ν)))
  | [] => .ok none
  | (g, rules) :: rest => do
    if rules.length = 1 then findSplit t r2g rest
    else
      let parts ← splitGroup t r2g rules
      if 1 < parts.length then return some (g, parts) else findSplit t r2g rest

/-- `groups[rules[0]] = rules` and `rule2group[rule] = rules[0]` for all rules, ruleset.py:264, 267-269, 284-287 -/
def addGroup (s : List (ν × List ν) × List (ν × ν)) (rules : List ν) : Except PyErr (List (ν × List ν) × List (ν × ν)) :=
  match rules with
  | [] => .error .indexError
  | g :: _ => .ok (dictSet g rules s.1, rules.foldl (fun m r => dictSet r g m) s.2)

/-- The `while` loop, ruleset.py:272-290.  Each round splits a group, so as many rounds as there are rules suffice (the theorem shows that the fuel is not
used up). -/
def refine (t : Tree.Links ν) : Nat → List (ν × List ν) × List (ν × ν) → Except PyErr (List (ν × List ν) × List (ν × ν))
  | 0, _ => .error .fuel
  | fuel + 1, s => do
    match ← findSplit t s.2 s.1 with
    | none => return s
    | some (g, parts) => refine t fuel (← parts.foldlM addGroup (dictDel g s.1, s.2))

/-- The part after `node_to_tree`, ruleset.py:255-292, for keys computed before.  (In the code `rule2group` is filled after all groups are made; the keys are
distinct, so the order does not matter.) -/
def similarGroups (key : ν → SimKey) (uid : ν → Nat) (t : Tree.Links ν) (rs : List ν) : Except PyErr (List (ν × List ν) × List (ν × ν)) := do
  let sorted ← sortM (fun a b => keyLt (key a) (key b)) rs
  let s ← ((runs key sorted).map (Deps.sortBy (pcLe uid t))).foldlM addGroup ([], [])
  refine t (rs.length + 1) s

end

/-- `create_similar_groups(ruleset, deps=deps)`, ruleset.py:212-292, rules given by their numbers. -/
def createSimilarGroups {π : Type} (rules : List (Rule π)) (deps : List (Nat × Nat)) : Except PyErr (List (Nat × List Nat) × List (Nat × Nat)) := do
  let t ← Tree.nodeToTree deps (List.range rules.length)
  let keys ← rules.mapM simKey
  similarGroups (fun i => keys.getD i ⟨0, 0, 0, 0, []⟩) id t (List.range rules.length)

end Groups
end OFE
