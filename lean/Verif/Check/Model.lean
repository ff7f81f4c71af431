import Verif.Rule.Model
import Verif.Normalise.Model
import Verif.Cudd.Model

/-!
# The default equality check

Model of `normalise` and `check_equal` of `ofequivalence/normalisebdd.py` with `check_match_redundancy` (the default) on rulesets in single-table
form: rules become labels (`per_output_actions`), labels are numbered by the CUDD back end, seemingly different packets are looked at again.
-/

namespace OFE

/-- The value of `per_output_actions()`: a frozenset of (port, actions) pairs, kept as a list ordered by port (so equal frozensets are equal
lists; the ports are distinct, as the pairs are the items of a dict, rule.py:680-684). -/
abbrev Label := List (OutKey × List Action)

/-- Order of the keys in a `Label`; the order itself has no meaning in the code. -/
def OutKey.rank : OutKey → Nat
  | .pass => 0
  | .port n => n + 1

/-- Insertion by key. -/
def insertKey (x : OutKey × List Action) : Label → Label
  | [] => [x]
  | y :: ys => if x.1.rank ≤ y.1.rank then x :: y :: ys else y :: insertKey x ys

/-- `frozenset(actions.items())`, rule.py:684, in the representation of `Label`. -/
def canonLabel (l : Label) : Label := l.foldr insertKey []

/-- `rule.instructions.full_actions().per_output_actions()`, normalisebdd.py:130 -/
def Rule.label {π : Type} (r : Rule π) : Except PyErr Label := do
  let l ← r.inst.fullActions
  let items ← l.perOutput
  return canonLabel items

/-- The arguments of `wc_to_BDD` for one rule, normalisebdd.py:130-132. -/
def ruleEntry {π : Type} (r : Rule π) : Except PyErr (Nat × Label) := do
  let l ← r.label
  let w ← r.mat.getWildcard
  return (w.1, l)

/-- Terminal numbering for labels.  `none` stands for the mark of differing packets: the strings of `IS_DIFFERING_TUPLE`, cuddbdd.py:28. -/
abbrev LReg := Cudd.Reg (Option Label) (Option Label)

/-- The numbering after `wc_to_BDD(_, l, l)` for labels `l`, cuddbdd.py:50-71. -/
def LReg.runLabels (reg : LReg) (ls : List Label) : List Nat × LReg := Cudd.Reg.run reg (ls.map fun l => (some l, some l))

/-- The numbering of a session in which `wc_to_BDD` was called for the labels `ls` so far. -/
def sessionReg (ls : List Label) : LReg := (LReg.runLabels (Cudd.Reg.init none none) ls).2

/-- `normalise(rules)`, normalisebdd.py:107-142 and 175, with `match_redundancy=False`, from the state `reg` of the terminal numbering.
The diagrams are built with the operations of `Normalise`, which are those of the CUDD back end by `C05_C07_cudd_same` and
`C09_cudd_same`.  All labels get numbers: wildcards of matches are never 0, so the exit of cuddbdd.py:54 is not taken. -/
def normaliseRules {π : Type} (reg : LReg) (rules : List (Rule π)) : Except PyErr (DD Nat × LReg) := do
  if oneTable (rules.map fun r => (⟨r.table, 0, ()⟩ : NRule Unit)) then
    let es ← rules.mapM ruleEntry
    let x := reg.runLabels (es.map (·.2))
    let t ← normaliseDC (bytesNeeded * 8) plain (List.zipWith (fun (e : Nat × Label) id => (⟨0, e.1, id⟩ : NRule Nat)) es x.1)
    return (t, x.2)
  else .error .assertion

/-- `normalise_naive(rules)`, normalisebdd.py:145-172, with `match_redundancy=False`; otherwise as `normaliseRules`. -/
def normaliseRulesNaive {π : Type} (reg : LReg) (rules : List (Rule π)) : Except PyErr (DD Nat × LReg) := do
  if oneTable (rules.map fun r => (⟨r.table, 0, ()⟩ : NRule Unit)) then
    let es ← rules.mapM ruleEntry
    let x := reg.runLabels (es.map (·.2))
    let t ← normaliseNaive (bytesNeeded * 8) plain (List.zipWith (fun (e : Nat × Label) id => (⟨0, e.1, id⟩ : NRule Nat)) es x.1)
    return (t, x.2)
  else .error .assertion

/-- `set(left.keys()) != set(right.keys())`, normalisebdd.py:195 -/
def sameKeys (a b : Label) : Bool :=
  (a.map Prod.fst).all ((b.map Prod.fst).contains ·) && (b.map Prod.fst).all ((a.map Prod.fst).contains ·)

/-- The SET_FIELD actions for the fully matched fields, normalisebdd.py:199-202. -/
def matchSets (m : Match) : List Action := (m.items.filter fun x => x.2.2.isNone).map fun x => .setField x.1 x.2.1

/-- The loop over the ports, normalisebdd.py:206-210. -/
def comparePorts (sets : ActionList) (left right : Label) : List OutKey → Except PyErr Bool
  | [] => .ok true
  | k :: ks =>
    match left.lookup k, right.lookup k with
    | some l, some r => do
      let newleft ← sets.copy l []
      let newright ← sets.copy r []
      let a ← newleft.perOutput
      let b ← newright.perOutput
      if sameItems a b then comparePorts sets left right ks else return false
    | _, _ => .error .keyError

/-- Body of the loop of `check_equal_match_redundancy` for one path, normalisebdd.py:192-210.  `dict(None)` is a TypeError; `dict` of the
string that marks differences is a ValueError. -/
def comparePath (m : Match) (left right : Option (Option Label)) : Except PyErr Bool :=
  match left, right with
  | none, _ => .error .typeError
  | some none, _ => .error .valueError
  | some (some _), none => .error .typeError
  | some (some _), some none => .error .valueError
  | some (some left), some (some right) =>
    if sameKeys left right then do
      let sets ← ActionList.ofList (matchSets m)
      if sets.len = 0 then return false
      comparePorts sets left right (left.map Prod.fst)
    else .ok false

/-- The loop of `check_equal_match_redundancy`, normalisebdd.py:191-211, over the paths of the difference; `BDD_to_matches` is a generator
(cuddbdd.py:88-107), so a path is decoded when the loop gets to it. -/
def comparePaths (reg : LReg) : List (Nat × Nat) → Except PyErr Bool
  | [] => .ok true
  | (wc, t) :: rest => do
    let left ← reg.action (Cudd.decode t).1
    let right ← reg.action (Cudd.decode t).2
    let m ← wildcardToMatch wc
    if ← comparePath m left right then comparePaths reg rest else return false

/-- `check_equal(a, b)`, normalisebdd.py:214-235, with the default `check_match_redundancy=True`: `check_equal_match_redundancy`, 178-211. -/
def checkEqual (reg : LReg) (a b : DD Nat) : Except PyErr Bool :=
  comparePaths reg (DD.toWcs (bytesNeeded * 8) (Cudd.diffTagged a b))

end OFE
