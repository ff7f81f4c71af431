import Verif.Check.Model

/-!
# Eager treatment of set-fields that change nothing

Model of `normalise_set_fields` and of `normalise` with `match_redundancy=True` (`ofequivalence/normalisebdd.py`).
-/

namespace OFE

/-- `itertools.combinations(l, k)`: in the order in which python yields them. -/
def combinations {α : Type} : Nat → List α → List (List α)
  | 0, _ => [[]]
  | _ + 1, [] => []
  | k + 1, x :: xs => (combinations k xs).map (x :: ·) ++ combinations (k + 1) xs

/-- The set of the (field, value) pairs of the SET_FIELD actions, normalisebdd.py:66-70; as a list without repetitions. -/
def setPairs (L : Label) : List (Nat × Nat) :=
  (L.flatMap fun x => x.2.filterMap fun | .setField f v => some (f, v) | _ => none).foldr List.insert []

/-- The wildcard of a combination, normalisebdd.py:78-83. -/
def comboWildcard (c : List (Nat × Nat)) : Except PyErr Nat := do
  let full ← Match.empty.getWildcard
  c.foldlM (fun sf (x : Nat × Nat) => do
    let wc ← (Match.empty.append x.1 x.2 none).getWildcard
    return wcIntersect (bytesNeeded * 8) sf wc.1) full.1

/-- The actions without those of the combination, normalisebdd.py:91-94.  `action[1] not in combination` looks at the value only, but no other
action has a pair for a value. -/
def dropSets (c : List (Nat × Nat)) (L : Label) : Label :=
  L.map fun x => (x.1, x.2.filter fun | .setField f v => !c.contains (f, v) | _ => true)

/-- One turn of the inner loop, normalisebdd.py:74-98: an entry of the result, or none. -/
def comboEntry (m : Match) (L : Label) (c : List (Nat × Nat)) : Except PyErr (Option (Nat × Label)) := do
  let sf ← comboWildcard c
  let w ← m.getWildcard
  let overlap := wcIntersect (bytesNeeded * 8) w.1 sf
  return if overlap = 0 then none else some (overlap, dropSets c L)

/-- `normalise_set_fields`, normalisebdd.py:35-104.  `order` is the order in which python iterates over the set. -/
def normaliseSetFields {π : Type} (order : List (Nat × Nat) → List (Nat × Nat)) (r : Rule π) : Except PyErr (List (Nat × Label)) := do
  let L ← r.label
  let sets := order (setPairs L)
  let cs := ((List.range sets.length).map fun i => sets.length - i).flatMap fun k => combinations k sets
  let res ← cs.mapM (comboEntry r.mat L)
  let w ← r.mat.getWildcard
  return res.filterMap id ++ [(w.1, L)]

/-- `normalise(rules, match_redundancy=True)`, normalisebdd.py:107-142 and 175; see `normaliseRules`. -/
def normaliseEager {π : Type} (order : List (Nat × Nat) → List (Nat × Nat)) (reg : LReg) (rules : List (Rule π)) : Except PyErr (DD Nat × LReg) := do
  if oneTable (rules.map fun r => (⟨r.table, 0, ()⟩ : NRule Unit)) then
    let ess ← rules.mapM (normaliseSetFields order)
    let es := ess.flatten
    let x := reg.runLabels (es.map (·.2))
    let t ← normaliseDC (bytesNeeded * 8) plain (List.zipWith (fun (e : Nat × Label) id => (⟨0, e.1, id⟩ : NRule Nat)) es x.1)
    return (t, x.2)
  else .error .assertion

end OFE
