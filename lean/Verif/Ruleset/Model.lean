import Verif.Rule.Model

/-!
# Rulesets: conversion to a single table

Model of `ofequivalence/ruleset.py` lines 30-172.  A ruleset is a list of rules; where the code refers to a rule object (in `path`),
the model uses the rule's position in the list.
-/

namespace OFE

/-- `MAX_PRIORITY`, ruleset.py:31 -/
def maxPriority : Nat := 65536

/-- Insert before the first rule of lower or equal priority. -/
def insertDesc {π : Type} (x : Rule π) : List (Rule π) → List (Rule π)
  | [] => [x]
  | y :: ys => if y.priority ≤ x.priority then x :: y :: ys else y :: insertDesc x ys

/-- `sorted(l, key=lambda x: -x.priority)`, ruleset.py:147-152: python's sort is stable. -/
def sortDesc {π : Type} (l : List (Rule π)) : List (Rule π) := l.foldr insertDesc []

/-- Insert a table number into an increasing list without repetition. -/
def insertTable (t : Nat) : List Nat → List Nat
  | [] => [t]
  | u :: us => if t < u then t :: u :: us else if t = u then u :: us else u :: insertTable t us

/-- `sorted({x.table for x in ruleset})`, ruleset.py:116, 134 -/
def tablesOf {π : Type} (l : List (Rule π)) : List Nat := l.foldr (fun r acc => insertTable r.table acc) []

/-- `table_to_power[t]`, ruleset.py:117: the number of tables after `t`. -/
def tablePower (tables : List Nat) (t : Nat) : Nat := tables.length - 1 - tables.idxOf t

/-- `scale_ruleset`, ruleset.py:102-121.  (The code changes the rules in place; rules before a failing assertion stay scaled.) -/
def scaleRuleset {π : Type} (rules : List (Rule π)) : Except PyErr (List (Rule π)) :=
  rules.mapM fun r =>
    if r.priority < maxPriority then .ok { r with priority := r.priority * maxPriority ^ tablePower (tablesOf rules) r.table }
    else .error .assertion

/-- The inner loop of `single_table_condense`, ruleset.py:69-78, for one rule that goes to the second table. -/
def mergeAll {π : Type} (a : Rule π) (openflow : Bool) : List (Rule π) → Except PyErr (List (Rule π))
  | [] => .ok []
  | b :: rest =>
    match a.merge b openflow with
    | .ok r => do return { r with path := a.path ++ b.path } :: (← mergeAll a openflow rest)
    | .error .mergeError => mergeAll a openflow rest
    | .error .noOverlap => mergeAll a openflow rest
    | .error e => .error e

/-- `single_table_condense`, ruleset.py:51-99 -/
def condense {π : Type} (first second : List (Rule π)) (num : Nat) (openflow : Bool) : Except PyErr (List (Rule π)) :=
  match first with
  | [] => .ok []
  | a :: rest => do
    let here ← if a.inst.goto = some num then mergeAll a openflow second else .ok [a]
    return here ++ (← condense rest second num openflow)

/-- `if not rule.path: rule.path = (rule,)`, ruleset.py:136-138 -/
def fillPaths (rules : List (Rule Nat)) : List (Rule Nat) :=
  rules.zipIdx.map fun x => if x.1.path.isEmpty then { x.1 with path := [x.2] } else x.1

/-- `Rule(priority=0, table=table)` with its own path, ruleset.py:144-145 -/
def defaultRule (table self : Nat) : Rule Nat := ⟨0, none, table, Match.empty, Inst.empty, [self]⟩

/-- Fill in missing default rules, ruleset.py:139-145 -/
def addDefaults (tables : List Nat) (rules : List (Rule Nat)) : List (Rule Nat) :=
  tables.foldl (fun rs t => if rs.any fun r => r.priority == 0 && r.table == t then rs else rs ++ [defaultRule t rs.length]) rules

/-- The rules of one table in order, ruleset.py:147-152 -/
def tableRules {π : Type} (rules : List (Rule π)) (t : Nat) : List (Rule π) := sortDesc (rules.filter fun r => r.table == t)

/-- `to_single_table_scaled`, ruleset.py:124-157 -/
def toSingleTableScaled (rules : List (Rule Nat)) (openflow : Bool) : Except PyErr (List (Rule Nat)) :=
  let tables := tablesOf rules
  if 0 ∈ tables then
    let rules := addDefaults tables (fillPaths rules)
    match tables with
    | [] => .ok []
    | t :: rest => rest.foldlM (fun acc n => condense acc (tableRules rules n) n openflow) (tableRules rules t)
  else .error .assertion

/-- `to_single_table`, ruleset.py:160-172 -/
def toSingleTable (rules : List (Rule Nat)) (openflow : Bool) : Except PyErr (List (Rule Nat)) := do
  toSingleTableScaled (← scaleRuleset rules) openflow

end OFE
