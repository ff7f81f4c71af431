import Verif.Deps.Indirect

/-!
# Dependencies of IPv4 prefix tables

Model of `build_prefix_table_deps` in `ofequivalence/ruleset_deps_direct.py` and `ofequivalence/ruleset_deps_indirect.py`.
-/

namespace OFE
namespace Deps

/-- A rule with `match["IPV4_DST"][0]`, if the match has that field. -/
structure PRule where
  rule : DRule
  dst : Option Nat
deriving DecidableEq

/-- `sorted(ruleset, key=lambda x: (x.match["IPV4_DST"][0], x.priority))`, ruleset_deps_direct.py:116-118, ruleset_deps_indirect.py:103-104 -/
def prefixSort (rs : List PRule) : Except PyErr (List DRule) := do
  let keyed ← rs.mapM fun r => match r.dst with
    | none => .error .keyError
    | some v => .ok (v, r.rule)
  return (sortBy (fun a b => decide (a.1 < b.1 ∨ (a.1 = b.1 ∧ a.2.priority ≤ b.2.priority))) keyed).map (·.2)

/-- `while not …: chain.pop()`, ruleset_deps_direct.py:131-132, 135-137, ruleset_deps_indirect.py:114-116.  The chain is kept with its last element
first. -/
def popChain (meets : DRule → DRule → Bool) (rule : DRule) : List DRule → Except PyErr (List DRule)
  | [] => .error .indexError
  | c :: cs => if meets c rule then .ok (c :: cs) else popChain meets rule cs

/-- The loop over the sorted rules, ruleset_deps_direct.py:127-139, ruleset_deps_indirect.py:111-120; `add` records the edges of a rule, given the chain. -/
def prefixLoop {β : Type} (meets : DRule → DRule → Bool) (add : DRule → List DRule → β → β) : List DRule → List DRule → β → Except PyErr β
  | [], _, g => .ok g
  | r :: rs, chain, g => do
    let chain ← popChain meets r chain
    prefixLoop meets add rs (r :: chain) (add r chain g)

/-- The common part of the functions, ruleset_deps_direct.py:116-141, ruleset_deps_indirect.py:102-121.  `Rule().match.get_wildcard()` is the full wildcard. -/
def buildPrefix {β : Type} (n : Nat) (meets : DRule → DRule → Bool) (add : DRule → List DRule → β → β) (init : β) (rs : List PRule) : Except PyErr β := do
  match ← prefixSort rs with
  | [] => .error .indexError
  | d :: rest =>
    if d.priority ≠ 0 then .error .assertion
    else if d.wc ≠ wcFull n then .error .assertion
    else prefixLoop meets add rest [d] init

/-- `wildcard_intersect(…)` as a condition. -/
def meetsWc (n : Nat) (c r : DRule) : Bool := decide (wcIntersect n c.wc r.wc ≠ 0)

/-- `as_BDD.intersection(…)` as a condition. -/
def meetsBdd (n : Nat) (c r : DRule) : Bool := decide (Cudd.intersection (c.bdd n) (r.bdd n) ≠ .bot)

/-- `reaches[(rule, chain[-1])] = …`, ruleset_deps_direct.py:133, 138 -/
def addTop {γ : Type} (label : DRule → γ) (r : DRule) (chain : List DRule) (g : Reaches γ) : Reaches γ :=
  match chain with
  | [] => g
  | c :: _ => dictSet ⟨r, c⟩ (label r) g

/-- `build_prefix_table_deps(ruleset)`, ruleset_deps_direct.py:103-141 -/
def buildPrefixBdd (n : Nat) (rs : List PRule) : Except PyErr (Reaches BDD) := buildPrefix n (meetsBdd n) (addTop fun r => r.bdd n) [] rs

/-- `build_prefix_table_deps(ruleset, use_bdd=False)`, ruleset_deps_direct.py:103-141 -/
def buildPrefixWc (n : Nat) (rs : List PRule) : Except PyErr (Reaches Nat) := buildPrefix n (meetsWc n) (addTop fun r => r.wc) [] rs

/-- `build_prefix_table_deps`, ruleset_deps_indirect.py:87-121: an edge to every rule on the chain, from its bottom up. -/
def buildPrefixAll (n : Nat) (rs : List PRule) : Except PyErr (List Edge) :=
  buildPrefix n (meetsWc n) (fun r chain g => g ++ chain.reverse.map fun c => ⟨r, c⟩) [] rs

end Deps
end OFE
