import Verif.Select.Model
import Verif.Suite.Deps

/-!
The expectations of the code's own tests of compression (tests/test_ruleset.py:142-183 with tests/rulesets.py:274-333 in /repo), evaluated on the model.  These are
tests, not proofs of properties; they are run by the compiler (`#guard`), not checked by the kernel.  TCP_SRC is field 13, TCP_DST 14.
-/

namespace OFE
namespace Suite
open Deps

/-- `ORDERED_COMPRESS1`, tests/rulesets.py:274-284, and `POORLY_ORDERED_COMPRESS1`, 295-297, with rules 6 and 7 swapped. -/
def compress1 (poor : Bool) : List (URule Unit) :=
  [tr 0 120 [(13, 1, none), (14, 100, none)] none none 0, tr 0 120 [(13, 1, none), (14, 200, none)] none none 1, tr 0 120 [(13, 2, none), (14, 100, none)] none none 2,
    tr 0 120 [(13, 2, none), (14, 200, none)] none none 3, tr 0 110 [(14, 100, none)] none none 4, tr 0 110 [(14, 200, none)] none none 5,
    tr 0 100 [(13, if poor then 2 else 1, none)] none none 6, tr 0 100 [(13, if poor then 1 else 2, none)] none none 7, tr 0 0 [] none none 8]

/-- `ORDERED_COMPRESS2`, tests/rulesets.py:300-325, and `POORLY_ORDERED_COMPRESS2`, 329-333, with rules 2 and 3 and rules 10 and 11 swapped. -/
def compress2 (poor : Bool) : List (URule Unit) :=
  let x := if poor then 200 else 100
  let y := if poor then 100 else 200
  [tr 0 120 [(13, 1, none)] (some 1) none 0, tr 0 120 [(13, 2, none)] (some 1) none 1, tr 0 100 [(14, x, none)] (some 1) none 2, tr 0 100 [(14, y, none)] (some 1) none 3,
    tr 0 0 [] none none 4, tr 1 120 [(13, 1, none), (14, 100, none)] (some 2) none 5, tr 1 120 [(13, 2, none), (14, 200, none)] (some 2) none 6, tr 1 0 [] none none 7,
    tr 2 120 [(13, 1, none)] none none 8, tr 2 120 [(13, 2, none)] none none 9, tr 2 100 [(14, x, none)] none none 10, tr 2 100 [(14, y, none)] none none 11,
    tr 2 0 [] none none 12]

/-- `compress_ruleset(ruleset)`, with the dependencies of `build_ruleset_deps`: the matches of the rules that are kept.  The order in which sets are iterated is
`ord`. -/
def compressed (depth : Nat) (ord : List Nat → List Nat) (rs : List (URule Unit)) : Except PyErr (List (List (Nat × Nat × Option Nat))) := do
  let deps ← buildRulesetDeps depth rs
  let c ← Groups.compressRuleset (fun _ l => ord l) (rs.map (·.2)) deps
  return c.1.filterMap fun i => (rs[i]?).map (·.2.mat.items)

/-- The assertions of tests/test_ruleset.py:153-160. -/
def goodChoice (l : Except PyErr (List (List (Nat × Nat × Option Nat)))) : Bool :=
  match l with
  | .ok [a, b, c, d] => a.lookup 14 == b.lookup 14 && (a.lookup 14).isSome && a.lookup 13 == c.lookup 13 && (a.lookup 13).isSome && d.isEmpty
  | _ => false

/-! `test_compression_fully_covered`, tests/test_ruleset.py:142-161, with two orders of iteration. -/

#guard [false, true].all fun poor => goodChoice (compressed 1 id (compress1 poor)) && goodChoice (compressed 1 List.reverse (compress1 poor))
#guard match directRuleset true (batchEdges totBits) (parentsBdd totBits) (compress1 true) with
  | .ok deps => match Groups.compressRuleset (fun _ l => l) ((compress1 true).map (·.2)) deps with
    | .ok c => c.1.length == 4
    | .error _ => false
  | .error _ => false

/-! `test_compression_bad_choices`, tests/test_ruleset.py:163-183. -/

#guard [false, true].all fun poor => (compressed 3 id (compress2 poor)).map List.length == .ok 8 && (compressed 3 List.reverse (compress2 poor)).map List.length == .ok 8

end Suite
end OFE
