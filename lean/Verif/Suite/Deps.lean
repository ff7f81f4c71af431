import Verif.Props.DirectRuleset
import Verif.Props.Indirect

/-!
The expectations of the code's own tests of dependencies (tests/test_ruleset_deps_direct.py, tests/test_ruleset_deps_indirect.py, with tests/rulesets.py in
/repo), evaluated on the model.  These are tests, not proofs of properties; they are run by the
compiler (`#guard`), not checked by the kernel.  IPV4_SRC is field 11, IPV4_DST 12, TCP_SRC 13, TCP_DST 14.  The tests on random
orders and on the forwarding table of 1000 lines are left out.
-/

namespace OFE
namespace Suite
open Deps

/-- `Rule(table, priority, match, instructions=I(goto, set_tcp))`, tests/rulesets.py:32-38, numbered. -/
def tr (table priority : Nat) (items : List (Nat × Nat × Option Nat)) (goto set : Option Nat) (uid : Nat) : URule Unit :=
  (uid, ⟨priority, some 0, table, items.foldl (fun m x => m.append x.1 x.2.1 x.2.2) Match.empty,
    ⟨goto, match set with | none => .empty | some v => ⟨[[.setField 14 v]], [.setField 14 v]⟩, .empty, none, false, none⟩, []⟩)

/-- `COVISOR_RULESET`, tests/rulesets.py:42-52 -/
def covisor : List (URule Unit) :=
  [tr 0 5 [(11, 0x01000000, some 0xffffff00), (12, 0x02000001, none)] none none 0, tr 0 4 [(11, 0x01000000, some 0xffffff00), (12, 0x02000002, none)] none none 1,
    tr 0 3 [(11, 0x01000000, some 0xffffff00)] none none 2, tr 0 2 [(12, 0x02000001, none)] none none 3, tr 0 1 [(12, 0x02000002, none)] none none 4,
    tr 0 0 [] none none 5]

/-- `REANNZ_RULESET`, tests/rulesets.py:54-70 -/
def reannz : List (URule Unit) :=
  [tr 0 32800 [(14, 179, none)] none none 0, tr 0 32800 [(14, 646, none)] none none 1, tr 0 16640 [(12, 0x6fdd4500, some 0xffffff00)] none none 2,
    tr 0 16640 [(12, 0x6fdd4200, some 0xffffff00)] none none 3, tr 0 16630 [(12, 0x6fdd4e00, some 0xfffffe00)] none none 4,
    tr 0 16610 [(12, 0x6fdd4000, some 0xffe1f800)] none none 5, tr 0 16610 [(12, 0x6fdd7000, some 0xffe1f800)] none none 6,
    tr 0 16580 [(12, 0x6fdd4000, some 0xffe1c000)] none none 7, tr 0 0 [] none none 8]

/-- `REANNZ_OVERLAP` (`f` is IPV4_DST) and `REANNZ_OVERLAP2` (IPV4_SRC), tests/rulesets.py:74-96 -/
def overlap (f : Nat) : List (URule Unit) :=
  [tr 0 32800 [(14, 179, none)] none none 0, tr 0 32800 [(14, 646, none)] none none 1, tr 0 16640 [(12, 0x6fdd4500, some 0xffffff00)] none none 2,
    tr 0 16640 [(12, 0x6fdd4200, some 0xffffff00)] none none 3, tr 0 16800 [(f, 0x6fdd4000, some 0xfffff800)] none none 4, tr 0 0 [] none none 5]

/-- `REWRITE_RULESET`, tests/rulesets.py:99-129 -/
def rewrite : List (URule Unit) :=
  [tr 0 100 [(14, 80, none)] (some 1) (some 81) 0, tr 0 100 [(14, 81, none)] (some 1) (some 82) 1, tr 0 100 [(14, 82, none)] (some 1) (some 83) 2,
    tr 0 0 [] none none 3,
    tr 1 100 [(14, 80, none)] (some 2) (some 81) 4, tr 1 100 [(14, 81, none)] (some 2) (some 82) 5, tr 1 100 [(14, 82, none)] (some 2) (some 83) 6,
    tr 1 0 [] none none 7,
    tr 2 100 [(14, 80, none)] (some 3) (some 81) 8, tr 2 100 [(14, 81, none)] (some 3) (some 82) 9, tr 2 100 [(14, 82, none)] (some 3) (some 83) 10,
    tr 2 0 [] none none 11, tr 3 0 [] none none 12]

/-- `REANNZ_DEPS`, tests/rulesets.py:148-176: rule, rule, indirect. -/
def reannzDeps : List (Nat × Nat × Bool) :=
  [(0, 2, false), (0, 3, false), (0, 4, false), (0, 5, false), (0, 6, false), (0, 7, false), (0, 8, false), (1, 2, false), (1, 3, false), (1, 4, false),
    (1, 5, false), (1, 6, false), (1, 7, false), (1, 8, false), (2, 5, false), (2, 7, true), (2, 8, true), (3, 5, false), (3, 7, true), (3, 8, true),
    (4, 7, false), (4, 8, true), (5, 7, false), (5, 8, true), (6, 7, false), (6, 8, true), (7, 8, false)]

/-- `REANNZ_OVERLAP_DEPS`, tests/rulesets.py:182-196 -/
def overlapDeps : List (Nat × Nat × Bool) :=
  [(0, 4, false), (0, 2, true), (0, 3, true), (0, 5, false), (1, 4, false), (1, 2, true), (1, 3, true), (1, 5, false), (4, 2, false), (4, 3, false),
    (4, 5, false), (2, 5, false), (3, 5, false)]

/-- `REANNZ_OVERLAP2_DEPS`, tests/rulesets.py:201-215 -/
def overlap2Deps : List (Nat × Nat × Bool) :=
  [(0, 4, false), (0, 5, false), (0, 2, false), (0, 3, false), (1, 4, false), (1, 5, false), (1, 2, false), (1, 3, false), (4, 2, false), (4, 3, false),
    (4, 5, false), (2, 5, false), (3, 5, false)]

/-- `COVISOR_DEPS`, tests/rulesets.py:220-233 -/
def covisorDeps : List (Nat × Nat × Bool) :=
  [(0, 2, false), (0, 3, true), (0, 5, true), (1, 2, false), (1, 4, true), (1, 5, true), (2, 3, false), (2, 4, false), (2, 5, false), (3, 5, false),
    (4, 5, false)]

/-- `REWRITE_DEPS`, tests/rulesets.py:238-267 -/
def rewriteDeps : List (Nat × Nat × Bool) :=
  [(0, 3, false), (0, 5, false), (0, 7, true), (0, 10, true), (0, 11, true), (0, 12, true), (1, 3, false), (1, 6, false), (1, 7, true), (1, 11, true),
    (2, 3, false), (2, 7, false), (4, 7, false), (4, 9, false), (4, 11, true), (4, 12, true), (5, 7, false), (5, 10, false), (5, 11, true), (5, 12, true),
    (6, 7, false), (6, 11, false), (8, 11, false), (8, 12, false), (9, 11, false), (9, 12, false), (10, 11, false), (10, 12, false)]

/-- `direct(deps)`, tests/rulesets.py:24-26 -/
def direct (deps : List (Nat × Nat × Bool)) : List (Nat × Nat) := (deps.filter fun e => !e.2.2).map fun e => (e.1, e.2.1)

/-- `indirect(deps)`, tests/rulesets.py:28-30 -/
def indirect (deps : List (Nat × Nat × Bool)) : List (Nat × Nat) := deps.map fun e => (e.1, e.2.1)

/-- `assertSetEqual(set(deps), expected)`, tests/test_ruleset_deps_direct.py:43 -/
def sameEdges (deps : Except PyErr (List (Nat × Nat))) (expected : List (Nat × Nat)) : Bool :=
  match deps with
  | .ok l => l.all expected.contains && expected.all l.contains
  | .error _ => false

/-! `check_dag` of the direct dependencies, tests/test_ruleset_deps_direct.py:38-46: batch with diagrams, batch with header spaces, incremental. -/

/-- The three algorithms, tests/test_ruleset_deps_direct.py:39-41 -/
def checkDirect (rs : List (URule Unit)) (deps : List (Nat × Nat × Bool)) : Bool :=
  sameEdges (directRuleset true (batchEdges totBits) (parentsBdd totBits) rs) (direct deps) &&
    sameEdges (directRuleset false (batchEdgesHs totBits) (parentsHs totBits) rs) (direct deps) &&
    sameEdges (directRuleset true (incrementalEdges totBits id rs.length) (parentsBdd totBits) rs) (direct deps)

#guard checkDirect covisor covisorDeps
#guard checkDirect (overlap 12) overlapDeps
#guard checkDirect (overlap 11) overlap2Deps
#guard checkDirect reannz reannzDeps

/-! `test_rewrite_ruleset`, tests/test_ruleset_deps_direct.py:77-82. -/

#guard sameEdges (directRuleset true (batchEdges totBits) (parentsBdd totBits) rewrite) (direct rewriteDeps) &&
    sameEdges (directRuleset false (batchEdgesHs totBits) (parentsHs totBits) rewrite) (direct rewriteDeps)

/-! `check_dag` and `test_rewrite_ruleset` of all dependencies, tests/test_ruleset_deps_indirect.py:35-41, 77-82. -/

#guard sameEdges (buildRulesetDeps 1 covisor) (indirect covisorDeps) && sameEdges (buildRulesetDeps 1 (overlap 12)) (indirect overlapDeps) &&
    sameEdges (buildRulesetDeps 1 (overlap 11)) (indirect overlap2Deps) && sameEdges (buildRulesetDeps 1 reannz) (indirect reannzDeps)

#guard sameEdges (buildRulesetDeps 4 rewrite) (indirect rewriteDeps)

end Suite
end OFE
