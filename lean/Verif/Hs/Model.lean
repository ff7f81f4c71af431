import Verif.Wildcard.Model
import Verif.Deps.Model

/-!
# Header spaces

Model of the class `headerspace` (`ofequivalence/headerspace.py:511-590`).  `hs_list` and `hs_diff` are lists of the same length and are
modelled as one list of pairs.  `lazy_rules` and `applied_rules` are never used.
-/

namespace OFE

/-- `hs_list` with `hs_diff`: wildcards, each with wildcards taken away from it, headerspace.py:513-517. -/
abbrev HSpace := List (Nat × List Nat)

namespace HSpace

/-- `add_hs` of a wildcard, headerspace.py:519-525 -/
def addHs (h : HSpace) (wc : Nat) : HSpace := h ++ [(wc, [])]

/-- The intersections that are not empty, headerspace.py:549-556 -/
def meet (n isect : Nat) (ds : List Nat) : List Nat := (ds.map (wcIntersect n isect)).filter fun x => decide (x ≠ 0)

/-- `intersect`, headerspace.py:540-562 -/
def intersect (n : Nat) (a b : HSpace) : HSpace :=
  a.flatMap fun x => b.flatMap fun y =>
    let isect := wcIntersect n x.1 y.1
    if isect ≠ 0 then [(isect, meet n isect x.2 ++ meet n isect y.2)] else []

/-- `is_empty`, headerspace.py:564-565 -/
def isEmpty (h : HSpace) : Bool := h.length == 0

/-- `diff_hs`, headerspace.py:567-574 -/
def diffHs (n : Nat) (h : HSpace) (wc : Nat) : HSpace :=
  h.map fun x =>
    let isect := wcIntersect n x.1 wc
    if isect ≠ 0 then (x.1, x.2 ++ [isect]) else x

/-- `clean_up`, headerspace.py:576-590 -/
def cleanUp (h : HSpace) : HSpace :=
  h.flatMap fun x => if x.2.any fun d => wcIsSubset x.1 d then [] else [(x.1, compressList x.2)]

end HSpace

namespace Deps

/-- The loop of `add_parents_hs` (with `DO_LAZY`), ruleset_deps_direct.py:51-61.  The assertion holds by construction: `Rj_hs` is one wildcard with
nothing taken away. -/
def parentsLoopHs (n : Nat) (R : DRule) : HSpace → List DRule → Reaches HSpace → Reaches HSpace
  | _, [], g => g
  | packets, p :: ps, g =>
    let isect := (HSpace.intersect n packets (HSpace.addHs [] p.wc)).cleanUp
    if isect.isEmpty then parentsLoopHs n R packets ps g
    else parentsLoopHs n R (packets.diffHs n p.wc) ps (dictSet ⟨R, p⟩ isect g)

/-- `add_parents_hs`, ruleset_deps_direct.py:45-61 -/
def addParentsHs (n : Nat) (R : DRule) (P : List DRule) (g : Reaches HSpace) : Except PyErr (Reaches HSpace) := do
  return parentsLoopHs n R (HSpace.addHs [] (← startWc R P)) (descending P) g

/-- `build_table_deps(ruleset, use_bdd=False)`, ruleset_deps_direct.py:79-100 -/
def buildTableDepsHs (n : Nat) (rs : List DRule) : Except PyErr (Reaches HSpace) :=
  rs.foldlM (fun g R => addParentsHs n R (potential rs R) g) []

end Deps
end OFE
