import Verif.Bdd.Model
import Verif.Cudd.Model
import Verif.Match.Model

/-!
# Diagrams as matches

Model of the three functions `BDD_to_matches`.
-/

namespace OFE

section
variable {α : Type}

/-- `BDD_to_matches` of cbdd.py:180-182, on `BDD_to_wcs` of cbdd.py:174-197 (the text of which is that of bdd.py:254-276). -/
def cbddMatches (t : DD α) : Except PyErr (List Match) := (DD.toWcs (bytesNeeded * 8) t).mapM fun x => wildcardToMatch x.1

/-- `BDD_to_matches` of bdd.py:260-261: `flow_wildcard_to_flowmatches` (headerspace.py:444) is called without its second argument, which raises TypeError for
the first wildcard of the list. -/
def pyMatches (t : DD α) : Except PyErr (List Match) := (DD.toWcs (bytesNeeded * 8) t).mapM fun _ => .error .typeError

/-- `BDD_to_matches` of cuddbdd.py:94-100, a generator over that of `BDD_to_wcs`, 74-91.  All of it is taken here: what the generator yields before an
exception is not kept, and the lookups of all actions come before the first conversion. -/
def cuddMatches {φ : Type} [DecidableEq φ] (r : Cudd.Reg φ α) (t : DD Nat) : Except PyErr (List (Match × Option α × Option α)) := do
  (← Cudd.toWcs r (bytesNeeded * 8) t).mapM fun x => do return (← wildcardToMatch x.1, x.2)

end
end OFE
