import Verif.Props.Names
import Verif.Props.Check

/-!
# Property C108 and the check of equivalence
-/

namespace OFE.Names

/-- Packets whose TCP_FLAGS (the first unknown name, hence number 56) are 2 go to port 1, all others to port 2. -/
def flagRules : List (Rule Unit) :=
  [checkRule (Match.empty.append 56 2 none) [.output 1], checkRule Match.empty [.output 2]]

/-- C108, negation: a ruleset that looks at an unknown field counts as equivalent to one that sends everything to port 1; its other rule is never used. -/
theorem C108_check : nameToId Table.init "TCP_FLAGS" = .ok (56, ⟨Table.init.fields ++ [("TCP_FLAGS", 56, none)], Table.init.ordered ++ ["TCP_FLAGS"]⟩) ∧
    runCheck flagRules checkB = .ok true ∧ runCheck [checkRule Match.empty [.output 2]] checkB = .ok false :=
  ⟨by decide +kernel, by decide +kernel, by decide +kernel⟩

end OFE.Names
