import Verif.Deps.Spec
import Verif.Rule.Spec
import Verif.Match.MatchLemmas

/-! # From rules to the rules of the dependency algorithms -/

namespace OFE
namespace Deps

/-- What the dependency algorithms see of a rule: `rule.match.get_wildcard()` (ruleset_deps_direct.py:41) and
`R.get_goto_egress().get_wildcard()` (ruleset_deps_direct.py:50, 68).  `uid` stands for the identity of the rule (UniqueRules, rule.py:1234-1302). -/
def DRule.ofRule {π : Type} (uid : Nat) (r : Rule π) : Except PyErr DRule := do
  let w ← r.mat.getWildcard
  return ⟨uid, r.priority, r.table, w.1, do return (← (← gotoEgress r none).getWildcard).1⟩

theorem getWildcard_spec {m : Match} (hi : m.Inv) (hk : ∀ x ∈ m.items, x.1 < 56) :
    ∃ w m', m.getWildcard = .ok (w, m') ∧ WcValid totBits w ∧ ∀ p, Covers totBits w p ↔ MatchesAll m.items p := by
  obtain ⟨w, e, -⟩ := toWildcard_ok hk
  have h := getWildcard_eq hi
  rw [e] at h
  cases hw : m.getWildcard with
  | error x => rw [hw] at h; cases h
  | ok v =>
    rw [hw] at h
    simp only [Except.map, Except.ok.injEq] at h
    exact ⟨w, v.2, by rw [← h], toWildcard_valid hk hi.nodup e, covers_toWildcard hk e⟩

/-- The dependency rule has the packets of the rule. -/
theorem ofRule_spec {π : Type} (uid : Nat) (r : Rule π) (hr : RuleOK r) :
    ∃ d, DRule.ofRule uid r = .ok d ∧ d.priority = r.priority ∧ d.table = r.table ∧ WcValid totBits d.wc ∧
      ∀ p : Pkt, d.hits totBits p.hdr ↔ r.mat.accepts p := by
  obtain ⟨w, m', e, hv, hc⟩ := getWildcard_spec hr.inv fun x hx => Nat.lt_of_lt_of_le (hr.keys x hx) (by decide)
  refine ⟨⟨uid, r.priority, r.table, w, do return (← (← gotoEgress r none).getWildcard).1⟩,
    by simp [DRule.ofRule, e, bind, Except.bind, pure, Except.pure], rfl, rfl, hv, fun p => ?_⟩
  exact hc _

end Deps
end OFE
