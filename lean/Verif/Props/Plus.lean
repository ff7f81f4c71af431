import Verif.Match.Ops
import Verif.Props.Rule

/-!
# C103: `+` of instructions and rules
-/

namespace OFE

variable {π : Type}

/-- **C103** `a + b` of instructions succeeds, applies the actions of `a` and then those of `b`, leaves the action set that writing both in turn leaves, whatever
was in it, and goes where `b` goes. -/
theorem C103_inst_plus (a b : Inst) (ha : InstOK a) (hb : InstOK b) : ∃ r, a.addOp b = .ok r ∧ r.goto = b.goto ∧
    SameEffect r.apply.iter (a.apply.iter ++ b.apply.iter) ∧
    ∀ W x, InSet ((if r.clear then [] else W) ++ r.write.iter) x ↔
      InSet ((if b.clear then [] else (if a.clear then [] else W) ++ a.write.iter) ++ b.write.iter) x := by
  obtain ⟨r, e, -, h⟩ := merge_inst ha hb
  exact ⟨r, e, h⟩

/-- **C103** `a + b` of rules is a rule of OpenFlow: it matches no inner header. -/
theorem C103_rule_plus_openflow (a b r : Rule π) (h : a.addOp b = .ok r) : ∀ x ∈ r.mat.items, ¬ (40 ≤ x.1 ∧ x.1 < 56) := by
  unfold Rule.addOp Rule.merge at h
  simp only [bind, Except.bind, pure, Except.pure, Bool.true_and, throw, throwThe, MonadExceptOf.throw] at h
  repeat' split at h
  all_goals first | (cases h; done) | contradiction | skip
  all_goals
    rename_i hany
    injection h with h
    rw [← h]
    intro x hx hin
    apply hany
    rw [List.any_eq_true]
    exact ⟨x, hx, by simp [isInner, hin.1, hin.2]⟩

/-- **C103** `a + b` of rules matches the packets that pass `a` and then `b`, and does what `a` and then `b` do.  `a` does not push or pop; if no packet passes
both there is no rule. -/
theorem C103_rule_plus (a b : Rule π) (ha : RuleOK a) (hb : RuleOK b) (hf : FlatActs a.inst.apply.iter) (hm : NoMeta b.inst.apply.iter) :
    (∃ r, a.addOp b = .ok r ∧ (∀ p, r.mat.accepts p ↔ a.mat.accepts p ∧ b.mat.accepts (a.inst.forward p)) ∧
      (∀ s, (r.inst.run s).pkt = (b.inst.run (a.inst.run s)).pkt ∧ SameSent (r.inst.run s).sent (b.inst.run (a.inst.run s)).sent ∧
        (finalSet (r.inst.run s).writes).Perm (finalSet (b.inst.run (a.inst.run s)).writes) ∧ r.inst.goto = b.inst.goto) ∧
      r.priority = a.priority + b.priority) ∨
    (a.addOp b = .error .noOverlap ∧ ¬ ∃ p, a.mat.accepts p ∧ b.mat.accepts (a.inst.forward p)) := by
  rcases C26_merge_match a b ha hb hf true with ⟨r, e, -, -, h, hp, -⟩ | h
  · exact .inl ⟨r, e, h, fun s => C27_merge_instructions a b r ha hb hm true e s, hp⟩
  · exact .inr h

/-- The two sample rules of C26. -/
example : (sampleA.addOp sampleB).map (fun r => (r.inst.apply.iter, r.priority)) = .ok ([.setField 12 9, .setField 6 6, .output 4], 13) ∧
    (sampleB.inst.addOp sampleA.inst).map (·.apply.iter) ≠ (sampleA.inst.addOp sampleB.inst).map (·.apply.iter) ∧
    FlatActs sampleA.inst.apply.iter := ⟨by decide +kernel, by decide +kernel, sampleA_flat⟩

end OFE
