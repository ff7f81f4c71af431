import Verif.Rule.MergeLemmas3
import Verif.Rule.InstLemmas

/-! # C26, C27: merging rules -/

namespace OFE

variable {π : Type}

theorem RuleOK.inst {r : Rule π} (h : RuleOK r) : InstOK r.inst := ⟨h.apply, h.write⟩

theorem flatOK_of {r : Rule π} (h : RuleOK r) (hf : FlatActs r.inst.apply.iter) : FlatOK r.inst.apply.iter := by
  refine ⟨hf, fun f v hm => ?_⟩
  obtain ⟨s, k, e⟩ := h.apply
  simpa [Action.known] using known_iter k e _ hm

/-- Everything about `merge` for a first rule without push and pop. -/
theorem merge_cases {a b : Rule π} (ha : RuleOK a) (hb : RuleOK b) (hf : FlatActs a.inst.apply.iter) (openflow : Bool) :
    (∃ r i, a.merge b openflow = .ok r ∧ a.inst.merge b.inst = .ok i ∧
      r.inst = { i with wmeta := mergeMeta a.inst.wmeta b.inst.wmeta } ∧ RuleOK r ∧ (∃ p, r.mat.accepts p) ∧
      (∀ p, r.mat.accepts p ↔ a.mat.accepts p ∧ b.mat.accepts (a.inst.forward p)) ∧
      r.priority = a.priority + b.priority ∧ r.cookie = a.cookie ∧ r.table = a.table ∧ r.path = []) ∨
    (a.merge b openflow = .error .noOverlap ∧ ∀ p, ¬ (a.mat.accepts p ∧ b.mat.accepts (a.inst.forward p))) := by
  have hfo := flatOK_of ha hf
  obtain ⟨sim, rw', es, hs⟩ := simEgress_ok ha.inv ha.keys hfo
  rcases merged_match hs hfo ha.inv ha.keys hb.inv hb.keys with ⟨c, m, e1, e2, e3, hi, hk, hne, hacc⟩ | ⟨e1, hno⟩
  · left
    obtain ⟨i, ei, oki, -, -, -⟩ := merge_inst ha.inst hb.inst
    cases e4 : b.mat.copy [] ((rw'.items.map (·.1)).filter fun x => (b.mat.items.lookup x).isSome && x != fMeta) with
    | error e => rw [e4] at e2; cases e2
    | ok c1 =>
      rw [e4] at e2
      simp only [bind, Except.bind] at e2
      have hin : m.items.any (fun x => isInner x.1) = false := by
        rw [List.any_eq_false]
        intro x hx
        have := hk x hx
        simp [isInner]; omega
      refine ⟨⟨a.priority + b.priority, a.cookie, a.table, m, { i with wmeta := mergeMeta a.inst.wmeta b.inst.wmeta }, []⟩, i,
        ?_, ei, rfl, ⟨hi, hk, oki.apply, oki.write⟩, hne, hacc, rfl, rfl, rfl, rfl⟩
      unfold Rule.merge
      simp only [es, e1, e4, e2, adjust_flat hf, e3, ei, hin, Bool.and_false, bind, Except.bind, Bool.not_true, pure, Except.pure]
      rfl
  · right
    refine ⟨?_, hno⟩
    unfold Rule.merge
    simp only [es, e1, bind, Except.bind, Bool.not_false, if_true]
    rfl

/-- **C26** The rule made by `first.merge(second)` accepts a packet exactly when `first` accepts it and `second` accepts the packet
that `first` hands on (after its set-fields and its possibly masked metadata write).  No-overlap is reported exactly when there is no
such packet.  Nothing else can happen, also with the OpenFlow check on.  `first` does not push or pop headers. -/
theorem C26_merge_match (a b : Rule π) (ha : RuleOK a) (hb : RuleOK b) (hf : FlatActs a.inst.apply.iter) (openflow : Bool) :
    (∃ r, a.merge b openflow = .ok r ∧ RuleOK r ∧ (∃ p, r.mat.accepts p) ∧
      (∀ p, r.mat.accepts p ↔ a.mat.accepts p ∧ b.mat.accepts (a.inst.forward p)) ∧
      r.priority = a.priority + b.priority ∧ r.cookie = a.cookie ∧ r.table = a.table) ∨
    (a.merge b openflow = .error .noOverlap ∧ ¬ ∃ p, a.mat.accepts p ∧ b.mat.accepts (a.inst.forward p)) := by
  rcases merge_cases ha hb hf openflow with ⟨r, i, h1, -, -, h2, h3, h4, h5, h6, h7, -⟩ | ⟨h1, h2⟩
  · exact .inl ⟨r, h1, h2, h3, h4, h5, h6, h7⟩
  · exact .inr ⟨h1, fun ⟨p, hp⟩ => h2 p hp⟩

/-- **C27** Executing the merged instructions, on any packet and with any action set so far, has the effect of executing those of
the first rule and then those of the second: the same packet (with metadata) goes on, the same copies are sent, the action set
is the same, and the next table is the one of the second rule. -/
theorem C27_merge_instructions (a b r : Rule π) (ha : RuleOK a) (hb : RuleOK b) (hm : NoMeta b.inst.apply.iter)
    (openflow : Bool) (h : a.merge b openflow = .ok r) (s : St) :
    (r.inst.run s).pkt = (b.inst.run (a.inst.run s)).pkt ∧
    SameSent (r.inst.run s).sent (b.inst.run (a.inst.run s)).sent ∧
    (finalSet (r.inst.run s).writes).Perm (finalSet (b.inst.run (a.inst.run s)).writes) ∧
    r.inst.goto = b.inst.goto := by
  obtain ⟨i, ei, oki, hg, heff, hset⟩ := merge_inst ha.inst hb.inst
  have hr : r.inst = { i with wmeta := mergeMeta a.inst.wmeta b.inst.wmeta } := by
    unfold Rule.merge at h
    simp only [bind, Except.bind, pure, Except.pure, ei] at h
    repeat' split at h
    all_goals first | (cases h; done) | skip
    all_goals (injection h with h; rw [← h])
  have hap : r.inst.apply = i.apply := by rw [hr]
  have hwr : r.inst.write = i.write := by rw [hr]
  have hcl : r.inst.clear = i.clear := by rw [hr]
  have hwm : r.inst.wmeta = mergeMeta a.inst.wmeta b.inst.wmeta := by rw [hr]
  obtain ⟨hp, hsnt⟩ := heff s.pkt
  rw [exec_append] at hp hsnt
  simp only at hp hsnt
  obtain ⟨h1, h2⟩ := exec_writeMeta hm a.inst.wmeta (exec a.inst.apply.iter s.pkt).1
  refine ⟨?_, ?_, ?_, by rw [hr]; exact hg⟩
  · simp only [Inst.run, Inst.forward, hap, hwm, hp, h1, writeMeta_merge]
  · simp only [Inst.run, Inst.forward, hap]
    have h3 : SameSent (exec i.apply.iter s.pkt).2
        ((exec a.inst.apply.iter s.pkt).2 ++ (exec b.inst.apply.iter (writeMeta a.inst.wmeta (exec a.inst.apply.iter s.pkt).1)).2) := by
      unfold SameSent at *
      refine (hsnt.map _).trans ?_
      rw [List.map_append, List.map_append]
      exact List.Perm.append_left _ h2.symm
    unfold SameSent at *
    rw [List.append_assoc, List.map_append, List.map_append (l₁ := s.sent)]
    exact List.Perm.append_left _ h3
  · simp only [Inst.run, hwr, hcl]
    exact finalSet_perm (hset s.writes)

/-! ### Sample rules for the examples -/

/-- First table: VLAN 5 with metadata 0x?1; sets IPV4_DST, writes 0x3? into the metadata, OUTPUT 1 into the action set. -/
def sampleA : Rule Unit where
  priority := 10
  cookie := some 7
  table := 0
  mat := (Match.empty.append 6 0x1005 none).append 2 1 (some 0xF)
  inst := ⟨some 1, ⟨[[.setField 12 9]], [.setField 12 9]⟩, ⟨[[.output 1]], [.output 1]⟩, some (0x30, some 0xF0), false, none⟩
  path := [()]

/-- Second table: metadata 0x31 and IPV4_DST 9; sets VLAN 6 and sends to port 4, replaces the output by port 2. -/
def sampleB : Rule Unit where
  priority := 3
  cookie := none
  table := 1
  mat := (Match.empty.append 2 0x31 (some 0xFF)).append 12 9 none
  inst := ⟨none, ⟨[[.setField 6 6], [.output 4]], [.setField 6 6, .output 4]⟩, ⟨[[.output 2]], [.output 2]⟩, some (0x100, some 0x110), false, none⟩
  path := [()]

theorem sampleA_ok : RuleOK sampleA :=
  ⟨inv_append (inv_append inv_empty _ _ _) _ _ _, by decide +kernel, ⟨[.setField 12 9], by decide, by decide +kernel⟩,
    ⟨[.output 1], by decide, by decide +kernel⟩⟩

theorem sampleB_ok : RuleOK sampleB :=
  ⟨inv_append (inv_append inv_empty _ _ _) _ _ _, by decide +kernel, ⟨[.setField 6 6, .output 4], by decide, by decide +kernel⟩,
    ⟨[.output 2], by decide, by decide +kernel⟩⟩

theorem sampleA_flat : FlatActs sampleA.inst.apply.iter := by
  intro a ha
  simp [sampleA, ActionList.iter] at ha
  subst ha
  exact ⟨rfl, rfl, by simp⟩

/-- The samples meet the hypotheses of C26 and C27 and merge: the metadata bits 0xF0 are written by the first rule and no longer
matched, nor is IPV4_DST. -/
example : (sampleA.merge sampleB true).map (·.mat.items) = .ok [(6, 0x1005, none), (2, 1, some 0xF)] ∧
    (sampleA.merge sampleB true).map (fun r => (r.inst.apply.iter, r.inst.write.iter)) =
      .ok ([.setField 12 9, .setField 6 6, .output 4], [.output 2]) ∧
    (sampleA.merge sampleB true).map (fun r => (r.inst.wmeta, r.priority)) = .ok (some (0x120, some 0x1F0), 13) := by
  decide +kernel

/-- … and the first rule with itself does not: it writes metadata that it does not accept. -/
example : ({ sampleA with inst := { sampleA.inst with wmeta := some (2, some 3) } } : Rule Unit).merge sampleA true = .error .noOverlap := by
  decide +kernel

end OFE
