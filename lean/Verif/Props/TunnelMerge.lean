import Verif.Rule.TunnelMerge

/-! # C65: merging rules behind pushes and pops -/

namespace OFE

variable {π : Type}

theorem merge_tun {a b : Rule π} (ha : RuleOK a) (hb : RuleOK b) (hm : NoMeta a.inst.apply.iter)
    (h2 : ∀ t, pushCount t a.inst.apply.iter ≤ 2)
    (h1 : ∀ t, popCount t a.inst.apply.iter = 0 ∨ pushCount t a.inst.apply.iter ≤ 1)
    (h3 : ∀ t, popCount t a.inst.apply.iter ≤ pushCount t a.inst.apply.iter + 2) :
    (∃ m i, a.inst.merge b.inst = .ok i ∧ InstOK i ∧ m.Inv ∧ (∃ p, m.accepts p) ∧
      (∀ p, PushedKnown a p → (m.accepts p ↔ a.mat.accepts p ∧ b.mat.accepts (a.inst.forward p))) ∧ (∀ x ∈ m.items, x.1 < 56) ∧
      MergedReq a.mat b.mat a.inst.apply.iter m ∧
      ∀ openflow, a.merge b openflow = if openflow && m.items.any (fun x => isInner x.1) then .error .mergeError else
        .ok ⟨a.priority + b.priority, a.cookie, a.table, m, { i with wmeta := mergeMeta a.inst.wmeta b.inst.wmeta }, []⟩) ∨
    ((∀ openflow, a.merge b openflow = .error .noOverlap) ∧
      ∀ p, PushedKnown a p → ¬ (a.mat.accepts p ∧ b.mat.accepts (a.inst.forward p))) := by
  obtain ⟨sim, rw', es, hs⟩ := simEgress_tun ha hm h2 h1
  have hcov : ∀ p, PushedKnown a p → a.mat.accepts p → sim.accepts (a.inst.forward p) := by
    intro p hk hp
    obtain ⟨m, e, hacc⟩ := C32_egress_covers_partial a ha p hp h2 h1 hk
    have : gotoEgress a none = .ok sim := by
      unfold gotoEgress
      simp only [es, bind, Except.bind, pure, Except.pure]
    rw [this] at e
    cases e; exact hacc
  obtain ⟨r, er, hr⟩ := overlaps_iff hs.inv hb.inv hs.keys (lt56 hb.keys)
  cases r with
  | false =>
    right
    refine ⟨fun openflow => ?_, fun p hk ⟨hp1, hp2⟩ => ?_⟩
    · unfold Rule.merge
      simp only [es, er, bind, Except.bind, Bool.not_false, if_true]
      rfl
    · have := hr.2 ⟨_, hcov p hk hp1, hp2⟩
      cases this
  | true =>
    left
    obtain ⟨c, c', m, e2, e3, e5, hi, hk, hne, hacc, hreq, -⟩ := merged_tun hs ha.inv ha.keys hb.inv hb.keys h3 er
    obtain ⟨i, ei, oki, -, -, -⟩ := merge_inst ha.inst hb.inst
    refine ⟨m, i, ei, oki, hi, hne, fun p hkp => hacc p (hcov p hkp), hk, hreq, fun openflow => ?_⟩
    cases e4 : b.mat.copy [] ((rw'.items.map (·.1)).filter fun x => (b.mat.items.lookup x).isSome && x != fMeta) with
    | error e => rw [e4] at e2; cases e2
    | ok c1 =>
      rw [e4] at e2
      simp only [bind, Except.bind] at e2
      unfold Rule.merge
      simp only [es, er, e4, e2, e3, e5, ei, bind, Except.bind, Bool.not_true, pure, Except.pure]
      by_cases ho : (openflow && m.items.any fun x => isInner x.1) = true
      · simp only [ho, if_true]; rfl
      · simp only [ho]; rfl

/-- For every packet that the first rule accepts there is one such that merging with any rule that accepts it keeps the first packet. -/
theorem merge_covers {a : Rule π} (ha : RuleOK a) (hm : NoMeta a.inst.apply.iter)
    (h2 : ∀ t, pushCount t a.inst.apply.iter ≤ 2)
    (h1 : ∀ t, popCount t a.inst.apply.iter = 0 ∨ pushCount t a.inst.apply.iter ≤ 1)
    (h3 : ∀ t, popCount t a.inst.apply.iter ≤ pushCount t a.inst.apply.iter + 2) (p : Pkt) (hp : a.mat.accepts p) :
    ∃ q : Pkt, ∀ b, RuleOK b → b.mat.accepts q → ∃ r, a.merge b false = .ok r ∧ r.mat.accepts p := by
  obtain ⟨sim, rw', es, hs⟩ := simEgress_tun ha hm h2 h1
  obtain ⟨q, hq⟩ := exists_pkt (Packet.build fun g k => (req sim.items g k).getD
    ((p.fld g (popsOf g a.inst.apply.iter - pushesOf g a.inst.apply.iter)).testBit k))
  have hbit : ∀ g k, k < width g → q.hdr.bit g k = (req sim.items g k).getD
      ((p.fld g (popsOf g a.inst.apply.iter - pushesOf g a.inst.apply.iter)).testBit k) := fun g k hk => by
    rw [hq g k hk, build_bit (field_lt hk) hk]
  have hsq : MatchesAll sim.items q.hdr := (matchesAll_iff hs.inv.nodup).2 fun g k e hk he => by rw [hbit g k hk, he]; rfl
  have hp' := (accepts_outer ha.inv ha.keys p).1 hp
  refine ⟨q, fun b hb hbq => ?_⟩
  obtain ⟨r, er, hr⟩ := overlaps_iff hs.inv hb.inv hs.keys (lt56 hb.keys)
  cases hr.2 ⟨q.hdr, hsq, hbq⟩
  obtain ⟨c, c', m, e2, e3, e5, hi, hk, hne, -, -, hacc⟩ := merged_tun hs ha.inv ha.keys hb.inv hb.keys h3 er
  obtain ⟨i, ei, oki, -, -, -⟩ := merge_inst ha.inst hb.inst
  refine ⟨⟨a.priority + b.priority, a.cookie, a.table, m, { i with wmeta := mergeMeta a.inst.wmeta b.inst.wmeta }, []⟩, ?_, (hacc p).2 ⟨hp, ?_⟩⟩
  · cases e4 : b.mat.copy [] ((rw'.items.map (·.1)).filter fun x => (b.mat.items.lookup x).isSome && x != fMeta) with
    | error e => rw [e4] at e2; cases e2
    | ok c1 =>
      rw [e4] at e2
      simp only [bind, Except.bind] at e2
      unfold Rule.merge
      simp only [es, er, e4, e2, e3, e5, ei, bind, Except.bind, Bool.not_true, pure, Except.pure]
      rfl
  · intro g k e hg hkw hcv hre
    have hqe := (matchesAll_iff hb.inv.nodup).1 hbq g k e hkw hre
    rw [hbit g k hkw] at hqe
    cases hsr : req sim.items g k with
    | none => rw [hsr] at hqe; exact hqe
    | some d =>
      rw [hsr] at hqe
      cases hqe
      by_cases hg2 : g = 2
      · subst hg2
        rw [hs.reqMeta k hkw] at hsr
        have : rwBit a.inst 2 k = none := by
          unfold covBit at hcv
          unfold rwBit
          rw [if_pos rfl] at hcv ⊢
          cases hw : a.inst.wmeta with
          | none => rfl
          | some vm =>
            rw [hw] at hcv
            exact Option.isSome_eq_false_iff.1 hcv |> Option.isNone_iff_eq_none.1
        rw [this] at hsr
        rw [popsOf_other (by decide), Nat.zero_sub]
        exact hp' 2 k d hg hkw hsr
      · have hn : rw'.items.lookup g = none := by
          unfold covBit at hcv
          rw [if_neg hg2] at hcv
          simpa using hcv
        rcases hs.slot g hg hg2 with ⟨v, h4, -⟩ | ⟨-, h4, h5⟩
        · rw [show rw'.items.lookup (inAt g 0) = rw'.items.lookup g from rfl, hn] at h4; cases h4
        · have := h5 k hkw
          rw [show inAt g 0 = g from rfl, hsr] at this
          split at this
          · next h6 =>
            rw [show popsOf g a.inst.apply.iter - pushesOf g a.inst.apply.iter = 0 by omega]
            exact hp' g k d hg hkw this.symm
          · cases this

/-- **C65** (partial: at most two pushes of a kind of header, at most one if it is also popped, at most two more pops than pushes,
and headers that are pushed upon are known, as in C32) Where `first` pushes and pops headers, the rule made by
`first.merge(second, openflow=False)` accepts a packet exactly when `first` accepts it and `second` accepts what `first` hands on; the
headers that come out from under popped ones are matched inside the arriving packet.  No-overlap is only reported if there is no such
packet.  With `openflow=True` the result is the same, except that a merge exception is raised if (and only if) inner headers would have
to be matched; otherwise the result is a proper OpenFlow rule. -/
theorem C65_merge_tunnels_partial (a b : Rule π) (ha : RuleOK a) (hb : RuleOK b) (hm : NoMeta a.inst.apply.iter)
    (h2 : ∀ t, pushCount t a.inst.apply.iter ≤ 2)
    (h1 : ∀ t, popCount t a.inst.apply.iter = 0 ∨ pushCount t a.inst.apply.iter ≤ 1)
    (h3 : ∀ t, popCount t a.inst.apply.iter ≤ pushCount t a.inst.apply.iter + 2) :
    (∃ r, a.merge b false = .ok r ∧ (∃ p, r.mat.accepts p) ∧
      (∀ p, PushedKnown a p → (r.mat.accepts p ↔ a.mat.accepts p ∧ b.mat.accepts (a.inst.forward p))) ∧
      r.priority = a.priority + b.priority ∧ r.cookie = a.cookie ∧ r.table = a.table ∧
      ((∃ x ∈ r.mat.items, 40 ≤ x.1) → a.merge b true = .error .mergeError) ∧
      ((∀ x ∈ r.mat.items, x.1 < 40) → a.merge b true = .ok r ∧ RuleOK r)) ∨
    ((∀ openflow, a.merge b openflow = .error .noOverlap) ∧
      ∀ p, PushedKnown a p → ¬ (a.mat.accepts p ∧ b.mat.accepts (a.inst.forward p))) := by
  rcases merge_tun ha hb hm h2 h1 h3 with ⟨m, i, ei, oki, hi, hne, hacc, hk, -, hmerge⟩ | h
  · left
    refine ⟨_, hmerge false, hne, hacc, rfl, rfl, rfl, fun ⟨x, hx, hx40⟩ => ?_, fun hall => ?_⟩
    · have : m.items.any (fun x => isInner x.1) = true := by
        rw [List.any_eq_true]
        exact ⟨x, hx, by have := hk x hx; simp [isInner]; omega⟩
      rw [hmerge true, this]; rfl
    · have : m.items.any (fun x => isInner x.1) = false := by
        rw [List.any_eq_false]
        intro x hx
        have := hall x hx
        simp [isInner]; omega
      rw [hmerge true, this]
      exact ⟨rfl, hi, hall, oki.apply, oki.write⟩
  · exact .inr h

/-! ### Samples -/

/-- Matches VLAN 5 and removes it. -/
def samplePop : Rule Unit where
  priority := 4
  cookie := none
  table := 0
  mat := Match.empty.append 6 0x1005 none
  inst := ⟨some 1, ⟨[[.popVlan]], [.popVlan]⟩, ActionList.empty, some (1, some 3), false, none⟩
  path := []

/-- Matches VLAN 6 and metadata 1. -/
def sampleVlan6 : Rule Unit where
  priority := 2
  cookie := none
  table := 1
  mat := (Match.empty.append 6 0x1006 none).append 2 1 (some 7)
  inst := ⟨none, ⟨[[.output 2]], [.output 2]⟩, ActionList.empty, none, false, none⟩
  path := []

theorem sampleVlan6_ok : RuleOK sampleVlan6 :=
  ⟨inv_append (inv_append inv_empty _ _ _) _ _ _, by decide +kernel, ⟨[.output 2], by decide, by decide +kernel⟩, ⟨[], by decide, by decide +kernel⟩⟩

/-- The samples meet the hypotheses (every packet is `PushedKnown`, since nothing is pushed) … -/
example : RuleOK samplePop ∧ RuleOK sampleVlan6 ∧ NoMeta samplePop.inst.apply.iter ∧ (∀ t, pushCount t samplePop.inst.apply.iter ≤ 2) ∧
    (∀ t, popCount t samplePop.inst.apply.iter = 0 ∨ pushCount t samplePop.inst.apply.iter ≤ 1) ∧
    (∀ t, popCount t samplePop.inst.apply.iter ≤ pushCount t samplePop.inst.apply.iter + 2) ∧ ∀ p, PushedKnown samplePop p := by
  refine ⟨⟨inv_append inv_empty _ _ _, by decide +kernel, ⟨[.popVlan], by decide, by decide +kernel⟩, ⟨[], by decide, by decide +kernel⟩⟩,
    sampleVlan6_ok, fun v h => ?_, fun t => by cases t <;> decide +kernel, fun t => by cases t <;> decide +kernel,
    fun t => by cases t <;> decide +kernel, fun p t ht => ?_⟩
  · simp [samplePop, ActionList.iter] at h
  · exact absurd ht (by cases t <;> decide +kernel)

/-- … and merge into a match on VLAN 5 outside, VLAN 6 inside (id 40 is VLAN_VID1) and the third metadata bit … -/
example : (samplePop.merge sampleVlan6 false).map (·.mat.items) = .ok [(40, 0x1006, none), (6, 0x1005, none), (2, 0, some 4)] ∧
    samplePop.merge sampleVlan6 true = .error .mergeError := by decide +kernel

/-- … whereas behind the push of VLAN 6 upon VLAN 5 the match on VLAN 6 is met and disappears. -/
example : (samplePush.merge sampleVlan6 true).map (·.mat.items) = .ok [(7, 0, none), (6, 0x1005, none), (2, 0, some 4)] := by decide +kernel

/-! ### Violations -/

/-- Matches VLAN 5. -/
def sampleVlan5 : Rule Unit := { sampleVlan6 with mat := Match.empty.append 6 0x1005 none }

/-- **C65 is violated** by a push on an unknown header: no-overlap is reported although the packet with VLAN 5 passes both rules. -/
theorem C65_push_unknown : RuleOK pushUnknown ∧ RuleOK sampleVlan5 ∧ pushUnknown.merge sampleVlan5 false = .error .noOverlap ∧
    pushUnknown.mat.accepts samplePushPkt ∧ sampleVlan5.mat.accepts (pushUnknown.inst.forward samplePushPkt) := by
  refine ⟨C32_push_unknown.1, ⟨inv_append inv_empty _ _ _, by decide +kernel, ⟨[.output 2], by decide, by decide +kernel⟩,
    ⟨[], by decide, by decide +kernel⟩⟩, by decide +kernel, C32_push_unknown.2.1, ?_⟩
  intro x hx i hib _
  have : x = (6, 0x1005, none) := by
    have h : sampleVlan5.mat.items = [(6, 0x1005, none)] := by decide +kernel
    rw [h] at hx; simpa using hx
  subst this
  rw [hdr_bit _ (by decide) hib]
  have : (pushUnknown.inst.forward samplePushPkt).fld 6 0 = 0x1005 := by decide +kernel
  show ((pushUnknown.inst.forward samplePushPkt).fld 6 0).testBit i = _
  rw [this]

/-- **C65**, no packet is lost: merged with the rules of a table that accepts every packet, the rule keeps all its packets, also those whose
headers are not known (which may then be in the wrong one of the merged rules, `C65_push_unknown`). -/
theorem C65_table_cover (a : Rule π) (bs : List (Rule π)) (ha : RuleOK a) (hb : ∀ b ∈ bs, RuleOK b) (hm : NoMeta a.inst.apply.iter)
    (h2 : ∀ t, pushCount t a.inst.apply.iter ≤ 2)
    (h1 : ∀ t, popCount t a.inst.apply.iter = 0 ∨ pushCount t a.inst.apply.iter ≤ 1)
    (h3 : ∀ t, popCount t a.inst.apply.iter ≤ pushCount t a.inst.apply.iter + 2) (hc : ∀ q, ∃ b ∈ bs, b.mat.accepts q)
    (p : Pkt) (hp : a.mat.accepts p) : ∃ b ∈ bs, ∃ r, a.merge b false = .ok r ∧ r.mat.accepts p := by
  obtain ⟨q, hq⟩ := merge_covers ha hm h2 h1 h3 p hp
  obtain ⟨b, hb', hbq⟩ := hc q
  exact ⟨b, hb', hq b (hb b hb') hbq⟩

/-- The hypotheses hold for the rule that pushes upon unknown headers: with VLAN 5 and a rule for the rest every packet stays. -/
example (p : Pkt) : ∃ b ∈ [sampleVlan5, { sampleVlan5 with mat := Match.empty }], ∃ r, pushUnknown.merge b false = .ok r ∧ r.mat.accepts p :=
  C65_table_cover pushUnknown _ C32_push_unknown.1 (by
      intro b hb
      simp only [List.mem_cons, List.not_mem_nil, or_false] at hb
      rcases hb with rfl | rfl
      · exact C65_push_unknown.2.1
      · exact ⟨inv_empty, by decide +kernel, ⟨[.output 2], by decide, by decide +kernel⟩, ⟨[], by decide, by decide +kernel⟩⟩)
    (by intro v hv; simp [pushUnknown, ActionList.iter] at hv) (fun t => by cases t <;> decide +kernel)
    (fun t => by cases t <;> decide +kernel) (fun t => by cases t <;> decide +kernel)
    (fun q => ⟨{ sampleVlan5 with mat := Match.empty }, by simp, fun x hx => by simp [Match.empty] at hx⟩) p fun x hx => by simp [pushUnknown, Match.empty] at hx

/-- Removes three VLAN headers. -/
def popThree : Rule Unit where
  priority := 4
  cookie := none
  table := 0
  mat := Match.empty
  inst := ⟨some 1, ⟨[[.popVlan, .popVlan, .popVlan]], [.popVlan, .popVlan, .popVlan]⟩, ActionList.empty, none, false, none⟩
  path := []

/-- **C65 is violated** behind three pops: the fourth header cannot be matched, but instead of the intended exception the merge dies of an
unassigned variable (`UnboundLocalError`), which the callers do not catch, although the packet with four headers passes both rules. -/
theorem C65_three_pops : RuleOK popThree ∧ RuleOK sampleVlan5 ∧ popThree.merge sampleVlan5 true = .error .nameError ∧
    ∃ p, popThree.mat.accepts p ∧ sampleVlan5.mat.accepts (popThree.inst.forward p) := by
  refine ⟨⟨inv_empty, by decide +kernel, ⟨[.popVlan, .popVlan, .popVlan], by decide, by decide +kernel⟩, ⟨[], by decide, by decide +kernel⟩⟩,
    C65_push_unknown.2.1, by decide +kernel, ⟨fun f _ => if f = 6 then 0x1005 else 0, fun _ => 0, 0, fun _ => 0, 64, 0⟩,
    fun x hx => by simp [popThree, Match.empty] at hx, ?_⟩
  intro x hx i hib _
  have : x = (6, 0x1005, none) := by
    have h : sampleVlan5.mat.items = [(6, 0x1005, none)] := by decide +kernel
    rw [h] at hx; simpa using hx
  subst this
  rw [hdr_bit _ (by decide) hib]
  show ((popThree.inst.forward _).fld 6 0).testBit i = _
  have : (popThree.inst.forward ⟨fun f _ => if f = 6 then 0x1005 else 0, fun _ => 0, 0, fun _ => 0, 64, 0⟩).fld 6 0 = 0x1005 := by decide +kernel
  rw [this]

end OFE
