import Verif.Ruleset.Agree

/-! # C28 – C31: conversion of a pipeline to a single table -/

namespace OFE

/-- **C28** (partial: no rule that goes on to another table pushes or pops headers) `to_single_table` succeeds, and for every packet
there is a first matching rule, it ends the pipeline, and its full actions send, from the same ports, the packets that the rules of
the pipeline send, table by table and with the action set executed at the end. -/
theorem C28_single_table_partial (rules : List (Rule Nat)) (h : PipelineOK rules) (hf : FlatPipeline rules) (openflow : Bool) :
    ∃ cs, toSingleTable rules openflow = .ok cs ∧ ∀ p, ∃ c l rs s', FirstHit cs p c ∧ c.inst.goto = none ∧
      c.inst.fullActions = .ok l ∧ Runs rules 0 (St.enter p) rs s' ∧ SameSent (exec l.iter p).2 s'.finish := by
  obtain ⟨cs, e, hc⟩ := single_cinv h hf openflow
  refine ⟨cs, e, fun p => ?_⟩
  obtain ⟨c, l, rs, s', h1, h2, h3, h4, -, h5⟩ := single_packet h hc p
  exact ⟨c, l, rs, s', h1, h2, h3, h4, h5⟩

theorem FirstHit.unique {π : Type} {cs : List (Rule π)} {p : Pkt} {c d : Rule π} (h : FirstHit cs p c) (h' : FirstHit cs p d) :
    c = d := by
  classical
  have key : ∀ {c : Rule π}, FirstHit cs p c → cs.find? (fun r => decide (r.mat.accepts p)) = some c := by
    rintro c ⟨b, a, rfl, h1, h2⟩
    rw [List.find?_append]
    have : b.find? (fun r => decide (r.mat.accepts p)) = none := by
      rw [List.find?_eq_none]; intro x hx; simpa using h2 x hx
    rw [this]; simp [h1]
  have := (key h).symm.trans (key h')
  simpa using this

/-- **C28** (partial as above) When no two rules of a table match the same packet with the same priority, the pipeline's run is
determined, so *every* run agrees with *the* first match. -/
theorem C28_every_run_partial (rules : List (Rule Nat)) (h : PipelineOK rules) (hf : FlatPipeline rules) (hn : NoTies rules)
    (openflow : Bool) (cs : List (Rule Nat)) (hcs : toSingleTable rules openflow = .ok cs) (p : Pkt) (c : Rule Nat)
    (hc : FirstHit cs p c) (rs : List (Rule Nat)) (s' : St) (hr : Runs rules 0 (St.enter p) rs s') :
    c.inst.goto = none ∧ ∃ l, c.inst.fullActions = .ok l ∧ SameSent (exec l.iter p).2 s'.finish := by
  obtain ⟨cs', e, hall⟩ := C28_single_table_partial rules h hf openflow
  rw [hcs] at e; cases e
  obtain ⟨c', l, rs', s'', h1, h2, h3, h4, h5⟩ := hall p
  obtain ⟨rfl, rfl⟩ := runs_unique hn hr h4
  cases hc.unique h1
  exact ⟨h2, l, h3, h5⟩

/-- **C31** (partial as C28) The path recorded on the rule that a packet hits first lists the rules of a run of the packet through
the pipeline, in order; `path` holds positions in the given ruleset. -/
theorem C31_path_partial (rules : List (Rule Nat)) (h : PipelineOK rules) (hf : FlatPipeline rules) (openflow : Bool) :
    ∃ cs, toSingleTable rules openflow = .ok cs ∧ ∀ p c, FirstHit cs p c →
      ∃ rs s', Runs rules 0 (St.enter p) rs s' ∧ c.path.map (rules[·]?) = rs.map some ∧
        (NoTies rules → ∀ rs2 s2, Runs rules 0 (St.enter p) rs2 s2 → rs2 = rs) := by
  obtain ⟨cs, e, hc⟩ := single_cinv h hf openflow
  refine ⟨cs, e, fun p c hfc => ?_⟩
  obtain ⟨c', l, rs, s', h1, h2, h3, h4, h5, -⟩ := single_packet h hc p
  cases hfc.unique h1
  exact ⟨rs, s', h4, h5, fun hn rs2 s2 h2 => (runs_unique hn h2 h4).1⟩

/-- **C29** With all priorities below 65536, `scale_ruleset` changes only priorities, and for any two paths through the tables the
sum of the scaled priorities of the first is greater exactly when it has the higher original priority in the first table in which
they differ (a path without a rule in a table counts as priority 0 there). -/
theorem C29_scaled_sums {π : Type} (rules : List (Rule π)) (hp : ∀ r ∈ rules, r.priority < 65536) :
    ∃ f : Rule π → Rule π, scaleRuleset rules = .ok (rules.map f) ∧ (∀ r, { f r with priority := r.priority } = r) ∧
    ∀ P Q : List (Rule π), (∀ r ∈ P, r ∈ rules) → (∀ r ∈ Q, r ∈ rules) →
      P.Pairwise (fun r s => r.table < s.table) → Q.Pairwise (fun r s => r.table < s.table) →
      ((Q.map fun r => (f r).priority).sum < (P.map fun r => (f r).priority).sum ↔
        ∃ t, prioAt Q t < prioAt P t ∧ ∀ u < t, prioAt P u = prioAt Q u) := by
  refine ⟨scaled (tablesOf rules), scaleRuleset_ok hp, fun r => rfl, fun P Q hP hQ sP sQ => ?_⟩
  have tP : ∀ r ∈ P, r.table ∈ tablesOf rules := fun r hr => mem_tablesOf.2 ⟨r, hP r hr, rfl⟩
  have tQ : ∀ r ∈ Q, r.table ∈ tablesOf rules := fun r hr => mem_tablesOf.2 ⟨r, hQ r hr, rfl⟩
  have e1 := sum_radix (tablesOf rules) [] P (tablesOf_sorted rules) sP tP
  have e2 := sum_radix (tablesOf rules) [] Q (tablesOf_sorted rules) sQ tQ
  simp only [List.nil_append] at e1 e2
  rw [e1, e2, radix_lex (prioAt_lt hp hP) (prioAt_lt hp hQ) _ (tablesOf_sorted rules)]
  constructor
  · rintro ⟨t, ht, h1, h2⟩
    refine ⟨t, h1, fun u hu => ?_⟩
    by_cases hm : u ∈ tablesOf rules
    · exact h2 u hm hu
    · rw [prioAt_zero tP hm, prioAt_zero tQ hm]
  · rintro ⟨t, h1, h2⟩
    refine ⟨t, ?_, h1, fun u _ hu => h2 u hu⟩
    by_cases hm : t ∈ tablesOf rules
    · exact hm
    · rw [prioAt_zero tP hm] at h1; omega

/-- **C29** … and a priority of 65536 or more is refused. -/
theorem C29_refused {π : Type} (rules : List (Rule π)) (h : ∃ r ∈ rules, 65536 ≤ r.priority) :
    scaleRuleset rules = .error .assertion := scaleRuleset_assert h

/-- **C30** (partial: no two rules of a table have the same priority) The single table is returned in strictly decreasing
priority.  Rules may push and pop. -/
theorem C30_order_partial (rules : List (Rule Nat)) (hp : ∀ r ∈ rules, r.priority < 65536) (h0 : ∃ r ∈ rules, r.table = 0)
    (hd : rules.Pairwise fun r s => r.table = s.table → r.priority ≠ s.priority) (openflow : Bool) (cs : List (Rule Nat))
    (h : toSingleTable rules openflow = .ok cs) : cs.Pairwise fun c d => d.priority < c.priority := by
  obtain ⟨rem, hT, e⟩ := toSingleTable_eq hp h0 openflow
  rw [e] at h
  obtain ⟨hd', hs'⟩ := prepared_distinct hd hp
  have hsort := tablesOf_sorted rules
  have h1 := (table_gap hd' hs' 0).1
  have h2 : tablePower (tablesOf rules) 0 = rem.length := by
    rw [hT] at hsort ⊢; exact tablePower_mid (pre := []) hsort
  rw [h2] at h1
  exact loop_gap hd' hs' hsort openflow rem [0] _ cs (by rw [hT]; rfl) h1 h

/-- **C30** (partial: no pushes or pops on the way) Rules of a table may share a priority as long as they do not match a common packet.
Then list order and priority order agree on which rule a packet hits: the first match has a higher priority than every other rule
that matches. -/
theorem C30_agree_partial (rules : List (Rule Nat)) (h : PipelineOK rules) (hf : FlatPipeline rules) (hd : Separate rules)
    (openflow : Bool) (cs : List (Rule Nat)) (hcs : toSingleTable rules openflow = .ok cs) (p : Pkt) (before after : List (Rule Nat))
    (c : Rule Nat) (hc : cs = before ++ c :: after) (h1 : c.mat.accepts p) (h2 : ∀ b ∈ before, ¬ b.mat.accepts p) :
    ∀ d ∈ before ++ after, d.mat.accepts p → d.priority < c.priority := by
  obtain ⟨rem, hT, e⟩ := toSingleTable_eq h.prio h.zero openflow
  rw [e] at hcs
  obtain ⟨hd', hs'⟩ := prepared_separate hd h.prio
  have hsort := tablesOf_sorted rules
  have t1 := (table_apart hd' hs' 0).1
  have t2 : tablePower (tablesOf rules) 0 = rem.length := by
    rw [hT] at hsort ⊢; exact tablePower_mid (pre := []) hsort
  rw [t2] at t1
  have hl := loopOK h hf
  have hap := loop_apart hl hd' hs' hsort openflow rem [0] _ cs (by rw [hT]; rfl) t1
    (fun c hc => ⟨[c], rep_one hl (mem_tableRules.1 hc).1⟩) hcs
  rw [hc] at hap
  intro d hd hacc
  rcases List.mem_append.1 hd with hd | hd
  · exact absurd hacc (h2 d hd)
  · have := (List.pairwise_cons.1 (List.pairwise_append.1 hap).2.1).1 d hd ⟨p, h1, hacc⟩
    omega

/-! ### A sample pipeline -/

/-- Table 0: VLAN 5 sets IPV4_DST, writes metadata 0x30 under 0xF0 and OUTPUT 1 and goes to table 1; the rest leaves by port 9.
Table 1: metadata 0x30 and IPV4_DST 9 changes the VLAN, sends to port 4 and replaces the output; the rest goes to table 2.
Table 2: all to port 3. -/
def samplePipe : List (Rule Nat) :=
  [⟨10, some 7, 0, Match.empty.append 6 0x1005 none,
      ⟨some 1, ⟨[[.setField 12 9]], [.setField 12 9]⟩, ⟨[[.output 1]], [.output 1]⟩, some (0x30, some 0xF0), false, none⟩, []⟩,
   ⟨0, none, 0, Match.empty, ⟨none, ActionList.empty, ⟨[[.output 9]], [.output 9]⟩, none, false, none⟩, []⟩,
   ⟨7, none, 1, (Match.empty.append 2 0x30 (some 0xF0)).append 12 9 none,
      ⟨none, ⟨[[.setField 6 6], [.output 4]], [.setField 6 6, .output 4]⟩, ⟨[[.output 2]], [.output 2]⟩, none, false, none⟩, []⟩,
   ⟨0, none, 1, Match.empty, ⟨some 2, ActionList.empty, ActionList.empty, none, false, none⟩, []⟩,
   ⟨0, none, 2, Match.empty, ⟨none, ActionList.empty, ⟨[[.output 3]], [.output 3]⟩, none, true, none⟩, []⟩]

theorem samplePipe_ok : PipelineOK samplePipe := by
  have hall : ∀ {P : Rule Nat → Prop}, P samplePipe[0] → P samplePipe[1] → P samplePipe[2] → P samplePipe[3] → P samplePipe[4] →
      ∀ r ∈ samplePipe, P r := by
    intro P a b c d e r hr
    simp only [samplePipe, List.mem_cons, List.not_mem_nil, or_false] at hr
    rcases hr with rfl | rfl | rfl | rfl | rfl <;> assumption
  refine ⟨hall ?_ ?_ ?_ ?_ ?_, hall ?_ ?_ ?_ ?_ ?_, hall ?_ ?_ ?_ ?_ ?_, by decide +kernel, by decide +kernel, by decide +kernel, ?_, ?_⟩
  · exact ⟨inv_append inv_empty _ _ _, by decide +kernel, ⟨[.setField 12 9], by decide, by decide +kernel⟩, ⟨[.output 1], by decide, by decide +kernel⟩⟩
  · exact ⟨inv_empty, by decide +kernel, ⟨[], by decide, by decide +kernel⟩, ⟨[.output 9], by decide, by decide +kernel⟩⟩
  · exact ⟨inv_append (inv_append inv_empty _ _ _) _ _ _, by decide +kernel, ⟨[.setField 6 6, .output 4], by decide, by decide +kernel⟩, ⟨[.output 2], by decide, by decide +kernel⟩⟩
  · exact ⟨inv_empty, by decide +kernel, ⟨[], by decide, by decide +kernel⟩, ⟨[], by decide, by decide +kernel⟩⟩
  · exact ⟨inv_empty, by decide +kernel, ⟨[], by decide, by decide +kernel⟩, ⟨[.output 3], by decide, by decide +kernel⟩⟩
  iterate 10 (intro v hv; simp [samplePipe, ActionList.iter, ActionList.empty, fMeta] at hv)
  · apply hall <;> intro n hn <;> simp [samplePipe] at hn <;> subst hn <;> decide +kernel
  · apply hall <;> intro p
    · exact ⟨samplePipe[1], by decide +kernel, rfl, default_accepts 0 0 p⟩
    · exact ⟨samplePipe[1], by decide +kernel, rfl, default_accepts 0 0 p⟩
    · exact ⟨samplePipe[3], by decide +kernel, rfl, default_accepts 0 0 p⟩
    · exact ⟨samplePipe[3], by decide +kernel, rfl, default_accepts 0 0 p⟩
    · exact ⟨samplePipe[4], by decide +kernel, rfl, default_accepts 0 0 p⟩

theorem samplePipe_flat : FlatPipeline samplePipe := by
  intro r hr hg a ha
  simp only [samplePipe, List.mem_cons, List.not_mem_nil, or_false] at hr
  rcases hr with rfl | rfl | rfl | rfl | rfl <;> simp [ActionList.iter, ActionList.empty] at ha hg
  subst ha
  exact ⟨rfl, rfl, by simp⟩

theorem samplePipe_separate : Separate samplePipe := by
  have : samplePipe.Pairwise fun r s => r.table = s.table → r.priority ≠ s.priority := by decide +kernel
  exact this.imp fun h a b => absurd b (h a)

theorem samplePipe_noTies : NoTies samplePipe := by
  have : ∀ r ∈ samplePipe, ∀ s ∈ samplePipe, r.table = s.table → r.priority = s.priority → r = s := by decide +kernel
  exact fun r hr s hs a b _ => this r hr s hs a b

/-- The sample meets the hypotheses of C28–C31; its single table: VLAN 5 ends at once in table 1 (the metadata and IPV4_DST it needs
are those written), its other way through tables 1 and 2 is kept behind it. -/
example : (toSingleTable samplePipe true).map (·.map fun r => (r.priority, r.path)) =
    .ok [(10 * 65536 ^ 2 + 7 * 65536, [0, 2]), (10 * 65536 ^ 2, [0, 3, 4]), (0, [1])] := by decide +kernel

example : (toSingleTable samplePipe true).map (·.map fun r => r.mat.items) =
    .ok [[(6, 0x1005, none)], [(6, 0x1005, none)], []] := by decide +kernel

example : (toSingleTable samplePipe true).map (·.map fun r => (r.inst.fullActions.map (·.iter)).toOption) =
    .ok [some [.setField 12 9, .setField 6 6, .output 2, .output 4], some [.setField 12 9, .output 3], some [.output 9]] := by
  decide +kernel

/-- Two paths of the sample as in C29. -/
example : ∃ t, prioAt [samplePipe[0], samplePipe[3], samplePipe[4]] t < prioAt [samplePipe[0], samplePipe[2]] t ∧
    ∀ u < t, prioAt [samplePipe[0], samplePipe[2]] u = prioAt [samplePipe[0], samplePipe[3], samplePipe[4]] u :=
  ⟨1, by decide +kernel, by decide +kernel⟩

/-- **C28** … and a ruleset without table 0 is refused. -/
theorem C28_no_first_table (rules : List (Rule Nat)) (hp : ∀ r ∈ rules, r.priority < 65536) (h : ∀ r ∈ rules, r.table ≠ 0)
    (openflow : Bool) : toSingleTable rules openflow = .error .assertion := by
  unfold toSingleTable
  rw [scaleRuleset_ok hp]
  simp only [bind, Except.bind]
  unfold toSingleTableScaled
  simp only
  rw [if_neg]
  intro hm
  obtain ⟨r, hr, h0⟩ := mem_tablesOf.1 hm
  obtain ⟨r', hr', rfl⟩ := List.mem_map.1 hr
  exact h r' hr' h0

/-- As the sample without its first two rules. -/
example : toSingleTable (samplePipe.drop 2) true = .error .assertion := by decide +kernel

/-! ### Popping a header loses packets -/

/-- Table 0 pops the VLAN header of every packet; table 1 sends VLAN 5 to port 1. -/
def popPipe : List (Rule Nat) :=
  [⟨0, none, 0, Match.empty, ⟨some 1, ⟨[[.popVlan]], [.popVlan]⟩, ActionList.empty, none, false, none⟩, []⟩,
   ⟨1, none, 1, Match.empty.append 6 0x1005 none, ⟨none, ActionList.empty, ⟨[[.output 1]], [.output 1]⟩, none, false, none⟩, []⟩,
   ⟨0, none, 1, Match.empty, ⟨none, ActionList.empty, ActionList.empty, none, false, none⟩, []⟩]

/-- Two VLAN headers, the inner one with VLAN 5. -/
def popPacket : Pkt := ⟨fun f d => if f = 6 ∧ d = 0 then 0x1001 else if f = 6 ∧ d = 1 then 0x1005 else 0, fun _ => 0, 0, fun _ => 0, 64, 0⟩

theorem popPipe_ok : PipelineOK popPipe := by
  have hall : ∀ {P : Rule Nat → Prop}, P popPipe[0] → P popPipe[1] → P popPipe[2] → ∀ r ∈ popPipe, P r := by
    intro P a b c r hr
    simp only [popPipe, List.mem_cons, List.not_mem_nil, or_false] at hr
    rcases hr with rfl | rfl | rfl <;> assumption
  refine ⟨hall ?_ ?_ ?_, hall ?_ ?_ ?_, hall ?_ ?_ ?_, by decide +kernel, by decide +kernel, by decide +kernel, ?_, ?_⟩
  · exact ⟨inv_empty, by decide +kernel, ⟨[.popVlan], by decide, by decide +kernel⟩, ⟨[], by decide, by decide +kernel⟩⟩
  · exact ⟨inv_append inv_empty _ _ _, by decide +kernel, ⟨[], by decide, by decide +kernel⟩, ⟨[.output 1], by decide, by decide +kernel⟩⟩
  · exact ⟨inv_empty, by decide +kernel, ⟨[], by decide, by decide +kernel⟩, ⟨[], by decide, by decide +kernel⟩⟩
  iterate 6 (intro v hv; simp [popPipe, ActionList.iter, ActionList.empty] at hv)
  · apply hall <;> intro n hn <;> (simp [popPipe] at hn; try (subst hn; decide +kernel))
  · apply hall <;> intro p
    · exact ⟨popPipe[0], by decide +kernel, rfl, default_accepts 0 0 p⟩
    · exact ⟨popPipe[2], by decide +kernel, rfl, default_accepts 0 0 p⟩
    · exact ⟨popPipe[2], by decide +kernel, rfl, default_accepts 0 0 p⟩

/-- **C28 is violated** by rules that pop a header: the pipeline sends the packet to port 1, the single table does not send it anywhere
(`merge` gives up on a match on a header that is only known after the pop, and the conversion leaves that combination out). -/
theorem C28_pop_loses_packets : PipelineOK popPipe ∧ NoTies popPipe ∧
    ∃ cs c l rs s', toSingleTable popPipe true = .ok cs ∧ FirstHit cs popPacket c ∧ c.inst.fullActions = .ok l ∧
      Runs popPipe 0 (St.enter popPacket) rs s' ∧ (exec l.iter popPacket).2 = [] ∧ s'.finish.map (·.1) = [.port 1] := by
  have hacc : popPipe[1].mat.accepts (popPipe[0].inst.run (St.enter popPacket)).pkt := by
    intro x hx i hi _
    simp [popPipe, Match.append, Match.empty, dictSet] at hx
    subst hx
    rw [hdr_bit _ (by decide) hi]
    rfl
  refine ⟨popPipe_ok, ?_, [⟨0, none, 0, ⟨[], 0, some (wcFull (bytesNeeded * 8))⟩, ⟨none, ⟨[[.popVlan]], [.popVlan]⟩, ActionList.empty, none, false, none⟩, [0, 2]⟩],
    _, ⟨[[.popVlan]], [.popVlan]⟩, [popPipe[0], popPipe[1]], _, by decide +kernel,
    ⟨[], [], rfl, default_accepts 0 0 _, by simp⟩, by decide +kernel,
    .next (t := 0) (n := 1) ⟨by decide +kernel, rfl, default_accepts 0 0 _, ?_⟩ rfl (.last ⟨by decide +kernel, rfl, hacc, ?_⟩ rfl), rfl, by decide +kernel⟩
  · have : ∀ r ∈ popPipe, ∀ s ∈ popPipe, r.table = s.table → r.priority = s.priority → r = s := by decide +kernel
    exact fun r hr s hs a b _ => this r hr s hs a b
  · have : ∀ s ∈ popPipe, s.table = 0 → s.priority ≤ popPipe[0].priority := by decide +kernel
    exact fun s hs ht _ => this s hs ht
  · have : ∀ s ∈ popPipe, s.table = 1 → s.priority ≤ popPipe[1].priority := by decide +kernel
    exact fun s hs ht _ => this s hs ht

/-! ### Ties break the order -/

/-- Two rules of table 0 with the same priority and disjoint matches; the second goes to table 1. -/
def tiePipe : List (Rule Nat) :=
  [⟨5, none, 0, Match.empty.append 6 0x1005 none, Inst.empty, []⟩,
   ⟨5, none, 0, Match.empty.append 6 0x1006 none, { Inst.empty with goto := some 1 }, []⟩,
   ⟨0, none, 0, Match.empty, Inst.empty, []⟩,
   ⟨1, none, 1, Match.empty, Inst.empty, []⟩]

/-- **C30 is violated** when two rules of a table have the same priority: the result is not sorted by priority. -/
theorem C30_not_sorted : ∃ cs, toSingleTable tiePipe true = .ok cs ∧ ¬ cs.Pairwise fun c d => d.priority ≤ c.priority := by
  have h : (toSingleTable tiePipe true).map (·.map (·.priority)) = .ok [5 * 65536, 5 * 65536 + 1, 5 * 65536, 0] := by decide +kernel
  cases e : toSingleTable tiePipe true with
  | error x => rw [e] at h; cases h
  | ok cs =>
    rw [e] at h
    refine ⟨cs, rfl, fun hp => ?_⟩
    have hp' : (cs.map (·.priority)).Pairwise fun x y => y ≤ x := by rw [List.pairwise_map]; exact hp
    simp only [Except.map, Except.ok.injEq] at h
    rw [h] at hp'
    exact absurd hp' (by decide)

end OFE
