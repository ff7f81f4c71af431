import Verif.Props.Ruleset
import Verif.Ruleset.TunnelOrder

/-! # C28, C30, C31: pipelines that push and pop headers -/

namespace OFE

/-- **C28** (partial: a bounded number of pushes and pops on the way, headers below popped ones not matched, headers of a kind that is pushed
matched exactly or not at all, and of the packet only known headers pushed upon) As `C28_single_table_partial`, but rules that go on
to another table may push and pop. -/
theorem C28_tunnels_partial (rules : List (Rule Nat)) (h : PipelineOK rules) (hf : TunnelPipeline rules) (openflow : Bool) :
    ∃ cs, toSingleTable rules openflow = .ok cs ∧ ∀ p, HeadersKnown rules p → ∃ c l rs s', FirstHit cs p c ∧ c.inst.goto = none ∧
      c.inst.fullActions = .ok l ∧ Runs rules 0 (St.enter p) rs s' ∧ SameSent (exec l.iter p).2 s'.finish := by
  obtain ⟨cs, e, hc⟩ := single_tinv h hf openflow
  refine ⟨cs, e, fun p hp => ?_⟩
  obtain ⟨c, l, rs, s', h1, h2, h3, h4, -, h5⟩ := tunnel_packet h hc hp
  exact ⟨c, l, rs, s', h1, h2, h3, h4, h5⟩

/-- **C28**, no packet is lost: the single table of a pipeline within these bounds accepts every packet, also those whose headers are not known
and which it then treats wrongly (`C28_push_loses_packets`). -/
theorem C28_tunnels_cover (rules : List (Rule Nat)) (h : PipelineOK rules) (hf : TunnelPipeline rules) (openflow : Bool) (cs : List (Rule Nat))
    (hcs : toSingleTable rules openflow = .ok cs) (p : Pkt) : ∃ c, FirstHit cs p c ∧ c.inst.goto = none := by
  obtain ⟨cs', e, hc⟩ := single_tinv h hf openflow
  rw [hcs] at e; cases e
  obtain ⟨c, h1⟩ := exists_firstHit (hc.cover p)
  refine ⟨c, h1, ?_⟩
  cases hgo : c.inst.goto with
  | none => rfl
  | some n => exact absurd (hc.goto c h1.mem n hgo) (by simp)

/-- **C28** (partial as above) Without ties every run agrees with the first match. -/
theorem C28_tunnels_every_run_partial (rules : List (Rule Nat)) (h : PipelineOK rules) (hf : TunnelPipeline rules) (hn : NoTies rules)
    (openflow : Bool) (cs : List (Rule Nat)) (hcs : toSingleTable rules openflow = .ok cs) (p : Pkt) (hp : HeadersKnown rules p) (c : Rule Nat)
    (hc : FirstHit cs p c) (rs : List (Rule Nat)) (s' : St) (hr : Runs rules 0 (St.enter p) rs s') :
    c.inst.goto = none ∧ ∃ l, c.inst.fullActions = .ok l ∧ SameSent (exec l.iter p).2 s'.finish := by
  obtain ⟨cs', e, hall⟩ := C28_tunnels_partial rules h hf openflow
  rw [hcs] at e; cases e
  obtain ⟨c', l, rs', s'', h1, h2, h3, h4, h5⟩ := hall p hp
  obtain ⟨rfl, rfl⟩ := runs_unique hn hr h4
  cases hc.unique h1
  exact ⟨h2, l, h3, h5⟩

/-- **C31** (partial as `C28_tunnels_partial`) The path of the first match lists the rules of a run through the pipeline. -/
theorem C31_tunnels_partial (rules : List (Rule Nat)) (h : PipelineOK rules) (hf : TunnelPipeline rules) (openflow : Bool) :
    ∃ cs, toSingleTable rules openflow = .ok cs ∧ ∀ p c, HeadersKnown rules p → FirstHit cs p c →
      ∃ rs s', Runs rules 0 (St.enter p) rs s' ∧ c.path.map (rules[·]?) = rs.map some ∧
        (NoTies rules → ∀ rs2 s2, Runs rules 0 (St.enter p) rs2 s2 → rs2 = rs) := by
  obtain ⟨cs, e, hc⟩ := single_tinv h hf openflow
  refine ⟨cs, e, fun p c hp hfc => ?_⟩
  obtain ⟨c', l, rs, s', h1, h2, h3, h4, h5, -⟩ := tunnel_packet h hc hp
  cases hfc.unique h1
  exact ⟨rs, s', h4, h5, fun hn rs2 s2 h2 => (runs_unique hn h2 h4).1⟩

/-- **C30** (partial as `C28_tunnels_partial`) List order and priority order agree on which rule a packet hits, also with pushes and pops. -/
theorem C30_tunnels_agree_partial (rules : List (Rule Nat)) (h : PipelineOK rules) (hf : TunnelPipeline rules) (hd : Separate rules)
    (openflow : Bool) (cs : List (Rule Nat)) (hcs : toSingleTable rules openflow = .ok cs) (p : Pkt) (hp : HeadersKnown rules p)
    (before after : List (Rule Nat)) (c : Rule Nat) (hc : cs = before ++ c :: after) (h1 : c.mat.accepts p) (h2 : ∀ b ∈ before, ¬ b.mat.accepts p) :
    ∀ d ∈ before ++ after, d.mat.accepts p → d.priority < c.priority := by
  obtain ⟨c', rs, ht, -⟩ := single_tops h hf hd hcs p (headersKnown_prepared h hp)
  have hfc : FirstHit cs p c := ⟨before, after, hc, h1, h2⟩
  cases ht.hit.unique hfc
  obtain ⟨b', a', e, -, h4, h5⟩ := ht
  intro d hd hdp
  have hdb : d ∉ before := fun hb => h2 d hb hdp
  have hda : d ∈ after := by
    rcases List.mem_append.1 hd with h | h
    · exact absurd h hdb
    · exact h
  -- both splits are at the first match
  have key : ∀ (b b' a a' : List (Rule Nat)), b ++ c :: a = b' ++ c :: a' → (∀ x ∈ b, ¬ x.mat.accepts p) → (∀ x ∈ b', ¬ x.mat.accepts p) → a = a' := by
    intro b
    induction b with
    | nil =>
      intro b' a a' e hb hb'
      cases b' with
      | nil => injection e
      | cons x b' => injection e with e1 _; subst e1; exact absurd h1 (hb' _ List.mem_cons_self)
    | cons x b ih =>
      intro b' a a' e hb hb'
      cases b' with
      | nil => injection e with e1 _; subst e1; exact absurd h1 (hb _ List.mem_cons_self)
      | cons y b' =>
        injection e with _ e2
        exact ih b' a a' e2 (fun z hz => hb z (List.mem_cons_of_mem _ hz)) (fun z hz => hb' z (List.mem_cons_of_mem _ hz))
  have := key before b' after a' (hc.symm.trans e) h2 h4
  subst this
  have := h5 d hda hdp
  omega

/-- The pipelines without pushes and pops are among these, with all packets. -/
theorem C28_flat_tunnels (rules : List (Rule Nat)) (hf : FlatPipeline rules) : TunnelPipeline rules ∧ ∀ p, HeadersKnown rules p := by
  have hz : ∀ r ∈ rules, r.inst.goto ≠ none → ∀ k, pushCount k r.inst.apply.iter = 0 ∧ popCount k r.inst.apply.iter = 0 := by
    intro r hr hg k
    constructor
    · unfold pushCount
      rw [List.countP_eq_zero]
      intro a ha
      rw [(hf r hr hg a ha).1]; simp
    · unfold popCount
      rw [List.countP_eq_zero]
      intro a ha
      rw [(hf r hr hg a ha).2.1]; simp
  have hk : ∀ k, ¬ PushedKind rules k := by
    rintro k ⟨r, hr, hg, hp⟩
    have := (hz r hr hg k).1
    omega
  have hl : ∀ rs n, Links rules 0 rs (some n) → ∀ k, pushedBy k rs = 0 ∧ poppedBy k rs = 0 := by
    intro rs n h k
    have hm := h.mem
    have hg := h.goes (by simp)
    constructor
    · refine sum_zero fun x hx => ?_
      obtain ⟨r, hr, rfl⟩ := List.mem_map.1 hx
      exact (hz r (hm r hr) (hg r hr) k).1
    · refine sum_zero fun x hx => ?_
      obtain ⟨r, hr, rfl⟩ := List.mem_map.1 hx
      exact (hz r (hm r hr) (hg r hr) k).2
  refine ⟨⟨fun rs n h k => ?_, fun rs n h k hlt => ?_, fun k hp => absurd hp (hk k)⟩, fun p k hp => absurd hp (hk k)⟩
  · obtain ⟨a, b⟩ := hl rs n h k; omega
  · obtain ⟨a, b⟩ := hl rs n h k; omega

/-- As the sample of C28. -/
example : TunnelPipeline samplePipe := (C28_flat_tunnels _ samplePipe_flat).1

/-! ### A sample pipeline -/

/-- Table 0: VLAN 5 with priority 0 gets another VLAN header with VLAN 6 and goes to table 1; VLAN 7 loses its header and goes to table 2; the rest
leaves by port 9.  Table 1: VLAN 6 is sent to port 4, loses the header and goes to table 2; the rest is dropped.  Table 2: IPV4_DST 9 to port 3. -/
def tunnelPipe : List (Rule Nat) :=
  [⟨10, none, 0, (Match.empty.append 6 0x1005 none).append 7 0 none,
      ⟨some 1, ⟨[[.pushVlan 33024], [.setField 6 0x1006]], [.pushVlan 33024, .setField 6 0x1006]⟩, ActionList.empty, none, false, none⟩, []⟩,
   ⟨9, none, 0, (Match.empty.append 6 0x1007 none).append 7 0 none, ⟨some 2, ⟨[[.popVlan]], [.popVlan]⟩, ActionList.empty, none, false, none⟩, []⟩,
   ⟨0, none, 0, Match.empty, ⟨none, ActionList.empty, ⟨[[.output 9]], [.output 9]⟩, none, false, none⟩, []⟩,
   ⟨7, none, 1, Match.empty.append 6 0x1006 none,
      ⟨some 2, ⟨[[.output 4], [.popVlan]], [.output 4, .popVlan]⟩, ActionList.empty, none, false, none⟩, []⟩,
   ⟨0, none, 1, Match.empty, ⟨none, ActionList.empty, ActionList.empty, none, false, none⟩, []⟩,
   ⟨1, none, 2, Match.empty.append 12 9 none, ⟨none, ActionList.empty, ⟨[[.output 3]], [.output 3]⟩, none, false, none⟩, []⟩,
   ⟨0, none, 2, Match.empty, ⟨none, ActionList.empty, ActionList.empty, none, false, none⟩, []⟩]

theorem tunnelPipe_all {P : Rule Nat → Prop} (h0 : P tunnelPipe[0]) (h1 : P tunnelPipe[1]) (h2 : P tunnelPipe[2]) (h3 : P tunnelPipe[3])
    (h4 : P tunnelPipe[4]) (h5 : P tunnelPipe[5]) (h6 : P tunnelPipe[6]) : ∀ r ∈ tunnelPipe, P r := by
  intro r hr
  simp only [tunnelPipe, List.mem_cons, List.not_mem_nil, or_false] at hr
  rcases hr with rfl | rfl | rfl | rfl | rfl | rfl | rfl <;> assumption

theorem tunnelPipe_ok : PipelineOK tunnelPipe := by
  refine ⟨tunnelPipe_all ?_ ?_ ?_ ?_ ?_ ?_ ?_, tunnelPipe_all ?_ ?_ ?_ ?_ ?_ ?_ ?_, tunnelPipe_all ?_ ?_ ?_ ?_ ?_ ?_ ?_, by decide +kernel, by decide +kernel, by decide +kernel, ?_, ?_⟩
  · exact ⟨inv_append (inv_append inv_empty _ _ _) _ _ _, by decide +kernel, ⟨[.pushVlan 33024, .setField 6 0x1006], by decide, by decide +kernel⟩, ⟨[], by decide, by decide +kernel⟩⟩
  · exact ⟨inv_append (inv_append inv_empty _ _ _) _ _ _, by decide +kernel, ⟨[.popVlan], by decide, by decide +kernel⟩, ⟨[], by decide, by decide +kernel⟩⟩
  · exact ⟨inv_empty, by decide +kernel, ⟨[], by decide, by decide +kernel⟩, ⟨[.output 9], by decide, by decide +kernel⟩⟩
  · exact ⟨inv_append inv_empty _ _ _, by decide +kernel, ⟨[.output 4, .popVlan], by decide, by decide +kernel⟩, ⟨[], by decide, by decide +kernel⟩⟩
  · exact ⟨inv_empty, by decide +kernel, ⟨[], by decide, by decide +kernel⟩, ⟨[], by decide, by decide +kernel⟩⟩
  · exact ⟨inv_append inv_empty _ _ _, by decide +kernel, ⟨[], by decide, by decide +kernel⟩, ⟨[.output 3], by decide, by decide +kernel⟩⟩
  · exact ⟨inv_empty, by decide +kernel, ⟨[], by decide, by decide +kernel⟩, ⟨[], by decide, by decide +kernel⟩⟩
  iterate 14 (intro v hv; simp [tunnelPipe, ActionList.iter, ActionList.empty] at hv)
  · apply tunnelPipe_all <;> intro n hn <;> simp [tunnelPipe] at hn <;> subst hn <;> decide +kernel
  · apply tunnelPipe_all <;> intro p
    · exact ⟨tunnelPipe[2], by decide +kernel, rfl, default_accepts 0 0 p⟩
    · exact ⟨tunnelPipe[2], by decide +kernel, rfl, default_accepts 0 0 p⟩
    · exact ⟨tunnelPipe[2], by decide +kernel, rfl, default_accepts 0 0 p⟩
    · exact ⟨tunnelPipe[4], by decide +kernel, rfl, default_accepts 0 0 p⟩
    · exact ⟨tunnelPipe[4], by decide +kernel, rfl, default_accepts 0 0 p⟩
    · exact ⟨tunnelPipe[6], by decide +kernel, rfl, default_accepts 0 0 p⟩
    · exact ⟨tunnelPipe[6], by decide +kernel, rfl, default_accepts 0 0 p⟩

theorem tunnelPipe_goes {n : Nat} : ∀ r ∈ tunnelPipe, r.inst.goto = some n →
    (r = tunnelPipe[0] ∧ n = 1) ∨ (r = tunnelPipe[1] ∧ n = 2) ∨ (r = tunnelPipe[3] ∧ n = 2) := by
  apply tunnelPipe_all <;> intro hg <;> simp [tunnelPipe] at hg
  · exact .inl ⟨rfl, hg.symm⟩
  · exact .inr (.inl ⟨rfl, hg.symm⟩)
  · exact .inr (.inr ⟨rfl, hg.symm⟩)

/-- Its ways that go on. -/
theorem tunnelPipe_links {rs : List (Rule Nat)} {g : Option Nat} (h : Links tunnelPipe 0 rs g) : ∀ n, g = some n →
    (rs = [tunnelPipe[0]] ∧ n = 1) ∨ (rs = [tunnelPipe[1]] ∧ n = 2) ∨ (rs = [tunnelPipe[0], tunnelPipe[3]] ∧ n = 2) := by
  induction h with
  | one hr ht =>
    intro n hg
    rcases tunnelPipe_goes _ hr hg with ⟨rfl, rfl⟩ | ⟨rfl, rfl⟩ | ⟨rfl, rfl⟩
    · exact .inl ⟨rfl, rfl⟩
    · exact .inr (.inl ⟨rfl, rfl⟩)
    · exact absurd ht (by decide +kernel)
  | snoc hl hr ht ih =>
    intro n hg
    rcases tunnelPipe_goes _ hr hg with ⟨rfl, rfl⟩ | ⟨rfl, rfl⟩ | ⟨rfl, rfl⟩
    · rcases ih _ rfl with ⟨-, h⟩ | ⟨-, h⟩ | ⟨-, h⟩ <;> subst h <;> exact absurd ht (by decide +kernel)
    · rcases ih _ rfl with ⟨-, h⟩ | ⟨-, h⟩ | ⟨-, h⟩ <;> subst h <;> exact absurd ht (by decide +kernel)
    · rcases ih _ rfl with ⟨h0, h⟩ | ⟨-, h⟩ | ⟨-, h⟩ <;> subst h
      · subst h0; exact .inr (.inr ⟨rfl, rfl⟩)
      · exact absurd ht (by decide +kernel)
      · exact absurd ht (by decide +kernel)

theorem tunnelPipe_tunnel : TunnelPipeline tunnelPipe := by
  refine ⟨fun rs n h k => ?_, fun rs n h k hlt => ?_, fun k hk => ?_⟩
  · rcases tunnelPipe_links h _ rfl with ⟨rfl, -⟩ | ⟨rfl, -⟩ | ⟨rfl, -⟩ <;> cases k <;> decide +kernel
  · rcases tunnelPipe_links h _ rfl with ⟨rfl, rfl⟩ | ⟨rfl, rfl⟩ | ⟨rfl, rfl⟩ <;> cases k <;>
      first | exact absurd hlt (by decide +kernel) | exact (by decide +kernel : ∀ b ∈ tunnelPipe, b.table = 2 → ∀ f ∈ Tun.vlan.fields, b.mat.items.lookup f = none)
  · have : ∀ r ∈ tunnelPipe, ∀ f ∈ [6, 7], r.mat.items.lookup f = none ∨ (r.mat.items.lookup f).map (·.2) = some none := by decide +kernel
    have hkk : k = .vlan := by
      obtain ⟨r, hr, -, hp⟩ := hk
      revert hp
      revert hr
      revert r
      cases k <;> decide +kernel
    subst hkk
    intro r hr f hf
    rcases this r hr f hf with h | h
    · exact .inl h
    · right
      cases hl : r.mat.items.lookup f with
      | none => rw [hl] at h; cases h
      | some x => rw [hl] at h; obtain ⟨v, m⟩ := x; simp at h; exact ⟨v, by rw [h]⟩

/-- A packet with the only VLAN header 5 is as the theorems ask. -/
theorem tunnelPipe_known : HeadersKnown tunnelPipe samplePushPkt := by
  intro k hk f hf
  have hkk : k = .vlan := by
    obtain ⟨r, hr, -, hp⟩ := hk
    revert hp
    revert hr
    revert r
    cases k <;> decide +kernel
  subst hkk
  refine ⟨fun d hd => ?_, ?_⟩
  · simp [samplePushPkt]; omega
  · rcases List.mem_cons.1 hf with rfl | hf
    · right
      intro r hr hg
      have : ∀ r ∈ tunnelPipe, r.table = 0 → r.inst.goto ≠ none → (r.mat.items.lookup 6).map (·.2) = some none := by decide +kernel
      have := this r hr.1 hr.2.1 hg
      cases hl : r.mat.items.lookup 6 with
      | none => rw [hl] at this; cases this
      | some x => rw [hl] at this; obtain ⟨v, m⟩ := x; simp at this; exact ⟨v, by rw [this]⟩
    · simp at hf; subst hf; exact .inl rfl

theorem tunnelPipe_separate : Separate tunnelPipe := by
  have : tunnelPipe.Pairwise fun r s => r.table = s.table → r.priority ≠ s.priority := by decide +kernel
  exact this.imp fun h a b => absurd b (h a)

theorem tunnelPipe_noTies : NoTies tunnelPipe := by
  have : ∀ r ∈ tunnelPipe, ∀ s ∈ tunnelPipe, r.table = s.table → r.priority = s.priority → r = s := by decide +kernel
  exact fun r hr s hs a b _ => this r hr s hs a b

/-- The sample meets the hypotheses of all theorems above. -/
example : PipelineOK tunnelPipe ∧ TunnelPipeline tunnelPipe ∧ NoTies tunnelPipe ∧ Separate tunnelPipe ∧ HeadersKnown tunnelPipe samplePushPkt ∧
    ¬ FlatPipeline tunnelPipe :=
  ⟨tunnelPipe_ok, tunnelPipe_tunnel, tunnelPipe_noTies, tunnelPipe_separate, tunnelPipe_known, fun h =>
    absurd (h tunnelPipe[0] (by decide +kernel) (by decide +kernel) (.pushVlan 33024) (by decide +kernel)).1 (by decide +kernel)⟩

/-- Its single table: the VLAN pushed in table 0 is the one that table 1 asks for, so the match on it is gone. -/
example : (toSingleTable tunnelPipe true).map (·.map fun r => r.path) = .ok [[0, 3, 5], [0, 3, 6], [0, 4], [1, 5], [1, 6], [2]] := by decide +kernel

example : (toSingleTable tunnelPipe true).map (·.map fun r => r.mat.items) =
    .ok [[(12, 9, none), (7, 0, none), (6, 0x1005, none)], [(7, 0, none), (6, 0x1005, none)],
      [(7, 0, none), (6, 0x1005, none)], [(12, 9, none), (7, 0, none), (6, 0x1007, none)], [(7, 0, none), (6, 0x1007, none)], []] := by decide +kernel

/-- `C28_tunnels_cover` on the sample: every packet hits a rule of the single table. -/
example (p : Pkt) : ∃ cs c, toSingleTable tunnelPipe true = .ok cs ∧ FirstHit cs p c := by
  obtain ⟨cs, e, -⟩ := C28_tunnels_partial tunnelPipe tunnelPipe_ok tunnelPipe_tunnel true
  obtain ⟨c, h, -⟩ := C28_tunnels_cover tunnelPipe tunnelPipe_ok tunnelPipe_tunnel true cs e p
  exact ⟨cs, c, e, h⟩

/-! ### Pushing upon unknown headers loses packets -/

/-- Table 0 pushes a VLAN header upon whatever is there; table 1 sends VLAN 5 to port 1. -/
def pushPipe : List (Rule Nat) :=
  [⟨0, none, 0, Match.empty, ⟨some 1, ⟨[[.pushVlan 33024]], [.pushVlan 33024]⟩, ActionList.empty, none, false, none⟩, []⟩,
   ⟨1, none, 1, Match.empty.append 6 0x1005 none, ⟨none, ActionList.empty, ⟨[[.output 1]], [.output 1]⟩, none, false, none⟩, []⟩,
   ⟨0, none, 1, Match.empty, ⟨none, ActionList.empty, ActionList.empty, none, false, none⟩, []⟩]

theorem pushPipe_ok : PipelineOK pushPipe := by
  have hall : ∀ {P : Rule Nat → Prop}, P pushPipe[0] → P pushPipe[1] → P pushPipe[2] → ∀ r ∈ pushPipe, P r := by
    intro P a b c r hr
    simp only [pushPipe, List.mem_cons, List.not_mem_nil, or_false] at hr
    rcases hr with rfl | rfl | rfl <;> assumption
  refine ⟨hall ?_ ?_ ?_, hall ?_ ?_ ?_, hall ?_ ?_ ?_, by decide +kernel, by decide +kernel, by decide +kernel, ?_, ?_⟩
  · exact ⟨inv_empty, by decide +kernel, ⟨[.pushVlan 33024], by decide, by decide +kernel⟩, ⟨[], by decide, by decide +kernel⟩⟩
  · exact ⟨inv_append inv_empty _ _ _, by decide +kernel, ⟨[], by decide, by decide +kernel⟩, ⟨[.output 1], by decide, by decide +kernel⟩⟩
  · exact ⟨inv_empty, by decide +kernel, ⟨[], by decide, by decide +kernel⟩, ⟨[], by decide, by decide +kernel⟩⟩
  iterate 6 (intro v hv; simp [pushPipe, ActionList.iter, ActionList.empty] at hv)
  · apply hall <;> intro n hn <;> (simp [pushPipe] at hn; try (subst hn; decide +kernel))
  · apply hall <;> intro p
    · exact ⟨pushPipe[0], by decide +kernel, rfl, default_accepts 0 0 p⟩
    · exact ⟨pushPipe[2], by decide +kernel, rfl, default_accepts 0 0 p⟩
    · exact ⟨pushPipe[2], by decide +kernel, rfl, default_accepts 0 0 p⟩

/-- **C28 is violated** by a push upon a header that the first table does not match: the new header copies VLAN 5 from the old one, so the pipeline
sends the packet to port 1; the conversion takes the pushed VLAN to be 0 and leaves that combination out. -/
theorem C28_push_loses_packets : PipelineOK pushPipe ∧ NoTies pushPipe ∧ ¬ HeadersKnown pushPipe samplePushPkt ∧
    ∃ cs c l rs s', toSingleTable pushPipe true = .ok cs ∧ FirstHit cs samplePushPkt c ∧ c.inst.fullActions = .ok l ∧
      Runs pushPipe 0 (St.enter samplePushPkt) rs s' ∧ (exec l.iter samplePushPkt).2 = [] ∧ s'.finish.map (·.1) = [.port 1] := by
  have hacc : pushPipe[1].mat.accepts (pushPipe[0].inst.run (St.enter samplePushPkt)).pkt := by
    intro x hx i hi _
    simp [pushPipe, Match.append, Match.empty, dictSet] at hx
    subst hx
    rw [hdr_bit _ (by decide) hi]
    rfl
  have hfirst : Hits pushPipe 0 samplePushPkt pushPipe[0] := by
    refine ⟨by decide +kernel, rfl, default_accepts 0 0 _, ?_⟩
    have : ∀ s ∈ pushPipe, s.table = 0 → s.priority ≤ pushPipe[0].priority := by decide +kernel
    exact fun s hs ht _ => this s hs ht
  refine ⟨pushPipe_ok, ?_, fun hk => ?_, [⟨0, none, 0, ⟨[], 0, some (wcFull (bytesNeeded * 8))⟩, ⟨none, ⟨[[.pushVlan 33024]], [.pushVlan 33024]⟩, ActionList.empty, none, false, none⟩, [0, 2]⟩],
    _, ⟨[[.pushVlan 33024]], [.pushVlan 33024]⟩, [pushPipe[0], pushPipe[1]], _, by decide +kernel,
    ⟨[], [], rfl, default_accepts 0 0 _, by simp⟩, by decide +kernel,
    .next (t := 0) (n := 1) hfirst rfl (.last ⟨by decide +kernel, rfl, hacc, ?_⟩ rfl), rfl, by decide +kernel⟩
  · have : ∀ r ∈ pushPipe, ∀ s ∈ pushPipe, r.table = s.table → r.priority = s.priority → r = s := by decide +kernel
    exact fun r hr s hs a b _ => this r hr s hs a b
  · rcases (hk .vlan ⟨pushPipe[0], by decide +kernel, by decide +kernel, by decide +kernel⟩ 6 (by decide)).2 with h | h
    · exact absurd h (by decide)
    · obtain ⟨v, hv⟩ := h _ hfirst (by decide +kernel)
      cases hv
  · have : ∀ s ∈ pushPipe, s.table = 1 → s.priority ≤ pushPipe[1].priority := by decide +kernel
    exact fun s hs ht _ => this s hs ht

end OFE
