import Verif.Props.DirectRuleset
import Verif.Props.IndirectTunnel
import Verif.Rule.TunnelSound

/-! # C83: direct dependencies over tables whose rules push and pop headers -/

namespace OFE
namespace Deps
open DD

variable {π : Type}

theorem dOf_tun {r : URule π} (hr : RuleOK r.2) (hm : NoMeta r.2.inst.apply.iter)
    (h : ∀ k, pushCount k r.2.inst.apply.iter ≤ 2 ∧ (popCount k r.2.inst.apply.iter = 0 ∨ pushCount k r.2.inst.apply.iter ≤ 1)) :
    DRule.ofRule r.1 r.2 = .ok (dOf r) ∧ OfR r (dOf r) := by
  obtain ⟨d, e, h⟩ := ofRule_ofR_tun r hr hm h
  have : dOf r = d := by simp [dOf, e, Except.toOption]
  rw [this]
  exact ⟨e, h⟩

theorem TunnelDirect.based {rs : List (URule π)} (h : TunnelDirect rs) : Based rs :=
  ⟨h.ok, h.ids, h.goto, h.ties, fun hr => (dOf_tun (h.ok _ hr) (h.noMeta _ hr) (h.each _ hr)).1,
    fun hr => (dOf_tun (h.ok _ hr) (h.noMeta _ hr) (h.each _ hr)).2⟩

/-- A rule's egress covers what it makes of the packets whose headers it knows. -/
theorem known_egress {r : URule π} (hr : RuleOK r.2) {p : Pkt} {n : Nat} (hg : r.2.inst.goto = some n) (hp : r.2.mat.accepts p) (hw : KnownWay p [r])
    (hx : ∀ k, 0 < pushedBy k [r.2] → ∀ f ∈ k.fields, ExactOrFree r.2.mat f) :
    ∃ e, gotoEgress r.2 none = .ok e ∧ MOK e ∧ e.accepts (r.2.inst.forward p) := by
  have hon : onward [r] = [r.2] := by simp [onward, hg]
  have hsum : ∀ k : Tun, ∀ f ∈ k.fields, pushSum f [r] = pushedBy k [r.2] := by
    intro k f hf
    unfold pushSum pushedBy
    rw [hon]
    simp [pushesOf_eq k hf]
  have hc := hw.counts
  have hh := hw.headers
  rw [hon] at hc hh
  have hway : Way (fun f => ∃ k : Tun, f ∈ k.fields ∧ 0 < pushedBy k [r.2]) (fun _ => 0) none p [r] := by
    refine ⟨fun f hf => ?_, fun q hq a ha t ht f hf => ?_, fun q hq a ha t ht f hf => ?_, ?_⟩
    · obtain ⟨k, hk⟩ := tun_of hf
      rw [hsum k f hk]; have := (hc k).1; omega
    · rw [hon, List.mem_singleton] at hq
      subst hq
      rw [hsum t f hf]
      have h1 : 0 < popCount t r.2.inst.apply.iter := List.countP_pos_iff.2 ⟨a, ha, by simp [ht]⟩
      rcases (hc t).2 with h | h
      · simp [poppedBy] at h; omega
      · omega
    · rw [hon, List.mem_singleton] at hq
      subst hq
      refine ⟨t, hf, ?_⟩
      have h1 : 0 < pushCount t r.2.inst.apply.iter := List.countP_pos_iff.2 ⟨a, ha, by simp [ht]⟩
      simpa [pushedBy] using h1
    · rintro r' hr' f hf ⟨k, hk, hpos⟩
      simp only [List.head?_cons, Option.some.injEq] at hr'
      subst hr'
      obtain ⟨hz, h0⟩ := hh k hpos f hk
      obtain ⟨-, -, -, -, -, -, -, l0, l1, l1', l2, l2', -⟩ := tun_ids f hf
      refine ⟨?_, .inr ⟨mok_free hr.keys l1, hz 1 (by omega)⟩, .inr ⟨mok_free hr.keys l2, hz 2 (by omega)⟩, fun d hd => hz d (by omega)⟩
      rcases h0 with h0 | ⟨r', v, e, hv⟩
      · rcases hx k hpos f hk with hex | hex
        · exact .inr ⟨hex, h0⟩
        · exact .inl hex
      · simp only [List.head?_cons, Option.some.injEq] at e
        subst e
        exact .inl ⟨v, hv⟩
  obtain ⟨e, e1, c', hw'⟩ := way_step hr (fun f hf ⟨k, hk, hpos⟩ => hx k hpos f hk) hp hg hway
  exact ⟨e, e1, egress_mok hr (fun m h => by cases h) e1, hw'.admits e rfl⟩

/-- A packet that a rule hands on, with headers that are known, is covered by the egress of its counterpart. -/
theorem TunnelDirect.covers {rs : List (URule π)} (h : TunnelDirect rs) {r : URule π} (hr : r ∈ rs) {p : Pkt} {n : Nat}
    (hg : r.2.inst.goto = some n) (hp : r.2.mat.accepts p) (hw : KnownWay p [r])
    (hx : ∀ k, 0 < pushedBy k [r.2] → ∀ f ∈ k.fields, ExactOrFree r.2.mat f) {w : Nat}
    (e : (dOf r).egress = .ok w) : Covers totBits w (r.2.inst.forward p).hdr := by
  obtain ⟨m, e1, hm, ha⟩ := known_egress (h.ok r hr) hg hp hw hx
  obtain ⟨w1, m1, f1, -, -⟩ := getWildcard_spec (h.ok r hr).inv (lt56 (h.ok r hr).keys)
  obtain ⟨w2, m2, f2, -, c2⟩ := getWildcard_spec hm.1 hm.2
  have : DRule.ofRule r.1 r.2 = .ok ⟨r.1, r.2.priority, r.2.table, w1, .ok w2⟩ := by
    simp [DRule.ofRule, f1, e1, f2, bind, Except.bind, pure, Except.pure]
  have hd : dOf r = ⟨r.1, r.2.priority, r.2.table, w1, .ok w2⟩ := by
    have := (h.based.conv hr).symm.trans this
    exact Except.ok.inj this
  rw [hd] at e
  cases e
  exact (c2 _).2 ha

/-- What the egress of a rule's counterpart covers looks, in the outermost headers, like a packet that the rule hands on. -/
theorem TunnelDirect.sound {rs : List (URule π)} (h : TunnelDirect rs) {r : URule π} (hr : r ∈ rs)
    (hx : ∀ k, 0 < pushCount k r.2.inst.apply.iter → ∀ f ∈ k.fields, ExactOrFree r.2.mat f) {w : Nat} (e : (dOf r).egress = .ok w) {q : Packet}
    (hq : Covers totBits w q) :
    ∃ p, r.2.mat.accepts p ∧ ∀ s ∈ rs, (dOf s).hits totBits q ↔ s.2.mat.accepts (r.2.inst.forward p) := by
  obtain ⟨m, e1, hm, ha⟩ := egress_sound (h.ok r hr) (h.noMeta r hr) (fun t => (h.each r hr t).1) (fun t => (h.each r hr t).2) hx
  obtain ⟨w1, m1, f1, -, -⟩ := getWildcard_spec (h.ok r hr).inv (lt56 (h.ok r hr).keys)
  obtain ⟨w2, m2, f2, -, c2⟩ := getWildcard_spec hm.1 hm.2
  have : DRule.ofRule r.1 r.2 = .ok ⟨r.1, r.2.priority, r.2.table, w1, .ok w2⟩ := by
    simp [DRule.ofRule, f1, e1, f2, bind, Except.bind, pure, Except.pure]
  have hd : dOf r = ⟨r.1, r.2.priority, r.2.table, w1, .ok w2⟩ := Except.ok.inj ((h.based.conv hr).symm.trans this)
  rw [hd] at e
  cases e
  obtain ⟨Q, hQ⟩ := exists_pkt q
  obtain ⟨p, hp, hb⟩ := ha Q ((matches_congr hm.1.nodup hQ).2 ((c2 q).1 hq))
  refine ⟨p, hp, fun s hs => ?_⟩
  rw [h.based.hits_pkt hs hQ, accepts_outer (h.ok s hs).inv (h.ok s hs).keys, accepts_outer (h.ok s hs).inv (h.ok s hs).keys]
  constructor
  · intro H g k b hg hk hr'
    rw [hb g k hg hk]; exact H g k b hg hk hr'
  · intro H g k b hg hk hr'
    rw [← hb g k hg hk]; exact H g k b hg hk hr'

/-- **C83** (partial: between tables nothing is missed where the headers pushed upon are known; see `C83_push_unknown`.)  For every pipeline of
well-built rules that may push and pop, both algorithms for a table succeed.  Two rules of one table are dependent exactly if a packet matches both and no
rule in between.  Rules of different tables are dependent only if the first goes to the table of the second and (with headers pushed upon matched without
masks) some packet that matches the first, rewritten by it, meets the second first; and they are dependent if such a packet has known headers. -/
theorem C83_tunnels_partial (rs : List (URule π)) (hne : rs ≠ []) (h : TunnelDirect rs) (build : List DRule → Except PyErr (List Edge))
    (hb : build = batchEdges totBits ∨ ∃ ord depth, build = incrementalEdges totBits ord depth ∧ (∀ l, (ord l).Perm l) ∧ rs.length ≤ depth ∧
      ∀ r ∈ rs, ∃ d, d.2.table = r.2.table ∧ MissRule rs d) :
    ∃ es, directRuleset true build (parentsBdd totBits) rs = .ok es ∧ es.Nodup ∧
      (∀ a b, (a, b) ∈ es → ∃ r ∈ rs, ∃ s ∈ rs, r.1 = a ∧ s.1 = b) ∧
      (∀ r ∈ rs, ∀ s ∈ rs, r.2.table = s.2.table → ((r.1, s.1) ∈ es ↔ ∃ p, NextBelow rs r s p)) ∧
      (∀ r ∈ rs, ∀ s ∈ rs, r.2.table ≠ s.2.table → (r.1, s.1) ∈ es → r.2.inst.goto = some s.2.table ∧
        ((∀ k, 0 < pushCount k r.2.inst.apply.iter → ∀ f ∈ k.fields, ExactOrFree r.2.mat f) → ∃ p, GoesTo rs r s p)) ∧
      ∀ r s p, GoesTo rs r s p → KnownStep p r → (r.1, s.1) ∈ es := by
  have hB := h.based
  obtain ⟨es, e1, e2, e3⟩ := direct_based hB hne true (build := build) (parents := parentsBdd totBits)
    (G := fun r s => ∃ w q, (dOf r).egress = .ok w ∧ Covers totBits w q ∧ (dOf s).hits totBits q ∧
      ∀ x ∈ tableRules (rs.map gOf) s.2.table, (dOf s).priority < x.priority → ¬ x.hits totBits q)
    (fun r hr => by
      rcases hb with rfl | ⟨ord, depth, rfl, p1, p2, p3⟩
      · obtain ⟨g, g1, g2⟩ := batch_tables hB r hr
        exact ⟨_, by simp only [batchEdges, g1, bind, Except.bind, pure, Except.pure], g2⟩
      · obtain ⟨g, g1, g2⟩ := incremental_tables hB p3 ord p1 depth p2 r hr
        exact ⟨_, by simp only [incrementalEdges, g1, bind, Except.bind, pure, Except.pure], g2⟩)
    (fun r hr t ht => by
      obtain ⟨w, hw⟩ := (hB.seen hr).egress
      obtain ⟨l, l1, l2⟩ := parentsBdd_spec (n := totBits) (by decide) (R := dOf r) (P := tableRules (rs.map gOf) t)
        (fun q hq => by
          obtain ⟨s, hs, hst, rfl⟩ := hB.mem_tableRules.1 hq
          have := h.goto r hr t ht
          rw [(hB.seen hs).table, (hB.seen hr).table]; omega)
        hw ((hB.seen hr).validE w hw) (hB.tableOK t).valid (hB.tableOK t).ties
      refine ⟨l, l1, fun e => ?_⟩
      rw [l2]
      refine and_congr_right fun _ => ?_
      constructor
      · rintro ⟨hm, q, h1, h2, h3⟩
        obtain ⟨s, hs, hst, he⟩ := hB.mem_tableRules.1 hm
        subst hst
        rw [← he] at h2 h3
        exact ⟨s, hs, rfl, he, w, q, hw, h1, h2, h3⟩
      · rintro ⟨s, hs, hst, he, w', q, h0, h1, h2, h3⟩
        subst hst
        rw [hw] at h0
        cases h0
        rw [he] at h2 h3
        exact ⟨he ▸ hB.mem_tableRules.2 ⟨s, hs, rfl, rfl⟩, q, h1, h2, h3⟩)
  have hgo : ∀ r ∈ rs, ∀ s : URule π, r.2.inst.goto = some s.2.table → r.2.table ≠ s.2.table := fun r hr s hg => by
    have := h.goto r hr _ hg; omega
  refine ⟨es, e1, e2, fun a b hab => ?_, fun r hr s hs ht => ⟨fun hm => ?_, fun hp => ?_⟩, fun r hr s hs ht hm => ?_, fun r s p hp hw => ?_⟩
  · obtain ⟨r, s, hr, hs, h1, h2, -⟩ := (e3 a b).1 hab
    exact ⟨r, hr, s, hs, h1, h2⟩
  · obtain ⟨r', s', hr', hs', h1, h2, h3⟩ := (e3 _ _).1 hm
    cases hB.id_inj hr' hr h1
    cases hB.id_inj hs' hs h2
    exact h3.resolve_right fun h' => hgo _ hr _ h'.1 ht
  · exact (e3 _ _).2 ⟨r, s, hr, hs, rfl, rfl, .inl hp⟩
  · obtain ⟨r', s', hr', hs', h1, h2, h3⟩ := (e3 _ _).1 hm
    cases hB.id_inj hr' hr h1
    cases hB.id_inj hs' hs h2
    rcases h3 with ⟨p, hp⟩ | h3
    · exact absurd hp.2.2.1 ht
    · obtain ⟨hg, w, q, hw, hc, hhit, hno⟩ := h3
      refine ⟨hg, fun hx => ?_⟩
      obtain ⟨p, hp, hall⟩ := h.sound hr hx hw hc
      refine ⟨p, hr, hp, hg, hs, (hall s hs).1 hhit, fun y hy hyt hlt hacc => ?_⟩
      refine hno (dOf y) (hB.mem_tableRules.2 ⟨y, hy, hyt, rfl⟩) ?_ ((hall y hy).2 hacc)
      rw [(hB.seen hs).priority, (hB.seen hy).priority]; exact hlt
  · obtain ⟨hr, hacc, hg, hs, hsa, hno⟩ := hp
    obtain ⟨w, hwe⟩ := (hB.seen hr).egress
    refine (e3 _ _).2 ⟨r, s, hr, hs, rfl, rfl, .inr ⟨hg, w, (r.2.inst.forward p).hdr, hwe, h.covers hr hg hacc hw.way hw.exact hwe, ?_, fun x hxm hlt hhit => ?_⟩⟩
    · exact (hB.hits_pkt hs fun _ _ _ => rfl).2 hsa
    · obtain ⟨y, hy, hyt, rfl⟩ := hB.mem_tableRules.1 hxm
      rw [(hB.seen hs).priority, (hB.seen hy).priority] at hlt
      exact hno y hy hyt hlt ((hB.hits_pkt hy fun _ _ _ => rfl).1 hhit)

/-- **C83** The same with `use_bdd=False`: nothing is missed. -/
theorem C83_tunnels_header_space (rs : List (URule π)) (hne : rs ≠ []) (h : TunnelDirect rs) (build : List DRule → Except PyErr (List Edge))
    (hb : build = batchEdgesHs totBits ∨ ∃ ord depth, build = incrementalEdges totBits ord depth ∧ (∀ l, (ord l).Perm l) ∧ rs.length ≤ depth ∧
      ∀ r ∈ rs, ∃ d, d.2.table = r.2.table ∧ MissRule rs d) :
    ∃ es, directRuleset false build (parentsHs totBits) rs = .ok es ∧
      (∀ r s p, NextBelow rs r s p → (r.1, s.1) ∈ es) ∧ ∀ r s p, GoesTo rs r s p → KnownStep p r → (r.1, s.1) ∈ es := by
  have hB := h.based
  obtain ⟨es0, e0, -, -, m0, -, m1⟩ := C83_tunnels_partial rs hne h (batchEdges totBits) (.inl rfl)
  obtain ⟨es, es', a, b, c⟩ := directDeps_super (attach := true) (attach' := false) (build := batchEdges totBits) (build' := build)
    (parents := parentsBdd totBits) (parents' := parentsHs totBits) (rs := rs.map gOf) (by simpa using hne)
    (fun d hd => by
      obtain ⟨r, hr, rfl⟩ := List.mem_map.1 hd
      rw [show (gOf r).1.table = r.2.table from (hB.seen hr).table]
      obtain ⟨g, g1, g2⟩ := batch_tables hB r hr
      rcases hb with rfl | ⟨ord, depth, rfl, p1, p2, p3⟩
      · obtain ⟨k, k1, k2⟩ := C38_no_missed_edge totBits (by decide) (tableRules (rs.map gOf) r.2.table) (hB.tableOK _).valid
          (fun d hd => by obtain ⟨s, hs, -, rfl⟩ := hB.mem_tableRules.1 hd; exact (hB.seen hs).validE) g g1
        exact ⟨_, _, by simp only [batchEdges, g1, bind, Except.bind, pure, Except.pure],
          by simp only [batchEdgesHs, k1, bind, Except.bind, pure, Except.pure],
          fun e he => lookup_isSome_iff.1 (k2 e (lookup_isSome_iff.2 he))⟩
      · obtain ⟨k, k1, k2⟩ := incremental_tables hB p3 ord p1 depth p2 r hr
        exact ⟨_, _, by simp only [batchEdges, g1, bind, Except.bind, pure, Except.pure],
          by simp only [incrementalEdges, k1, bind, Except.bind, pure, Except.pure], fun e he => (k2 e).2 ((g2 e).1 he)⟩)
    (fun d hd t ht => by
      obtain ⟨r, hr, rfl⟩ := List.mem_map.1 hd
      have hlt := h.goto r hr t ht
      refine ⟨by rw [show (gOf r).1.table = r.2.table from (hB.seen hr).table]; exact hlt, ?_⟩
      obtain ⟨w, hw⟩ := (hB.seen hr).egress
      have hwv := (hB.seen hr).validE w hw
      have hdiff : ∀ q ∈ tableRules (rs.map gOf) t, q.table ≠ (dOf r).table := fun q hq => by
        obtain ⟨s, hs, hst, rfl⟩ := hB.mem_tableRules.1 hq
        rw [(hB.seen hs).table, (hB.seen hr).table]; omega
      obtain ⟨l, l1, -⟩ := parentsBdd_spec (n := totBits) (by decide) hdiff hw hwv (hB.tableOK t).valid (hB.tableOK t).ties
      obtain ⟨l', l2, l3⟩ := parentsHs_super (n := totBits) (by decide) ((startWc_egress hdiff).trans hw) hwv (hB.tableOK t).valid l1
      exact ⟨l, l', l1, l2, l3⟩)
  have hconv := gotoRules_conv rs fun r hr => hB.conv hr
  simp only [directRuleset, hconv, bind, Except.bind, pure, Except.pure, a, Except.ok.injEq] at e0
  subst e0
  have hsub : ∀ x ∈ es.map (fun e => (e.child.uid, e.parent.uid)), x ∈ es'.map (fun e => (e.child.uid, e.parent.uid)) := by
    intro x hx
    obtain ⟨e, he, rfl⟩ := List.mem_map.1 hx
    exact List.mem_map.2 ⟨e, c e he, rfl⟩
  refine ⟨es'.map fun e => (e.child.uid, e.parent.uid), ?_, fun r s p hp => hsub _ ((m0 r hp.1 s hp.2.1 hp.2.2.1).2 ⟨p, hp⟩),
    fun r s p hp hk => hsub _ (m1 r s p hp hk)⟩
  simp only [directRuleset, hconv, bind, Except.bind, pure, Except.pure, b]

/-- **C83** Any two rules that handle a packet one after the other are dependent, if the packet's headers are known at each step. -/
theorem C83_tunnels_pair (rs : List (URule π)) (h : TunnelDirect rs) (es : List (Nat × Nat))
    (he : directRuleset true (batchEdges totBits) (parentsBdd totBits) rs = .ok es) (t : Nat) (p : Pkt) (r s : URule π) (l : List (URule π))
    (hl : Run rs t p (r :: s :: l)) (hk : KnownStep p r) : (r.1, s.1) ∈ es := by
  have hne : rs ≠ [] := by rintro rfl; cases he
  obtain ⟨es', e1, -, -, -, -, e2⟩ := C83_tunnels_partial rs hne h _ (.inl rfl)
  rw [e1] at he
  cases he
  cases hl with
  | step ht hf hg hr =>
    cases hr with
    | last ht' hf' => subst ht'; exact e2 _ _ _ ⟨hf.1, hf.2.1, hg, hf'⟩ hk
    | step ht' hf' hg' hr' => subst ht'; exact e2 _ _ _ ⟨hf.1, hf.2.1, hg, hf'⟩ hk

/-! ### Sample -/

/-- The pipeline of C40. -/
theorem tunnelPipe_direct : TunnelDirect tunnelPipe := by
  refine ⟨tunnelPipe_ok.ok, by decide +kernel, by decide +kernel, ?_, tunnelPipe_ok.noMeta, tunnelPipe_ok.each⟩
  have hd := disjoint_of (a := Match.empty.append 6 0x1006 none) (b := Match.empty.append 6 0x1007 none) (inv_append inv_empty _ _ _)
    (by decide +kernel) (inv_append inv_empty _ _ _) (by decide +kernel) (by decide +kernel)
  intro r hr s hs ht hp hne
  simp only [tunnelPipe, List.mem_cons, List.not_mem_nil, or_false] at hr hs
  rcases hr with rfl | rfl | rfl | rfl | rfl <;> rcases hs with rfl | rfl | rfl | rfl | rfl <;>
    first
      | exact absurd rfl hne
      | exact absurd ht (by decide)
      | exact absurd hp (by decide)
      | exact hd
      | (rintro ⟨p, h1, h2⟩; exact hd ⟨p, h2, h1⟩)

/-- Rule 0 leads to rule 1 only; rule 1 alone, not knowing what is below, leads to rules 3 and 4. -/
example : directRuleset true (batchEdges totBits) (parentsBdd totBits) tunnelPipe = .ok [(0, 1), (1, 3), (1, 4)] ∧
    directRuleset false (batchEdgesHs totBits) (parentsHs totBits) tunnelPipe = .ok [(0, 1), (1, 3), (1, 4)] := by decide +kernel

/-- The packet with VLAN 5 goes from rule 0 to rule 1, with known headers. -/
example : ∃ r ∈ tunnelPipe, ∃ s ∈ tunnelPipe, r.1 = 0 ∧ s.1 = 1 ∧ GoesTo tunnelPipe r s samplePushPkt ∧ KnownStep samplePushPkt r := by
  refine ⟨_, List.mem_cons_self .., _, List.mem_cons_of_mem _ (List.mem_cons_self ..), rfl, rfl, ⟨List.mem_cons_self .., ?_, rfl,
    List.mem_cons_of_mem _ (List.mem_cons_self ..), ?_, ?_⟩, ⟨⟨fun k => by cases k <;> decide +kernel, fun k hk f hf => ?_⟩, fun k hk f hf => ?_⟩⟩
  · intro x hx i hi _
    simp [samplePush, Match.append, Match.empty, dictSet] at hx
    rcases hx with rfl | rfl <;> rw [hdr_bit _ (by decide) hi]
    · have : normValue 6 0x1005 none = (0x1005, none) := by decide
      simp [shown, samplePushPkt, this]
    · have : normValue 7 0 none = (0, none) := by decide
      simp [shown, samplePushPkt, this]
  · intro x hx i hi _
    have : x = (6, 0x1006, none) := by simpa [Match.append, Match.empty, dictSet, show normValue 6 0x1006 none = (0x1006, none) by decide] using hx
    subst this
    rw [hdr_bit _ (show 6 < 56 by decide) hi]
    show ((samplePush.inst.forward samplePushPkt).fld 6 0).testBit i = _
    rw [show (samplePush.inst.forward samplePushPkt).fld 6 0 = 0x1006 by decide +kernel]
  · intro q hq ht hlt
    simp only [tunnelPipe, List.mem_cons, List.not_mem_nil, or_false] at hq
    rcases hq with rfl | rfl | rfl | rfl | rfl <;> first | exact absurd hlt (by decide) | exact absurd ht (by decide)
  · have hk' : k = .vlan := by cases k <;> first | rfl | exact absurd hk (by decide +kernel)
    subst hk'
    have hf' : f = 6 ∨ f = 7 := by simpa [Tun.fields] using hf
    refine ⟨fun d hd => by simp [samplePushPkt]; omega, .inr ?_⟩
    rcases hf' with rfl | rfl
    · exact ⟨_, 0x1005, rfl, by decide +kernel⟩
    · exact ⟨_, 0, rfl, by decide +kernel⟩
  · have hk' : k = .vlan := by cases k <;> first | rfl | exact absurd hk (by decide +kernel)
    subst hk'
    have hf' : f = 6 ∨ f = 7 := by simpa [Tun.fields] using hf
    rcases hf' with rfl | rfl
    · exact .inr ⟨0x1005, by decide +kernel⟩
    · exact .inr ⟨0, by decide +kernel⟩

/-- **C83 is violated** where a header is pushed upon an unknown one: the packet with VLAN 5 goes from rule 0 to rule 1, but no dependency is found. -/
theorem C83_push_unknown : TunnelDirect [(0, pushUnknown), (1, sampleVlan5)] ∧
    directRuleset true (batchEdges totBits) (parentsBdd totBits) [(0, pushUnknown), (1, sampleVlan5)] = .ok [] ∧
    GoesTo [(0, pushUnknown), (1, sampleVlan5)] (0, pushUnknown) (1, sampleVlan5) samplePushPkt := by
  obtain ⟨h1, h2, -, h3, h4⟩ := C65_push_unknown
  have key : ∀ r ∈ [((0 : Nat), pushUnknown), (1, sampleVlan5)], r.2.inst.apply.iter = [.pushVlan 33024] ∨ r.2.inst.apply.iter = [.output 2] := by
    decide +kernel
  refine ⟨⟨fun r hr => ?_, by decide, by decide +kernel, ?_, ?_, ?_⟩, by decide +kernel, by simp, h3, rfl, by simp, h4, ?_⟩
  · simp only [List.mem_cons, List.not_mem_nil, or_false] at hr
    rcases hr with rfl | rfl
    · exact h1
    · exact h2
  · intro r hr s hs ht _ hne
    simp only [List.mem_cons, List.not_mem_nil, or_false] at hr hs
    rcases hr with rfl | rfl <;> rcases hs with rfl | rfl <;> first | exact absurd rfl hne | exact absurd ht (by decide)
  · intro r hr v
    rcases key r hr with h | h <;> rw [h] <;> simp
  · intro r hr k
    rcases key r hr with h | h <;> rw [h] <;> cases k <;> decide
  · intro q hq ht hlt
    simp only [List.mem_cons, List.not_mem_nil, or_false] at hq
    rcases hq with rfl | rfl <;> first | exact absurd hlt (by decide) | exact absurd ht (by decide)

end Deps
end OFE
