import Verif.Deps.TunnelLemmas
import Verif.Props.Indirect
import Verif.Props.TunnelMerge

/-! # C40: dependencies between tables whose rules push and pop headers -/

namespace OFE
namespace Deps

theorem le_sum_map {β : Type} (g : β → Nat) {q : β} : ∀ {l : List β}, q ∈ l → g q ≤ (l.map g).sum
  | x :: l, h => by
    rw [List.map_cons, List.sum_cons]
    rcases List.mem_cons.1 h with rfl | h
    · omega
    · have := le_sum_map g h; omega

theorem pos_of_sum {β : Type} (g : β → Nat) : ∀ {l : List β}, 0 < (l.map g).sum → ∃ q ∈ l, 0 < g q
  | [], h => by simp at h
  | x :: l, h => by
    rw [List.map_cons, List.sum_cons] at h
    by_cases hx : 0 < g x
    · exact ⟨x, by simp, hx⟩
    · obtain ⟨q, hq, h'⟩ := pos_of_sum g (l := l) (by omega)
      exact ⟨q, List.mem_cons_of_mem _ hq, h'⟩

/-- **C40** (partial: only that nothing is missed, on ways where the headers pushed upon are known; see `C40_push_unknown`.)  For every pipeline of
well-built rules that may push and pop, with a recursion limit above the table numbers, the multi-table algorithm succeeds, and its
dependencies contain every pair of rules that one packet, entering some table, may be matched by in this order along gotos, and every pair of
overlapping rules of one table. -/
theorem C40_tunnels_partial {π : Type} (rs : List (URule π)) (h : TunnelGoto rs) (depth : Nat) (hd : ∀ r ∈ rs, r.2.table < depth) :
    ∃ es, buildRulesetDeps depth rs = .ok es ∧
      (∀ t p l a b, Path rs t p l → KnownWay p l → [a, b].Sublist (l.map (·.1)) → (a, b) ∈ es) ∧
      (∀ r ∈ rs, ∀ s ∈ rs, r.2.table = s.2.table → s.2.priority < r.2.priority → (∃ p : Pkt, r.2.mat.accepts p ∧ s.2.mat.accepts p) →
        (r.1, s.1) ∈ es) := by
  have hnone : IngressAny none := fun m h => by cases h
  -- first loop
  obtain ⟨es, e1, -, m1⟩ := foldlM_grows (f := fun es (t : Nat × List (URule π)) => (do
      let st ← recurseGoto (groupTables rs) depth t.1 none [] (false, es)
      if st.1 then .error .runtimeError else return st.2 : Except PyErr (List (Nat × Nat))))
    (fun s e => e ∈ s) (fun _ => True) (fun t e => ∃ K : Nat → Prop, (∀ r ∈ rs, ∀ f ∈ tunFields, K f → ExactOrFree r.2.mat f) ∧
      ∃ r ∈ rs, r.2.table = t.1 ∧ Follow rs K t.1 none [] r e) (groupTables rs)
    (fun t ht s _ => by
      obtain ⟨-, hex⟩ := mem_group (t := t.1) (l := t.2) ht
      obtain ⟨st, s1, s2, s3, s4⟩ := recurse_follow h depth t.1 none [] s hnone hex (fun r hr => by have := hd r hr; omega)
      refine ⟨st.2, ?_, trivial, ?_⟩
      · simp [s1, s2, bind, Except.bind, pure, Except.pure]
      · rintro e (he | ⟨K, hK, he⟩)
        · exact s3 e he
        · exact s4 K hK e he) [] trivial
  -- second loop
  obtain ⟨es', e2, -, m2⟩ := foldlM_grows (f := fun es (t : Nat × List (URule π)) => tableDeps t.2 es)
    (fun s e => e ∈ s) (fun _ => True) (fun t e => ∃ r ∈ t.2, ∃ s ∈ t.2, r.1 = e.1 ∧ s.1 = e.2 ∧ s.2.priority < r.2.priority ∧
      ∃ p : Pkt, r.2.mat.accepts p ∧ s.2.mat.accepts p) (groupTables rs)
    (fun t ht s _ => by
      obtain ⟨hl, -⟩ := mem_group (t := t.1) (l := t.2) ht
      have hmem : ∀ r ∈ t.2, r ∈ rs ∧ r.2.table = t.1 := fun r hr => by rw [hl] at hr; simpa using hr
      obtain ⟨ds, d1, d2, d3⟩ := mapM_ofR t.2 fun r hr => ofRule_ofR_tun r (h.ok r (hmem r hr).1) (h.noMeta r (hmem r hr).1) (h.each r (hmem r hr).1)
      obtain ⟨edges, g1, -, g3⟩ := buildIndirect_spec (n := totBits) (by decide) (rs := ds)
        (fun a ha b hb => by
          obtain ⟨r, hr, hr'⟩ := d2 a ha
          obtain ⟨r2, hr2, hr2'⟩ := d2 b hb
          rw [hr'.table, hr2'.table, (hmem r hr).2, (hmem r2 hr2).2])
        (fun a ha _ => by obtain ⟨r, hr, hr'⟩ := d2 a ha; exact hr'.egress)
      refine ⟨_, by simp only [tableDeps, d1, g1, bind, Except.bind, pure, Except.pure]; rfl, trivial, fun e he => ?_⟩
      have := mem_foldl_setAdd (fun _ : Edge => True) (fun e => (e.child.uid, e.parent.uid)) edges s e
      simp only [if_true, true_and] at this
      refine this.2 (he.imp_right ?_)
      rintro ⟨r, hr, r2, hr2, u1, u2, hlt, p, c1, c2⟩
      obtain ⟨a, ha, hr'⟩ := d3 r hr
      obtain ⟨b, hb, hr2'⟩ := d3 r2 hr2
      refine ⟨⟨a, b⟩, (g3 a b).2 ⟨ha, hb, by rw [hr'.priority, hr2'.priority]; exact hlt, p.hdr, (hr'.hits _).2 c1, (hr2'.hits _).2 c2⟩, ?_⟩
      rw [hr'.uid, hr2'.uid, u1, u2]) es trivial
  refine ⟨es', ?_, ?_, ?_⟩
  · have e1' : gotoDeps depth (groupTables rs) = .ok es := e1
    simp only [buildRulesetDeps, e1', bind, Except.bind]
    exact e2
  · intro t p l a b hp hw hs
    refine m2 _ (.inl (m1 _ (.inr ?_)))
    have hx : ∃ r l', l = r :: l' ∧ r ∈ rs ∧ r.2.table = t := by
      cases hp with
      | here a b _ => exact ⟨_, _, rfl, a, b⟩
      | next a b _ _ _ => exact ⟨_, _, rfl, a, b⟩
    obtain ⟨r, l', rfl, hr, rfl⟩ := hx
    have hsub : ∀ q ∈ onward (r :: l'), ∃ x ∈ rs, x.2 = q ∧ q.inst.goto ≠ none := by
      have hall : ∀ {t : Nat} {p : Pkt} {l : List (URule π)}, Path rs t p l → ∀ x ∈ l, x ∈ rs := by
        intro t p l hp
        induction hp with
        | here h _ _ => intro x hx; simp only [List.mem_singleton] at hx; exact hx ▸ h
        | next h _ _ _ _ ih =>
          intro x hx
          rcases List.mem_cons.1 hx with rfl | hx
          · exact h
          · exact ih x hx
      intro q hq
      simp only [onward, List.mem_filter, List.mem_map] at hq
      obtain ⟨⟨x, hx, rfl⟩, hg⟩ := hq
      exact ⟨x, hall hp x hx, rfl, fun e => by rw [e] at hg; cases hg⟩
    have hsum : ∀ k : Tun, ∀ f ∈ k.fields, pushSum f (r :: l') = pushedBy k (onward (r :: l')) := by
      intro k f hf
      unfold pushSum pushedBy
      congr 1
      exact List.map_congr_left fun q _ => pushesOf_eq k hf _
    have hexact : ∀ k, 0 < pushedBy k (onward (r :: l')) → ∀ x ∈ rs, ∀ f ∈ k.fields, ExactOrFree x.2.mat f := by
      intro k hpos x hx f hk
      refine h.exact k ?_ x hx f hk
      obtain ⟨q, hq, hq'⟩ := pos_of_sum _ hpos
      obtain ⟨x, hx, rfl, hg⟩ := hsub q hq
      exact ⟨x.2, List.mem_map.2 ⟨x, hx, rfl⟩, hg, hq'⟩
    refine ⟨_, group_of_rule hr, fun f => ∃ k : Tun, f ∈ k.fields ∧ 0 < pushedBy k (onward (r :: l')), ?_, r, hr, rfl, p, l', fun _ => 0, hp, ?_, .inr hs⟩
    · rintro r' hr' f hf ⟨k, hk, hpos⟩
      exact hexact k hpos r' hr' f hk
    · refine ⟨fun f hf => ?_, fun q hq a ha t ht f hf => ?_, fun q hq a ha t ht f hf => ?_, ?_⟩
      · obtain ⟨k, hk⟩ := tun_of hf
        rw [hsum k f hk]; have := (hw.counts k).1; omega
      · rw [hsum t f hf]
        have h1 : 0 < popCount t q.inst.apply.iter := List.countP_pos_iff.2 ⟨a, ha, by simp [ht]⟩
        have h2 := le_sum_map (fun r : Rule π => popCount t r.inst.apply.iter) hq
        rcases (hw.counts t).2 with h | h
        · unfold poppedBy at h; omega
        · omega
      · refine ⟨t, hf, ?_⟩
        have h1 : 0 < pushCount t q.inst.apply.iter := List.countP_pos_iff.2 ⟨a, ha, by simp [ht]⟩
        have h2 := le_sum_map (fun r : Rule π => pushCount t r.inst.apply.iter) hq
        unfold pushedBy; omega
      · rintro r' hr' f hf ⟨k, hk, hpos⟩
        simp only [List.head?_cons, Option.some.injEq] at hr'
        subst hr'
        obtain ⟨hz, h0⟩ := hw.headers k hpos f hk
        obtain ⟨-, -, -, -, -, -, -, l0, l1, l1', l2, l2', -⟩ := tun_ids f hf
        refine ⟨?_, .inr ⟨mok_free (h.ok r hr).keys l1, hz 1 (by omega)⟩, .inr ⟨mok_free (h.ok r hr).keys l2, hz 2 (by omega)⟩, fun d hd => hz d (by omega)⟩
        rcases h0 with h0 | ⟨r', v, e, hv⟩
        · have hex : ExactOrFree r.2.mat f := hexact k hpos r hr f hk
          rcases hex with hex | hex
          · exact .inr ⟨hex, h0⟩
          · exact .inl hex
        · simp only [List.head?_cons, Option.some.injEq] at e
          subst e
          exact .inl ⟨v, hv⟩
  · intro r hr s hs ht hlt hp
    exact m2 _ (.inr ⟨_, group_of_rule hr, r, by simp [hr], s, by simp [hs, ht], rfl, rfl, hlt, hp⟩)

/-! ### Sample -/

/-- Table 0: VLAN 5 with PCP 0 gets a VLAN header 6 on top (rule 0).  Table 1: VLAN 6 loses its header (rule 1); VLAN 7 (rule 2).
Table 2: VLAN 5 (rule 3), VLAN 6 (rule 4). -/
def tunnelPipe : List (URule Unit) :=
  [(0, samplePush),
   (1, ⟨5, none, 1, Match.empty.append 6 0x1006 none, ⟨some 2, ⟨[[.popVlan]], [.popVlan]⟩, .empty, none, false, none⟩, []⟩),
   (2, ⟨5, none, 1, Match.empty.append 6 0x1007 none, Inst.empty, []⟩),
   (3, ⟨5, none, 2, Match.empty.append 6 0x1005 none, Inst.empty, []⟩),
   (4, ⟨4, none, 2, Match.empty.append 6 0x1006 none, Inst.empty, []⟩)]

theorem tunnelPipe_ok : TunnelGoto tunnelPipe := by
  have hE : ∃ s : List Action, (∀ a ∈ s, a.known = true) ∧ ActionList.ofList s = .ok .empty := ⟨[], by decide, by decide +kernel⟩
  have hW : ∃ s : List Action, (∀ a ∈ s, a.known = true) ∧ actionSetOfList s = .ok .empty := ⟨[], by decide, by decide +kernel⟩
  have key : ∀ r ∈ tunnelPipe, r.2.inst.apply.iter = [.pushVlan 33024, .setField 6 6] ∨ r.2.inst.apply.iter = [.popVlan] ∨ r.2.inst.apply.iter = [] := by
    decide +kernel
  refine ⟨?_, by decide +kernel, ?_, ?_, ?_⟩
  · intro r hr
    simp only [tunnelPipe, List.mem_cons, List.not_mem_nil, or_false] at hr
    rcases hr with rfl | rfl | rfl | rfl | rfl
    · exact ⟨inv_append (inv_append inv_empty _ _ _) _ _ _, by decide +kernel, ⟨[.pushVlan 33024, .setField 6 6], by decide, by decide +kernel⟩, hW⟩
    · exact ⟨inv_append inv_empty _ _ _, by decide +kernel, ⟨[.popVlan], by decide, by decide +kernel⟩, hW⟩
    all_goals exact ⟨inv_append inv_empty _ _ _, by decide +kernel, hE, hW⟩
  · intro r hr v
    rcases key r hr with h | h | h <;> rw [h] <;> simp
  · intro r hr k
    rcases key r hr with h | h | h <;> rw [h] <;> cases k <;> decide
  · intro k hk
    have : k = .vlan := by
      obtain ⟨q, hq, -, h⟩ := hk
      obtain ⟨r, hr, rfl⟩ := List.mem_map.1 hq
      rcases key r hr with e | e | e <;> rw [e] at h <;> cases k <;> first | rfl | exact absurd h (by decide)
    subst this
    intro r hr f hf
    have hall : ∀ r ∈ tunnelPipe, ∀ f ∈ Tun.vlan.fields, r.2.mat.items.lookup f = none ∨ (r.2.mat.items.lookup f).map (·.2) = some none := by decide +kernel
    rcases hall r hr f hf with h | h
    · exact .inl h
    · right
      cases hl : r.2.mat.items.lookup f with
      | none => rw [hl] at h; cases h
      | some x =>
        obtain ⟨v, m⟩ := x
        rw [hl] at h
        simp only [Option.map_some, Option.some.injEq] at h
        subst h
        exact ⟨v, rfl⟩

/-- The sample: the header put on by rule 0 and taken off by rule 1 is tracked: rule 0 leads to rules 1 and 3, neither to rule 2 nor to rule 4. -/
example : buildRulesetDeps 3 tunnelPipe = .ok [(0, 1), (0, 3), (1, 3), (1, 4)] := by decide +kernel

/-- The way of the packet with VLAN 5. -/
example : Path tunnelPipe 0 samplePushPkt (tunnelPipe.filter fun r => r.1 ∈ [0, 1, 3]) ∧
    KnownWay samplePushPkt (tunnelPipe.filter fun r => r.1 ∈ [0, 1, 3]) := by
  have hl : tunnelPipe.filter (fun r => r.1 ∈ [0, 1, 3]) = [(0, samplePush),
   (1, ⟨5, none, 1, Match.empty.append 6 0x1006 none, ⟨some 2, ⟨[[.popVlan]], [.popVlan]⟩, .empty, none, false, none⟩, []⟩),
   (3, ⟨5, none, 2, Match.empty.append 6 0x1005 none, Inst.empty, []⟩)] := by decide +kernel
  have vid : ∀ (v : Nat) (p : Pkt), p.fld 6 0 = v → normValue 6 v none = (v, none) → (Match.empty.append 6 v none).accepts p := by
    intro v p hp hv x hx i hi _
    have : x = (6, v, none) := by simpa [Match.append, Match.empty, dictSet, hv] using hx
    subst this
    rw [hdr_bit _ (show 6 < 56 by decide) hi]
    show ((p.fld 6 0).testBit i) = _
    rw [hp]
  rw [hl]
  constructor
  · refine .next (by decide +kernel) rfl ?_ rfl (.next (by decide +kernel) rfl (vid _ _ (by decide +kernel) (by decide)) rfl
      (.here (by decide +kernel) rfl (vid _ _ (by decide +kernel) (by decide))))
    intro x hx i hi _
    simp [samplePush, Match.append, Match.empty, dictSet] at hx
    rcases hx with rfl | rfl <;> rw [hdr_bit _ (by decide) hi]
    · have : normValue 6 0x1005 none = (0x1005, none) := by decide
      simp [shown, samplePushPkt, this]
    · have : normValue 7 0 none = (0, none) := by decide
      simp [shown, samplePushPkt, this]
  · refine ⟨fun k => by cases k <;> decide +kernel, fun k hk f hf => ?_⟩
    have hk' : k = .vlan := by cases k <;> first | rfl | exact absurd hk (by decide +kernel)
    subst hk'
    have hf' : f = 6 ∨ f = 7 := by simpa [Tun.fields] using hf
    refine ⟨fun d hd => by simp [samplePushPkt]; omega, .inr ?_⟩
    rcases hf' with rfl | rfl
    · exact ⟨_, 0x1005, rfl, by decide +kernel⟩
    · exact ⟨_, 0, rfl, by decide +kernel⟩

/-- **C40 is violated** where a header is pushed upon an unknown one: the packet with VLAN 5 passes both rules (the new header copies VLAN 5),
but no dependency is found. -/
theorem C40_push_unknown : (∀ r ∈ [pushUnknown, sampleVlan5], RuleOK r) ∧
    buildRulesetDeps 2 [(0, pushUnknown), (1, sampleVlan5)] = .ok [] ∧
    Path [(0, pushUnknown), (1, sampleVlan5)] 0 samplePushPkt [(0, pushUnknown), (1, sampleVlan5)] := by
  obtain ⟨h1, h2, -, h3, h4⟩ := C65_push_unknown
  refine ⟨fun r hr => ?_, by decide +kernel, .next (by simp) rfl h3 rfl (.here (by simp) rfl h4)⟩
  simp only [List.mem_cons, List.not_mem_nil, or_false] at hr
  rcases hr with rfl | rfl
  · exact h1
  · exact h2

/-- Table 1 takes the VLAN header 0 off again, table 2 matches VLAN 5. -/
def popVlan0 : Rule Unit where
  priority := 1
  cookie := none
  table := 1
  mat := Match.empty.append 6 0x1000 none
  inst := ⟨some 2, ⟨[[.popVlan]], [.popVlan]⟩, ActionList.empty, none, false, none⟩
  path := []

/-- See `popVlan0`. -/
def lastVlan5 : Rule Unit := { sampleVlan5 with table := 2, mat := Match.empty.append 6 0x1005 none }

theorem extra_ok : TunnelGoto [(0, pushUnknown), (1, popVlan0), (2, lastVlan5)] := by
  have key : ∀ r ∈ [(0, pushUnknown), (1, popVlan0), (2, lastVlan5)],
      r.2.inst.apply.iter = [.pushVlan 33024] ∨ r.2.inst.apply.iter = [.popVlan] ∨ r.2.inst.apply.iter = [.output 2] := by decide +kernel
  refine ⟨?_, by decide +kernel, ?_, ?_, ?_⟩
  · intro r hr
    simp only [List.mem_cons, List.not_mem_nil, or_false] at hr
    rcases hr with rfl | rfl | rfl
    · exact C32_push_unknown.1
    · exact ⟨inv_append inv_empty _ _ _, by decide +kernel, ⟨[.popVlan], by decide, by decide +kernel⟩, ⟨[], by decide, by decide +kernel⟩⟩
    · have h := C65_push_unknown.2.1
      exact ⟨h.inv, h.keys, h.apply, h.write⟩
  · intro r hr v
    rcases key r hr with h | h | h <;> rw [h] <;> simp
  · intro r hr k
    rcases key r hr with h | h | h <;> rw [h] <;> cases k <;> decide
  · intro k hk
    have : k = .vlan := by
      obtain ⟨q, hq, -, h⟩ := hk
      obtain ⟨r, hr, rfl⟩ := List.mem_map.1 hq
      rcases key r hr with e | e | e <;> rw [e] at h <;> cases k <;> first | rfl | exact absurd h (by decide)
    subst this
    intro r hr f hf
    have hall : ∀ r ∈ [(0, pushUnknown), (1, popVlan0), (2, lastVlan5)], ∀ f ∈ Tun.vlan.fields,
        r.2.mat.items.lookup f = none ∨ (r.2.mat.items.lookup f).map (·.2) = some none := by decide +kernel
    rcases hall r hr f hf with h | h
    · exact .inl h
    · right
      cases hl : r.2.mat.items.lookup f with
      | none => rw [hl] at h; cases h
      | some x =>
        obtain ⟨v, m⟩ := x
        rw [hl] at h
        simp only [Option.map_some, Option.some.injEq] at h
        subst h
        exact ⟨v, rfl⟩

/-- **C40 is violated** in the other direction too: the egress of the push does not say that the new header is a copy of the one below.  No packet passes
all three rules (the header of VLAN 0 can only lie on VLAN 0), but the first and the last are said to be dependent. -/
theorem C40_extra : TunnelGoto [(0, pushUnknown), (1, popVlan0), (2, lastVlan5)] ∧
    buildRulesetDeps 3 [(0, pushUnknown), (1, popVlan0), (2, lastVlan5)] = .ok [(0, 1), (0, 2), (1, 2)] ∧
    ∀ t p l, Path [(0, pushUnknown), (1, popVlan0), (2, lastVlan5)] t p l → ¬ [0, 2].Sublist (l.map (·.1)) := by
  refine ⟨extra_ok, by decide +kernel, ?_⟩
  intro t p l hp hs
  have mem : ∀ {r : URule Unit}, r ∈ [(0, pushUnknown), (1, popVlan0), (2, lastVlan5)] →
      r = (0, pushUnknown) ∨ r = (1, popVlan0) ∨ r = (2, lastVlan5) := fun h => by simpa using h
  have last : ∀ {p l}, Path [(0, pushUnknown), (1, popVlan0), (2, lastVlan5)] 2 p l → l = [(2, lastVlan5)] ∧ lastVlan5.mat.accepts p := by
    intro p l hp
    cases hp with
    | here h1 h2 h3 => rcases mem h1 with rfl | rfl | rfl <;> first | exact absurd h2 (by decide) | exact ⟨rfl, h3⟩
    | next h1 h2 _ h4 _ => rcases mem h1 with rfl | rfl | rfl <;> first | exact absurd h2 (by decide) | cases h4
  have mid : ∀ {p l}, Path [(0, pushUnknown), (1, popVlan0), (2, lastVlan5)] 1 p l →
      popVlan0.mat.accepts p ∧ (l = [(1, popVlan0)] ∨ l = [(1, popVlan0), (2, lastVlan5)] ∧ lastVlan5.mat.accepts (popVlan0.inst.forward p)) := by
    intro p l hp
    cases hp with
    | here h1 h2 h3 => rcases mem h1 with rfl | rfl | rfl <;> first | exact absurd h2 (by decide) | exact ⟨h3, .inl rfl⟩
    | next h1 h2 h3 h4 h5 =>
      rcases mem h1 with rfl | rfl | rfl <;> first | exact absurd h2 (by decide) | skip
      cases h4
      obtain ⟨rfl, h⟩ := last h5
      exact ⟨h3, .inr ⟨rfl, h⟩⟩
  cases hp with
  | here => simpa using hs.length_le
  | next h1 h2 h3 h4 h5 =>
    rcases mem h1 with rfl | rfl | rfl
    · cases h4
      obtain ⟨ha, rfl | ⟨rfl, hb⟩⟩ := mid h5
      · exact absurd hs (by decide)
      · have a := ha _ (mem_of_lookup_eq_some (show popVlan0.mat.items.lookup 6 = some (0x1000, none) by decide +kernel)) 0 (by decide) (by simp)
        have b := hb _ (mem_of_lookup_eq_some (show lastVlan5.mat.items.lookup 6 = some (0x1005, none) by decide +kernel)) 0 (by decide) (by simp)
        rw [hdr_bit _ (by decide) (by decide)] at a b
        have ea : ((pushUnknown.inst.forward p).fld (shown 6).1 (shown 6).2) = 0x1000 ||| p.fld 6 0 := rfl
        have eb : ((popVlan0.inst.forward (pushUnknown.inst.forward p)).fld (shown 6).1 (shown 6).2) = p.fld 6 0 := rfl
        rw [ea] at a
        rw [eb] at b
        simp at a b
        simp [a] at b
    · cases h4
      obtain ⟨rfl, -⟩ := last h5
      exact absurd hs (by decide)
    · cases h4

end Deps
end OFE
