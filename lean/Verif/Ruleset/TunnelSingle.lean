import Verif.Ruleset.TunnelLoop

/-!
# Lemmas: the single table of a pipeline with pushes and pops
-/

namespace OFE

/-- Rules linked in the prepared ruleset, the last going on, are linked in the original. -/
theorem links_orig {rules : List (Rule Nat)} (h : PipelineOK rules) {t : Nat} {rs' : List (Rule Nat)} {g : Option Nat}
    (hl : Links (prepared rules) t rs' g) (hg : g ≠ none) : ∃ rs, Links rules t rs g ∧ ∀ k, pushedBy k rs = pushedBy k rs' ∧ poppedBy k rs = poppedBy k rs' := by
  obtain ⟨h1, -⟩ := mem_prepared h.path
  induction hl with
  | @one r' hr ht =>
    rcases h1 r' hr with ⟨r, i, hi, rfl⟩ | ⟨i, -, hd, -⟩
    · exact ⟨[r], .one (List.mem_of_getElem? hi) ht, fun k => ⟨rfl, rfl⟩⟩
    · rw [hd] at hg; simp [defaultRule, Inst.empty] at hg
  | @snoc rs' n r' hl hr ht ih =>
    obtain ⟨rs, i1, i2⟩ := ih (by simp)
    rcases h1 r' hr with ⟨r, i, hi, rfl⟩ | ⟨i, -, hd, -⟩
    · refine ⟨rs ++ [r], .snoc i1 (List.mem_of_getElem? hi) ht, fun k => ?_⟩
      have := i2 k
      simp only [pushedBy, poppedBy, List.map_append, List.sum_append, scaled] at this ⊢
      rw [this.1, this.2]
      exact ⟨rfl, rfl⟩
    · rw [hd] at hg; simp [defaultRule, Inst.empty] at hg

theorem pushedKind_orig {rules : List (Rule Nat)} (h : PipelineOK rules) {k : Tun} (hk : PushedKind (prepared rules) k) : PushedKind rules k := by
  obtain ⟨r', hr, hg, hp⟩ := hk
  rcases (mem_prepared h.path).1 r' hr with ⟨r, i, hi, rfl⟩ | ⟨i, -, hd, -⟩
  · exact ⟨r, List.mem_of_getElem? hi, hg, hp⟩
  · rw [hd] at hg; simp [defaultRule, Inst.empty] at hg

theorem headersKnown_prepared {rules : List (Rule Nat)} (h : PipelineOK rules) {p : Pkt} (hp : HeadersKnown rules p) : HeadersKnown (prepared rules) p := by
  intro k hk f hf
  obtain ⟨a, b⟩ := hp k (pushedKind_orig h hk) f hf
  refine ⟨a, b.imp id fun b r' hr hg => ?_⟩
  obtain ⟨r, ⟨i, hi, e⟩, hh⟩ := hits_orig h hr
  have := b r hh (by rw [e] at hg; exact hg)
  rw [e]; exact this

theorem default_free (t i f : Nat) : (defaultRule t i).mat.items.lookup f = none := rfl

theorem tloopOK {rules : List (Rule Nat)} (h : PipelineOK rules) (hf : TunnelPipeline rules) : TLoopOK (prepared rules) := by
  obtain ⟨h1, h2⟩ := mem_prepared h.path
  refine ⟨fun r' hr' => (prepared_inst h hr').1, fun r' hr' => ?_, ⟨?_, ?_, ?_⟩, fun r' hr' p => ?_⟩
  · rcases h1 r' hr' with ⟨r, i, hi, rfl⟩ | ⟨i, -, hd, -⟩
    · exact h.noMeta r (List.mem_of_getElem? hi)
    · rw [hd]; intro v hv; simp [defaultRule, Inst.empty, ActionList.iter, ActionList.empty] at hv
  · intro rs n hl k
    obtain ⟨rs0, hl0, hc⟩ := links_orig h hl (by simp)
    rw [← (hc k).1, ← (hc k).2]
    exact hf.counts rs0 n hl0 k
  · intro rs n hl k hlt b hb hbt f hfk
    obtain ⟨rs0, hl0, hc⟩ := links_orig h hl (by simp)
    rw [← (hc k).1, ← (hc k).2] at hlt
    rcases h1 b hb with ⟨r, i, hi, rfl⟩ | ⟨i, -, hd, -⟩
    · exact hf.hidden rs0 n hl0 k hlt r (List.mem_of_getElem? hi) hbt f hfk
    · rw [hd]; exact default_free _ _ _
  · intro k hk r' hr f hfk
    rcases h1 r' hr with ⟨r, i, hi, rfl⟩ | ⟨i, -, hd, -⟩
    · exact hf.exact k (pushedKind_orig h hk) r (List.mem_of_getElem? hi) f hfk
    · rw [hd]; exact .inl (default_free _ _ _)
  · have : r'.table ∈ tablesOf rules := by
      rcases h1 r' hr' with ⟨r, i, hi, rfl⟩ | ⟨i, -, hd, ht, -⟩
      · exact mem_tablesOf.2 ⟨r, List.mem_of_getElem? hi, rfl⟩
      · exact ht
    obtain ⟨r, hr, hrt⟩ := mem_tablesOf.1 this
    obtain ⟨s, hs, hst, hsp⟩ := h.covered r hr p
    obtain ⟨s', hs', j, hj, rfl⟩ := h2 s hs
    exact ⟨_, hs', hst.trans hrt, hsp⟩

theorem single_tinv {rules : List (Rule Nat)} (h : PipelineOK rules) (hf : TunnelPipeline rules) (openflow : Bool) :
    ∃ cs, toSingleTable rules openflow = .ok cs ∧ TInv (prepared rules) [] cs := by
  obtain ⟨rem, hT, e⟩ := toSingleTable_eq h.prio h.zero openflow
  have hs := tablesOf_sorted rules
  rw [hT] at hs
  obtain ⟨hs1, hs2⟩ := List.pairwise_cons.1 hs
  have hmem : ∀ {r' : Rule Nat}, r' ∈ prepared rules → ∀ n, r'.inst.goto = some n → r'.table < n ∧ n ∈ rem := by
    intro r' hr n hn
    obtain ⟨h1, h2⟩ := prepared_goto h hr hn
    rw [hT] at h2
    rcases List.mem_cons.1 h2 with rfl | h2
    · omega
    · exact ⟨h1, h2⟩
  have hl := tloopOK h hf
  have hstart := tinv_start hl (prepared_table h.path (by rw [hT]; simp)) (rem := rem) fun r hr _ n hn => (hmem hr n hn).2
  obtain ⟨cs, e', hc⟩ := tinv_loop hl openflow rem _ (fun n hn => prepared_table h.path (by rw [hT]; simp [hn])) hs2
    (fun r hr m _ hrt n hn => by obtain ⟨a, b⟩ := hmem hr n hn; exact ⟨hrt ▸ a, b⟩) hstart
  exact ⟨cs, by rw [e, e'], hc⟩

theorem tunnel_packet {rules : List (Rule Nat)} (h : PipelineOK rules) {cs : List (Rule Nat)}
    (hc : TInv (prepared rules) [] cs) {p : Pkt} (hp : HeadersKnown rules p) :
    ∃ c l rs s', FirstHit cs p c ∧ c.inst.goto = none ∧ c.inst.fullActions = .ok l ∧ Runs rules 0 (St.enter p) rs s' ∧
      c.path.map (rules[·]?) = rs.map some ∧ SameSent (exec l.iter p).2 s'.finish := by
  obtain ⟨c, rs', hfm, hrep, hl⟩ := hc.first p (headersKnown_prepared h hp)
  have hg : c.inst.goto = none := by
    cases hgo : c.inst.goto with
    | none => rfl
    | some n => exact absurd (hc.goto c hfm.mem n hgo) (by simp)
  rw [hg] at hl
  obtain ⟨l, rs, s', h1, h2, h3, h4⟩ := packet_of h hrep.ok hrep.path hrep.run hl
  exact ⟨c, l, rs, s', hfm, hg, h1, h2, h3, h4⟩

end OFE
