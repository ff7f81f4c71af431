import Verif.Check.Pipeline
import Verif.Ruleset.TunnelSingle

/-!
# Lemmas: the rules of a single table with pushes and pops have the actions of a way through the tables
-/

namespace OFE

theorem merge_parts {π : Type} {a b r : Rule π} {openflow : Bool} (e : a.merge b openflow = .ok r) :
    ∃ i, a.inst.merge b.inst = .ok i ∧ r.inst = { i with wmeta := mergeMeta a.inst.wmeta b.inst.wmeta } ∧ r.table = a.table := by
  unfold Rule.merge at e
  simp only [bind, Except.bind, pure, Except.pure] at e
  repeat' split at e
  all_goals first | (cases e; done) | skip
  all_goals
    injection e with e
    exact ⟨_, ‹a.inst.merge b.inst = .ok _›, by rw [← e], by rw [← e]⟩

theorem merge_acts {π : Type} {a b r : Rule π} {openflow : Bool} (ha : RuleOK a) (hb : RuleOK b) (hr : RuleOK r)
    (hm : NoMeta b.inst.apply.iter) (e : a.merge b openflow = .ok r) : r.table = a.table ∧ r.acts.Subperm (a.acts ++ b.acts) := by
  obtain ⟨i, ei, hi, ht⟩ := merge_parts e
  refine ⟨ht, ?_⟩
  have hap := merge_apply_perm ha.inst hb.inst ei
  have hw : r.inst.write.iter.Subperm (a.inst.write.iter ++ b.inst.write.iter) := by
    refine (write_nodup hr).subperm fun x hx => ?_
    have h1 := mem_write hr hx
    have h2 := (merge_stEq ha hb hm e (St.enter ⟨fun _ _ => 0, fun _ => 0, 0, fun _ => 0, 0, 0⟩)).2.2 x
    simp only [Inst.run, St.enter] at h2
    have h3 := (h2.1 (by simpa using h1)).1.mem
    revert h3
    simp only [List.mem_append]
    rintro (h3 | h3)
    · split at h3
      · cases h3
      · exact .inl (by simpa using h3)
    · exact .inr h3
  unfold Rule.acts
  have e1 : r.inst.apply = i.apply := by rw [hi]
  simp only [e1]
  refine (hap.subperm.append hw).trans (List.Perm.subperm ?_)
  simp only [List.append_assoc]
  refine List.Perm.append_left _ ?_
  rw [← List.append_assoc, ← List.append_assoc]
  exact List.Perm.append_right _ List.perm_append_comm

theorem Made.merge_t {π : Type} {R : List (Rule π)} (h : TLoopOK R) {c b r : Rule π} {rs rs' : List (Rule π)} {openflow : Bool} (hc : Made R c rs)
    (hr : TRep R c rs') (hg : c.inst.goto = some b.table) (hb : b ∈ R) (hm : merged? c openflow b = some r) :
    Made R r (rs ++ [b]) ∧ r.table = c.table := by
  obtain ⟨ht, hgo, -⟩ := merged_t h hr hg hb rfl hm
  obtain ⟨ini, x, rfl, hx⟩ := hc.ends
  obtain ⟨r0, e, rfl⟩ := merged_some hm
  obtain ⟨m1, m2⟩ := merge_acts hr.ok (h.ok b hb) (r := r0) ⟨ht.ok.inv, ht.ok.keys, ht.ok.apply, ht.ok.write⟩ (h.noMeta b hb) e
  refine ⟨⟨⟨fun y hy => ?_, ?_⟩, ⟨_, b, rfl, hgo.symm⟩, ?_⟩, m1⟩
  · rcases List.mem_append.1 hy with hy | hy
    · exact hc.path.1 y hy
    · simp at hy; subst hy; exact hb
  · refine List.isChain_append.2 ⟨hc.path.2, .singleton _, fun y hy z hz => ?_⟩
    simp at hy hz
    subst hy; subst hz
    rw [hx, hg]
  · refine List.Subperm.trans (l₂ := c.acts ++ b.acts) m2 ?_
    rw [List.flatMap_append]
    refine List.Subperm.append hc.acts ?_
    rw [List.flatMap_cons, List.flatMap_nil, List.append_nil]

theorem tmade_loop {π : Type} {R : List (Rule π)} (h : TLoopOK R) {t : Nat} (openflow : Bool) : ∀ (rem : List Nat) (l l' : List (Rule π)),
    (∀ n ∈ rem, ∃ r ∈ R, r.table = n) → rem.Pairwise (· < ·) →
    (∀ r ∈ R, ∀ m ∈ rem, r.table = m → ∀ n, r.inst.goto = some n → m < n ∧ n ∈ rem) →
    TInv R rem l → (∀ c ∈ l, c.table = t ∧ ∃ rs, Made R c rs) →
    rem.foldlM (fun acc n => condense acc (tableRules R n) n openflow) l = .ok l' → ∀ c ∈ l', c.table = t ∧ ∃ rs, Made R c rs
  | [], l, l', _, _, _, _, hm, e => by
    cases e; exact hm
  | num :: rem, l, l', h1, h2, h3, hi, hm, e => by
    obtain ⟨h2a, h2b⟩ := List.pairwise_cons.1 h2
    obtain ⟨e1, hi'⟩ := tinv_step h (h1 num List.mem_cons_self) (fun r hr hrt n hn => by
      obtain ⟨hlt, hm⟩ := h3 r hr num List.mem_cons_self hrt n hn
      rcases List.mem_cons.1 hm with rfl | hm
      · omega
      · exact hm) hi openflow
    rw [List.foldlM_cons, e1] at e
    refine tmade_loop h openflow rem _ l' (fun n hn => h1 n (List.mem_cons_of_mem _ hn)) h2b (by
      intro r hr m hm hrt n hn
      obtain ⟨hlt, hmem⟩ := h3 r hr m (List.mem_cons_of_mem _ hm) hrt n hn
      refine ⟨hlt, ?_⟩
      rcases List.mem_cons.1 hmem with rfl | hmem
      · have := h2a m hm; omega
      · exact hmem) hi' ?_ e
    intro c hc
    obtain ⟨a, ha, hca⟩ := List.mem_flatMap.1 hc
    obtain ⟨hta, rs, hmade⟩ := hm a ha
    obtain ⟨rs', hr⟩ := hi.rep a ha
    split at hca
    · next hgo =>
      obtain ⟨b, hb, hmg⟩ := List.mem_filterMap.1 hca
      have hb := mem_tableRules.1 hb
      obtain ⟨h4, h5⟩ := hmade.merge_t h hr (by rw [hgo, hb.2]) hb.1 hmg
      exact ⟨h5.trans hta, _, h4⟩
    · simp at hca; subst hca; exact ⟨hta, rs, hmade⟩

/-- The single table: its rules are of table 0 and have the actions of a way through the prepared rules. -/
theorem tsingle_made {rules : List (Rule Nat)} (h : PipelineOK rules) (hf : TunnelPipeline rules) {openflow : Bool} {cs : List (Rule Nat)}
    (e : toSingleTable rules openflow = .ok cs) : ∀ c ∈ cs, RuleOK c ∧ c.table = 0 ∧ ∃ rs, Made (prepared rules) c rs := by
  obtain ⟨rem, hT, e0⟩ := toSingleTable_eq h.prio h.zero openflow
  have hs := tablesOf_sorted rules
  rw [hT] at hs
  obtain ⟨hs1, hs2⟩ := List.pairwise_cons.1 hs
  have hmem : ∀ {r' : Rule Nat}, r' ∈ prepared rules → ∀ n, r'.inst.goto = some n → r'.table < n ∧ n ∈ rem := by
    intro r' hr n hn
    obtain ⟨h1, h2⟩ := prepared_goto h hr hn
    rw [hT] at h2
    rcases List.mem_cons.1 h2 with rfl | h2
    · omega
    · exact ⟨h1, h2⟩
  have hl := tloopOK h hf
  have hstart := tinv_start hl (prepared_table h.path (by rw [hT]; simp)) (rem := rem) fun r hr _ n hn => (hmem hr n hn).2
  have h1 := tmade_loop hl (t := 0) openflow rem _ cs (fun n hn => prepared_table h.path (by rw [hT]; simp [hn])) hs2
    (fun r hr m _ hrt n hn => by obtain ⟨a, b⟩ := hmem hr n hn; exact ⟨hrt ▸ a, b⟩) hstart
    (fun c hc => ⟨(mem_tableRules.1 hc).2, [c], .one (mem_tableRules.1 hc).1⟩) (e0 ▸ e)
  obtain ⟨cs', e', hc⟩ := single_tinv h hf openflow
  rw [e] at e'
  cases e'
  intro c hcc
  obtain ⟨rs', hr⟩ := hc.rep c hcc
  exact ⟨hr.ok, h1 c hcc⟩

/-- The single table of a plain pipeline has plain rules. -/
theorem tsingle_plain {rules : List (Rule Nat)} (h : PipelineOK rules) (hf : TunnelPipeline rules) (hp : PlainPipeline rules) {openflow : Bool}
    {cs : List (Rule Nat)} (e : toSingleTable rules openflow = .ok cs) : (∀ c ∈ cs, PlainRule c) ∧ ∀ c ∈ cs, c.table = 0 := by
  have hm := tsingle_made h hf e
  refine ⟨fun c hc => ?_, fun c hc => (hm c hc).2.1⟩
  obtain ⟨hok, -, rs, hmade⟩ := hm c hc
  obtain ⟨P, h1, h2, -⟩ := prepared_path h.path hmade.path
  have hpl := hp P h1
  rw [h2] at hpl
  refine ⟨hok, hpl.of_subset (fun a ha => hmade.acts.subset ha) ?_⟩
  obtain ⟨l, l1, l2⟩ := hmade.acts
  exact (l1.filterMap _).nodup_iff.1 ((l2.filterMap _).nodup hpl.ports)

end OFE
