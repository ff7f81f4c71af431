import Verif.Check.Lemmas
import Verif.Props.Ruleset
import Mathlib.Data.List.Chain

/-!
# Lemmas: the rules of a single table have the actions of a way through the tables
-/

namespace OFE

/-- `c` is made from the rules `rs`. -/
structure Made {π : Type} (R : List (Rule π)) (c : Rule π) (rs : List (Rule π)) : Prop where
  path : GotoPath R rs
  ends : ∃ init x, rs = init ++ [x] ∧ x.inst.goto = c.inst.goto
  acts : c.acts.Subperm (rs.flatMap Rule.acts)

theorem Made.one {π : Type} {R : List (Rule π)} {c : Rule π} (h : c ∈ R) : Made R c [c] :=
  ⟨⟨by simpa using h, .singleton _⟩, ⟨[], c, rfl, rfl⟩, by rw [List.flatMap_cons, List.flatMap_nil, List.append_nil]⟩

theorem write_nodup {π : Type} {r : Rule π} (h : RuleOK r) : r.inst.write.iter.Nodup := by
  obtain ⟨s, k, e⟩ := h.write
  have hi := setInv_of k e
  exact hi.iter_perm.nodup_iff.2 hi.nodup

theorem mem_write {π : Type} {r : Rule π} (h : RuleOK r) {x : Action} (hx : x ∈ r.inst.write.iter) : InSet r.inst.write.iter x := by
  obtain ⟨s, k, e⟩ := h.write
  have hi := setInv_of k e
  rw [setInv_inSet hi]
  exact (hi.content x).1 (hi.iter_perm.mem_iff.1 hx)

theorem merge_apply_perm {a b r : Inst} (ha : InstOK a) (hb : InstOK b) (h : a.merge b = .ok r) :
    r.apply.iter.Perm (a.apply.iter ++ b.apply.iter) := by
  obtain ⟨⟨s1, k1, e1⟩, -⟩ := ha
  obtain ⟨⟨s2, k2, e2⟩, -⟩ := hb
  have hk2 := known_iter k2 e2
  have hadd : a.apply.add b.apply = ActionList.ofList (s1 ++ b.apply.iter) := by
    unfold ActionList.add ActionList.copy ActionList.ofList
    rw [List.foldlM_append]
    unfold ActionList.ofList at e1
    rw [e1]; rfl
  have hks : AllKnown (s1 ++ b.apply.iter) := by
    intro x hx
    rcases List.mem_append.1 hx with h | h
    · exact k1 x h
    · exact hk2 x h
  have hap : r.apply = mkList (s1 ++ b.apply.iter) := by
    unfold Inst.merge at h
    simp only [hadd, ofList_known hks, bind, Except.bind, pure, Except.pure] at h
    split at h
    · injection h with h; rw [← h]
    · split at h
      · cases h
      · injection h with h; rw [← h]
  rw [hap, ofList_ok e1]
  exact (mkList_iter_trace _).perm.symm.trans (List.Perm.append_right _ (mkList_iter_trace s1).perm)

theorem merged_acts {π : Type} {a b r : Rule π} {openflow : Bool} (ha : RuleOK a) (hb : RuleOK b) (hf : FlatActs a.inst.apply.iter)
    (hm : NoMeta b.inst.apply.iter) (h : merged? a openflow b = some r) :
    r.table = a.table ∧ r.acts.Subperm (a.acts ++ b.acts) := by
  obtain ⟨hok, -, -, -, -, -, hst⟩ := merged_facts ha hb hf hm h
  obtain ⟨r0, e, rfl⟩ := merged_some h
  rcases merge_cases ha hb hf openflow with ⟨r1, i, e', ei, hi, -⟩ | ⟨e', -⟩
  swap
  · rw [e] at e'; cases e'
  rw [e] at e'; cases e'
  refine ⟨?_, ?_⟩
  · unfold Rule.merge at e
    simp only [bind, Except.bind, pure, Except.pure] at e
    repeat' split at e
    all_goals first | (cases e; done) | skip
    all_goals (injection e with e; rw [← e])
  · have hap := merge_apply_perm ha.inst hb.inst ei
    have hw : r0.inst.write.iter.Subperm (a.inst.write.iter ++ b.inst.write.iter) := by
      refine (write_nodup hok).subperm fun x hx => ?_
      have h1 := mem_write hok hx
      have h2 := (hst (St.enter ⟨fun _ _ => 0, fun _ => 0, 0, fun _ => 0, 0, 0⟩)).2.2 x
      simp only [Inst.run, St.enter] at h2
      have h3 := (h2.1 (by simpa using h1)).1.mem
      revert h3
      simp only [List.mem_append]
      rintro (h3 | h3)
      · split at h3
        · cases h3
        · exact .inl (by simpa using h3)
      · exact .inr h3
    unfold Rule.acts
    have e1 : r0.inst.apply = i.apply := by rw [hi]
    simp only [e1]
    refine (hap.subperm.append hw).trans (List.Perm.subperm ?_)
    simp only [List.append_assoc]
    refine List.Perm.append_left _ ?_
    rw [← List.append_assoc, ← List.append_assoc]
    exact List.Perm.append_right _ List.perm_append_comm

theorem Made.merge {π : Type} {R : List (Rule π)} (h : LoopOK R) {c b r : Rule π} {rs : List (Rule π)} {openflow : Bool} (hc : Made R c rs)
    (hok : RuleOK c) (hfl : FlatActs c.inst.apply.iter) (hg : c.inst.goto = some b.table) (hb : b ∈ R) (hm : merged? c openflow b = some r) :
    Made R r (rs ++ [b]) := by
  obtain ⟨-, -, -, hgo, -⟩ := merged_facts hok (h.ok b hb) hfl (h.noMeta b hb) hm
  obtain ⟨ini, x, rfl, hx⟩ := hc.ends
  refine ⟨⟨fun y hy => ?_, ?_⟩, ⟨_, b, rfl, hgo.symm⟩, ?_⟩
  · rcases List.mem_append.1 hy with hy | hy
    · exact hc.path.1 y hy
    · simp at hy; subst hy; exact hb
  · refine List.isChain_append.2 ⟨hc.path.2, .singleton _, fun y hy z hz => ?_⟩
    simp at hy hz
    subst hy; subst hz
    rw [hx, hg]
  · refine (merged_acts hok (h.ok b hb) hfl (h.noMeta b hb) hm).2.trans ?_
    rw [List.flatMap_append]
    refine List.Subperm.append hc.acts ?_
    rw [List.flatMap_cons, List.flatMap_nil, List.append_nil]

theorem made_loop {π : Type} {R : List (Rule π)} (h : LoopOK R) {t : Nat} (openflow : Bool) : ∀ (rem : List Nat) (l l' : List (Rule π)),
    (∀ n ∈ rem, ∃ r ∈ R, r.table = n) → rem.Pairwise (· < ·) →
    (∀ r ∈ R, ∀ m ∈ rem, r.table = m → ∀ n, r.inst.goto = some n → m < n ∧ n ∈ rem) →
    CInv R t rem l → (∀ c ∈ l, c.table = t ∧ ∃ rs, Made R c rs) →
    rem.foldlM (fun acc n => condense acc (tableRules R n) n openflow) l = .ok l' → ∀ c ∈ l', c.table = t ∧ ∃ rs, Made R c rs
  | [], l, l', _, _, _, _, hm, e => by
    cases e; exact hm
  | num :: rem, l, l', h1, h2, h3, hi, hm, e => by
    obtain ⟨h2a, h2b⟩ := List.pairwise_cons.1 h2
    obtain ⟨e1, hi'⟩ := cinv_step h (h1 num List.mem_cons_self) (fun r hr hrt n hn => by
      obtain ⟨hlt, hm⟩ := h3 r hr num List.mem_cons_self hrt n hn
      rcases List.mem_cons.1 hm with rfl | hm
      · omega
      · exact hm) hi openflow
    rw [List.foldlM_cons, e1] at e
    refine made_loop h openflow rem _ l' (fun n hn => h1 n (List.mem_cons_of_mem _ hn)) h2b (by
      intro r hr m hm hrt n hn
      obtain ⟨hlt, hmem⟩ := h3 r hr m (List.mem_cons_of_mem _ hm) hrt n hn
      refine ⟨hlt, ?_⟩
      rcases List.mem_cons.1 hmem with rfl | hmem
      · have := h2a m hm; omega
      · exact hmem) hi' ?_ e
    intro c hc
    obtain ⟨a, ha, hca⟩ := List.mem_flatMap.1 hc
    obtain ⟨hta, rs, hmade⟩ := hm a ha
    obtain ⟨rs', hr, -⟩ := hi.rep a ha
    split at hca
    · next hgo =>
      obtain ⟨b, hb, hmg⟩ := List.mem_filterMap.1 hca
      have hb := mem_tableRules.1 hb
      have hfl := hr.flat (by rw [hgo]; simp)
      refine ⟨?_, rs ++ [b], hmade.merge h hr.ok hfl (by rw [hgo, hb.2]) hb.1 hmg⟩
      rw [(merged_acts hr.ok (h.ok b hb.1) hfl (h.noMeta b hb.1) hmg).1, hta]
    · simp at hca; subst hca; exact ⟨hta, rs, hmade⟩

/-- The single table: its rules are of table 0 and have the actions of a way through the prepared rules. -/
theorem single_made {rules : List (Rule Nat)} (h : PipelineOK rules) (hf : FlatPipeline rules) {openflow : Bool} {cs : List (Rule Nat)}
    (e : toSingleTable rules openflow = .ok cs) : ∀ c ∈ cs, RuleOK c ∧ c.table = 0 ∧ ∃ rs, Made (prepared rules) c rs := by
  obtain ⟨rem, hT, e0⟩ := toSingleTable_eq h.prio h.zero openflow
  have hs := tablesOf_sorted rules
  rw [hT] at hs
  obtain ⟨hs1, hs2⟩ := List.pairwise_cons.1 hs
  have hmem : ∀ {r' : Rule Nat}, r' ∈ prepared rules → ∀ n, r'.inst.goto = some n → r'.table < n ∧ n ∈ rem := by
    intro r' hr n hn
    obtain ⟨h1, h2⟩ := prepared_goto h hr hn
    rw [hT] at h2
    rcases List.mem_cons.1 h2 with rfl | h2
    · omega
    · exact ⟨h1, h2⟩
  have hl := loopOK h hf
  have hstart := cinv_start hl (t := 0) (prepared_table h.path (by rw [hT]; simp)) (rem := rem) fun r hr _ n hn => (hmem hr n hn).2
  have h1 := made_loop hl openflow rem _ cs (fun n hn => prepared_table h.path (by rw [hT]; simp [hn])) hs2
    (fun r hr m _ hrt n hn => by obtain ⟨a, b⟩ := hmem hr n hn; exact ⟨hrt ▸ a, b⟩) hstart
    (fun c hc => ⟨(mem_tableRules.1 hc).2, [c], .one (mem_tableRules.1 hc).1⟩) (e0 ▸ e)
  obtain ⟨cs', e', hc⟩ := single_cinv h hf openflow
  rw [e] at e'
  cases e'
  intro c hcc
  obtain ⟨rs', hr, -⟩ := hc.rep c hcc
  exact ⟨hr.ok, h1 c hcc⟩

/-- A way through the prepared rules has the actions of one through the rules. -/
theorem prepared_path {rules : List (Rule Nat)} (h : ∀ r ∈ rules, r.path = []) : ∀ {rs : List (Rule Nat)}, GotoPath (prepared rules) rs →
    ∃ P, GotoPath rules P ∧ P.flatMap Rule.acts = rs.flatMap Rule.acts ∧
      ∀ q, P.head? = some q → ∃ r, rs.head? = some r ∧ r.table = q.table
  | [], _ => ⟨[], ⟨by simp, .nil⟩, rfl, by simp⟩
  | r :: rs, hp => by
    obtain ⟨P, h1, h2, h3⟩ := prepared_path h (rs := rs) ⟨fun x hx => hp.1 x (List.mem_cons_of_mem _ hx), (List.isChain_cons.1 hp.2).2⟩
    rcases (mem_prepared h).1 r (hp.1 r List.mem_cons_self) with ⟨q, i, hi, rfl⟩ | ⟨i, -, hd, -⟩
    · refine ⟨q :: P, ⟨fun x hx => ?_, ?_⟩, ?_, fun x hx => ?_⟩
      · rcases List.mem_cons.1 hx with rfl | hx
        · exact List.mem_of_getElem? hi
        · exact h1.1 x hx
      · refine List.isChain_cons.2 ⟨fun y hy => ?_, h1.2⟩
        obtain ⟨z, hz1, hz2⟩ := h3 y hy
        have h4 := (List.isChain_cons.1 hp.2).1 z hz1
        rw [← hz2]; exact h4
      · simp only [List.flatMap_cons, h2]; rfl
      · simp at hx; subst hx; exact ⟨_, rfl, rfl⟩
    · refine ⟨[], ⟨by simp, .nil⟩, ?_, by simp⟩
      have hg : r.inst.goto = none := by rw [hd]; rfl
      have ha : r.acts = [] := by rw [hd]; rfl
      cases rs with
      | nil => simp [ha]
      | cons z rs =>
        have h4 := (List.isChain_cons.1 hp.2).1 z rfl
        rw [hg] at h4; cases h4

/-- The single table of a plain pipeline has plain rules. -/
theorem single_plain {rules : List (Rule Nat)} (h : PipelineOK rules) (hf : FlatPipeline rules) (hp : PlainPipeline rules) {openflow : Bool}
    {cs : List (Rule Nat)} (e : toSingleTable rules openflow = .ok cs) : (∀ c ∈ cs, PlainRule c) ∧ ∀ c ∈ cs, c.table = 0 := by
  have hm := single_made h hf e
  refine ⟨fun c hc => ?_, fun c hc => (hm c hc).2.1⟩
  obtain ⟨hok, -, rs, hmade⟩ := hm c hc
  obtain ⟨P, h1, h2, -⟩ := prepared_path h.path hmade.path
  have hpl := hp P h1
  rw [h2] at hpl
  refine ⟨hok, hpl.of_subset (fun a ha => hmade.acts.subset ha) ?_⟩
  obtain ⟨l, l1, l2⟩ := hmade.acts
  exact (l1.filterMap _).nodup_iff.1 ((l2.filterMap _).nodup hpl.ports)

/-- Conditions on single rules and pairs of rules that make a pipeline plain. -/
theorem plainPipeline_of {π : Type} {rules : List (Rule π)} (hg : ∀ r ∈ rules, ∀ n, r.inst.goto = some n → r.table < n)
    (h1 : ∀ r ∈ rules, ∀ a ∈ r.acts, (∀ g, a ≠ .group g) ∧ (∀ e, a ≠ .pushMpls e) ∧ (∀ e, a ≠ .pushPbb e) ∧
      ∀ v, a = .setField 6 v → 0x1000 ||| v = v)
    (h2 : ∀ r ∈ rules, (r.acts.filterMap Action.portOf).Nodup)
    (h3 : ∀ r ∈ rules, ∀ s ∈ rules, r.table < s.table → ∀ n ∈ r.acts.filterMap Action.portOf, n ∉ s.acts.filterMap Action.portOf) :
    PlainPipeline rules := by
  intro P hP
  have hm : ∀ {a : Action}, a ∈ P.flatMap Rule.acts → ∃ r ∈ rules, a ∈ r.acts := by
    intro a ha
    obtain ⟨r, hr, ha⟩ := List.mem_flatMap.1 ha
    exact ⟨r, hP.1 r hr, ha⟩
  have hsorted : P.Pairwise fun r s => r.table < s.table := by
    have hc : P.IsChain fun r s => r.table < s.table := by
      obtain ⟨hmem, hch⟩ := hP
      clear hm
      induction P with
      | nil => exact .nil
      | cons r P ih =>
        obtain ⟨c1, c2⟩ := List.isChain_cons.1 hch
        exact List.isChain_cons.2 ⟨fun y hy => hg r (hmem r List.mem_cons_self) _ (c1 y hy), ih (fun x hx => hmem x (List.mem_cons_of_mem _ hx)) c2⟩
    have : Trans (fun r s : Rule π => r.table < s.table) (fun r s : Rule π => r.table < s.table) (fun r s : Rule π => r.table < s.table) :=
      ⟨fun a b => Nat.lt_trans a b⟩
    exact List.isChain_iff_pairwise.1 hc
  refine ⟨fun g hx => ?_, ?_, ?_, ?_, fun v hv => ?_⟩
  · obtain ⟨r, hr, ha⟩ := hm hx
    exact (h1 r hr _ ha).1 g rfl
  · rw [List.filterMap_flatMap]
    obtain ⟨hmem, -⟩ := hP
    clear hm
    induction P with
    | nil => simp
    | cons r P ih =>
      obtain ⟨c1, c2⟩ := List.pairwise_cons.1 hsorted
      rw [List.flatMap_cons, List.nodup_append]
      refine ⟨h2 r (hmem r List.mem_cons_self), ih c2 fun x hx => hmem x (List.mem_cons_of_mem _ hx), ?_⟩
      rintro n hn m hm rfl
      obtain ⟨s, hs, hm⟩ := List.mem_flatMap.1 hm
      exact h3 r (hmem r List.mem_cons_self) s (hmem s (List.mem_cons_of_mem _ hs)) (c1 s hs) n hn hm
  · rintro ⟨e, he⟩
    obtain ⟨r, hr, ha⟩ := hm he
    exact absurd rfl ((h1 r hr _ ha).2.1 e)
  · rintro ⟨e, he⟩
    obtain ⟨r, hr, ha⟩ := hm he
    exact absurd rfl ((h1 r hr _ ha).2.2.1 e)
  · obtain ⟨r, hr, ha⟩ := hm hv
    exact (h1 r hr _ ha).2.2.2 v rfl

end OFE
