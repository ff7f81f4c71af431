import Verif.Ruleset.Lemmas

/-!
# Lemmas: the loop over the tables
-/

namespace OFE

theorem merge_mem {a b r : Inst} (ha : InstOK a) (hb : InstOK b) (h : a.merge b = .ok r) :
    ∀ x ∈ r.apply.iter, x ∈ a.apply.iter ∨ x ∈ b.apply.iter := by
  obtain ⟨⟨s1, k1, e1⟩, -⟩ := ha
  obtain ⟨⟨s2, k2, e2⟩, -⟩ := hb
  have hk2 := known_iter k2 e2
  have hadd : a.apply.add b.apply = ActionList.ofList (s1 ++ b.apply.iter) := by
    unfold ActionList.add ActionList.copy ActionList.ofList
    rw [List.foldlM_append]
    unfold ActionList.ofList at e1
    rw [e1]; rfl
  have hks : AllKnown (s1 ++ b.apply.iter) := by
    intro x hx
    rcases List.mem_append.1 hx with h | h
    · exact k1 x h
    · exact hk2 x h
  have hap : r.apply = mkList (s1 ++ b.apply.iter) := by
    unfold Inst.merge at h
    simp only [hadd, ofList_known hks, bind, Except.bind, pure, Except.pure] at h
    split at h
    · injection h with h; rw [← h]
    · split at h
      · cases h
      · injection h with h; rw [← h]
  intro x hx
  rw [hap] at hx
  have := (mkList_iter_trace (s1 ++ b.apply.iter)).perm.mem_iff.2 hx
  rcases List.mem_append.1 this with h1 | h1
  · left
    have hl := ofList_ok e1
    rw [hl]
    exact (mkList_iter_trace s1).perm.mem_iff.1 h1
  · exact .inr h1

theorem merged_some {π : Type} {a b r : Rule π} {openflow : Bool} (h : merged? a openflow b = some r) :
    ∃ r0, a.merge b openflow = .ok r0 ∧ r = { r0 with path := a.path ++ b.path } := by
  unfold merged? at h
  split at h
  · next r0 e => injection h with h; exact ⟨r0, e, h.symm⟩
  · cases h

/-- Facts about a merged rule with path. -/
theorem merged_facts {π : Type} {a b r : Rule π} {openflow : Bool} (ha : RuleOK a) (hb : RuleOK b) (hf : FlatActs a.inst.apply.iter)
    (hm : NoMeta b.inst.apply.iter) (h : merged? a openflow b = some r) :
    RuleOK r ∧ r.path = a.path ++ b.path ∧ r.priority = a.priority + b.priority ∧ r.inst.goto = b.inst.goto ∧
    (∀ p, r.mat.accepts p ↔ a.mat.accepts p ∧ b.mat.accepts (a.inst.forward p)) ∧
    (∀ x ∈ r.inst.apply.iter, x ∈ a.inst.apply.iter ∨ x ∈ b.inst.apply.iter) ∧
    ∀ s, StEq (r.inst.run s) (b.inst.run (a.inst.run s)) := by
  obtain ⟨r0, e, rfl⟩ := merged_some h
  rcases merge_cases ha hb hf openflow with ⟨r1, i, e', ei, hi, hok, -, hacc, hp, -⟩ | ⟨e', -⟩
  · rw [e] at e'; cases e'
    have hg := (C27_merge_instructions a b r0 ha hb hm openflow e ⟨⟨fun _ _ => 0, fun _ => 0, 0, fun _ => 0, 0, 0⟩, [], []⟩).2.2.2
    refine ⟨⟨hok.inv, hok.keys, hok.apply, hok.write⟩, rfl, hp, hg, hacc, ?_, fun s => merge_stEq ha hb hm e s⟩
    have : r0.inst.apply = i.apply := by rw [hi]
    simp only [this]
    exact merge_mem ha.inst hb.inst ei
  · rw [e] at e'; cases e'

/-- If both accept, there is a merged rule. -/
theorem merged_exists {π : Type} {a b : Rule π} (openflow : Bool) (ha : RuleOK a) (hb : RuleOK b) (hf : FlatActs a.inst.apply.iter) {p : Pkt}
    (h1 : a.mat.accepts p) (h2 : b.mat.accepts (a.inst.forward p)) : ∃ r, merged? a openflow b = some r := by
  rcases merge_cases ha hb hf openflow with ⟨r, i, e, -⟩ | ⟨e, hno⟩
  · exact ⟨_, by unfold merged?; rw [e]⟩
  · exact absurd ⟨h1, h2⟩ (hno p)

/-- What the loop needs of the rules (scaled, with paths and defaults). -/
structure LoopOK {π : Type} (R : List (Rule π)) : Prop where
  ok : ∀ r ∈ R, RuleOK r
  noMeta : ∀ r ∈ R, NoMeta r.inst.apply.iter
  flat : FlatPipeline R
  covered : ∀ r ∈ R, ∀ p, ∃ s ∈ R, s.table = r.table ∧ s.mat.accepts p

/-- Invariant of the loop: `rem` are the tables still to come. -/
structure CInv {π : Type} (R : List (Rule π)) (t : Nat) (rem : List Nat) (l : List (Rule π)) : Prop where
  rep : ∀ c ∈ l, ∃ rs, Rep c rs ∧ (∀ r ∈ rs, r ∈ R)
  goto : ∀ c ∈ l, ∀ n, c.inst.goto = some n → n ∈ rem
  first : ∀ p, ∃ c rs, FirstHit l p c ∧ Rep c rs ∧ Leads R t (St.enter p) rs c.inst.goto

theorem rep_one {π : Type} {R : List (Rule π)} (h : LoopOK R) {r : Rule π} (hr : r ∈ R) : Rep r [r] :=
  ⟨h.ok r hr, by simp, h.flat r hr, by simp, by simp, fun s => .refl _⟩

theorem Leads.mem {π : Type} {R : List (Rule π)} {t : Nat} {s : St} {rs : List (Rule π)} {g : Option Nat} (h : Leads R t s rs g) :
    ∀ r ∈ rs, r ∈ R := by
  induction h with
  | one h => simpa using h.1
  | snoc h1 h2 ih =>
    intro r hr
    rcases List.mem_append.1 hr with hr | hr
    · exact ih r hr
    · simp at hr; subst hr; exact h2.1

theorem cinv_start {π : Type} {R : List (Rule π)} (h : LoopOK R) {t : Nat} (ht : ∃ r ∈ R, r.table = t) {rem : List Nat}
    (hg : ∀ r ∈ R, r.table = t → ∀ n, r.inst.goto = some n → n ∈ rem) : CInv R t rem (tableRules R t) := by
  refine ⟨fun c hc => ?_, fun c hc => ?_, fun p => ?_⟩
  · have hc := mem_tableRules.1 hc
    exact ⟨[c], rep_one h hc.1, by simpa using hc.1⟩
  · have hc := mem_tableRules.1 hc
    exact hg c hc.1 hc.2
  · obtain ⟨r, hr, hrt⟩ := ht
    obtain ⟨s, hs, hst, hsp⟩ := h.covered r hr p
    obtain ⟨c, hc⟩ := exists_firstHit (l := tableRules R t) ⟨s, mem_tableRules.2 ⟨hs, hst.trans hrt⟩, hsp⟩
    exact ⟨c, [c], hc, rep_one h (mem_tableRules.1 hc.mem).1, .one hc.hits⟩

theorem rep_merge {π : Type} {R : List (Rule π)} (h : LoopOK R) {c b r : Rule π} {rs : List (Rule π)} {openflow : Bool} (hc : Rep c rs)
    (hg : c.inst.goto ≠ none) (hb : b ∈ R) (hm : merged? c openflow b = some r) : Rep r (rs ++ [b]) := by
  obtain ⟨h1, h2, h3, h4, h5, h6, h7⟩ := merged_facts hc.ok (h.ok b hb) (hc.flat hg) (h.noMeta b hb) hm
  refine ⟨h1, by simp, fun hgr => ?_, ?_, ?_, fun s => ?_⟩
  · rw [h4] at hgr
    intro x hx
    rcases h6 x hx with hx | hx
    · exact hc.flat hg x hx
    · exact h.flat b hb hgr x hx
  · rw [h2, hc.path]; simp
  · rw [h3, hc.prio]; simp
  · rw [runAll_append]
    exact (h7 s).trans ((hc.run s).run b.inst)

theorem cinv_step {π : Type} {R : List (Rule π)} (h : LoopOK R) {t num : Nat} {rem : List Nat} {l : List (Rule π)}
    (hn : ∃ r ∈ R, r.table = num) (hg : ∀ r ∈ R, r.table = num → ∀ n, r.inst.goto = some n → n ∈ rem)
    (hi : CInv R t (num :: rem) l) (openflow : Bool) :
    condense l (tableRules R num) num openflow = .ok (l.flatMap fun a =>
      if a.inst.goto = some num then (tableRules R num).filterMap (merged? a openflow) else [a]) ∧
    CInv R t rem (l.flatMap fun a =>
      if a.inst.goto = some num then (tableRules R num).filterMap (merged? a openflow) else [a]) := by
  have hsec : ∀ b ∈ tableRules R num, RuleOK b := fun b hb => h.ok b (mem_tableRules.1 hb).1
  have hfst : ∀ a ∈ l, RuleOK a ∧ (a.inst.goto = some num → FlatActs a.inst.apply.iter) := by
    intro a ha
    obtain ⟨rs, hr, -⟩ := hi.rep a ha
    exact ⟨hr.ok, fun hgo => hr.flat (by rw [hgo]; simp)⟩
  refine ⟨condense_eq hfst hsec, ⟨?_, ?_, ?_⟩⟩
  · intro c hc
    obtain ⟨a, ha, hca⟩ := List.mem_flatMap.1 hc
    obtain ⟨rs, hr, hmem⟩ := hi.rep a ha
    split at hca
    · next hgo =>
      obtain ⟨b, hb, hm⟩ := List.mem_filterMap.1 hca
      have hb := mem_tableRules.1 hb
      refine ⟨rs ++ [b], rep_merge h hr (by rw [hgo]; simp) hb.1 hm, fun r hr => ?_⟩
      rcases List.mem_append.1 hr with hr | hr
      · exact hmem r hr
      · simp at hr; subst hr; exact hb.1
    · simp at hca; subst hca; exact ⟨rs, hr, hmem⟩
  · intro c hc n hcn
    obtain ⟨a, ha, hca⟩ := List.mem_flatMap.1 hc
    obtain ⟨rs, hr, hmem⟩ := hi.rep a ha
    split at hca
    · next hgo =>
      obtain ⟨b, hb, hm⟩ := List.mem_filterMap.1 hca
      have hb' := mem_tableRules.1 hb
      have := (merged_facts hr.ok (h.ok b hb'.1) (hr.flat (by rw [hgo]; simp)) (h.noMeta b hb'.1) hm).2.2.2.1
      rw [hcn] at this
      exact hg b hb'.1 hb'.2 n this.symm
    · next hgo =>
      simp at hca; subst hca
      have := hi.goto c ha n hcn
      rcases List.mem_cons.1 this with rfl | h'
      · exact absurd hcn hgo
      · exact h'
  · intro p
    obtain ⟨c, rs, hfm, hrep, hl⟩ := hi.first p
    have hsub : ∀ a ∈ l, ∀ x ∈ (if a.inst.goto = some num then (tableRules R num).filterMap (merged? a openflow) else [a]),
        x.mat.accepts p → a.mat.accepts p := by
      intro a ha x hx hxp
      obtain ⟨rs, hr, hmem⟩ := hi.rep a ha
      split at hx
      · next hgo =>
        obtain ⟨b, hb, hm⟩ := List.mem_filterMap.1 hx
        have hb' := mem_tableRules.1 hb
        exact (((merged_facts hr.ok (h.ok b hb'.1) (hr.flat (by rw [hgo]; simp)) (h.noMeta b hb'.1) hm).2.2.2.2.1 p).1 hxp).1
      · simp at hx; subst hx; exact hxp
    by_cases hgo : c.inst.goto = some num
    · have hne : c.inst.goto ≠ none := by rw [hgo]; simp
      have hcp : c.mat.accepts p := by obtain ⟨_, _, _, h1, _⟩ := hfm; exact h1
      have hfw : c.inst.forward p = (runAll rs (St.enter p)).pkt := (hrep.run (St.enter p)).1
      obtain ⟨r0, hr0, hrt⟩ := hn
      obtain ⟨s, hs, hst, hsp⟩ := h.covered r0 hr0 (c.inst.forward p)
      obtain ⟨b, hb⟩ := exists_firstHit (l := tableRules R num) ⟨s, mem_tableRules.2 ⟨hs, hst.trans hrt⟩, hsp⟩
      have hbR := mem_tableRules.1 hb.mem
      have hbp : b.mat.accepts (c.inst.forward p) := by obtain ⟨_, _, _, h1, _⟩ := hb; exact h1
      obtain ⟨r, hm⟩ := merged_exists openflow hrep.ok (h.ok b hbR.1) (hrep.flat hne) hcp hbp
      have hfacts := merged_facts hrep.ok (h.ok b hbR.1) (hrep.flat hne) (h.noMeta b hbR.1) hm
      have hrp : r.mat.accepts p := (hfacts.2.2.2.2.1 p).2 ⟨hcp, hbp⟩
      refine ⟨r, rs ++ [b], firstHit_flatMap hfm ?_ hsub, rep_merge h hrep hne hbR.1 hm, ?_⟩
      · rw [if_pos hgo]
        refine firstHit_filterMap hb hm hrp fun x hx y hy hyp => ?_
        have hx' := mem_tableRules.1 hx
        exact (((merged_facts hrep.ok (h.ok x hx'.1) (hrep.flat hne) (h.noMeta x hx'.1) hy).2.2.2.2.1 p).1 hyp).2
      · rw [hfacts.2.2.2.1]
        rw [hgo] at hl
        refine .snoc hl ?_
        rw [← hfw]
        exact hb.hits
    · refine ⟨c, rs, firstHit_flatMap hfm ?_ hsub, hrep, hl⟩
      rw [if_neg hgo]
      refine ⟨[], [], rfl, ?_, by simp⟩
      obtain ⟨_, _, _, h1, _⟩ := hfm; exact h1

theorem cinv_loop {π : Type} {R : List (Rule π)} (h : LoopOK R) {t : Nat} (openflow : Bool) : ∀ (rem : List Nat) (l : List (Rule π)),
    (∀ n ∈ rem, ∃ r ∈ R, r.table = n) → rem.Pairwise (· < ·) →
    (∀ r ∈ R, ∀ m ∈ rem, r.table = m → ∀ n, r.inst.goto = some n → m < n ∧ n ∈ rem) →
    CInv R t rem l →
    ∃ l', rem.foldlM (fun acc n => condense acc (tableRules R n) n openflow) l = .ok l' ∧ CInv R t [] l'
  | [], l, _, _, _, hi => ⟨l, rfl, hi⟩
  | num :: rem, l, h1, h2, h3, hi => by
    obtain ⟨h2a, h2b⟩ := List.pairwise_cons.1 h2
    obtain ⟨e, hi'⟩ := cinv_step h (h1 num List.mem_cons_self) (fun r hr hrt n hn => by
      obtain ⟨hlt, hm⟩ := h3 r hr num List.mem_cons_self hrt n hn
      rcases List.mem_cons.1 hm with rfl | hm
      · omega
      · exact hm) hi openflow
    obtain ⟨l', e', hi''⟩ := cinv_loop h openflow rem _ (fun n hn => h1 n (List.mem_cons_of_mem _ hn)) h2b (by
      intro r hr m hm hrt n hn
      obtain ⟨hlt, hmem⟩ := h3 r hr m (List.mem_cons_of_mem _ hm) hrt n hn
      refine ⟨hlt, ?_⟩
      rcases List.mem_cons.1 hmem with rfl | hmem
      · have := h2a m hm; omega
      · exact hmem) hi'
    exact ⟨l', by rw [List.foldlM_cons, e]; exact e', hi''⟩

end OFE
