import Verif.Ruleset.TunnelSingle
import Verif.Ruleset.Agree

/-!
# Lemmas: the priority of the first match in a pipeline with pushes and pops
-/

namespace OFE

variable {π : Type}

/-- The first match of a packet is at least `K` above the other matches. -/
def Tops (K : Nat) (l : List (Rule π)) (p : Pkt) (c : Rule π) : Prop :=
  ∃ before after, l = before ++ c :: after ∧ c.mat.accepts p ∧ (∀ b ∈ before, ¬ b.mat.accepts p) ∧
    ∀ d ∈ after, d.mat.accepts p → d.priority + K ≤ c.priority

theorem Tops.hit {K : Nat} {l : List (Rule π)} {p : Pkt} {c : Rule π} (h : Tops K l p c) : FirstHit l p c := by
  obtain ⟨b, a, e, h1, h2, -⟩ := h
  exact ⟨b, a, e, h1, h2⟩

theorem tops_flatMap {K L : Nat} {l : List (Rule π)} {f : Rule π → List (Rule π)} {p : Pkt} {c r : Rule π} (h : Tops L l p c)
    (hr : Tops K (f c) p r) (hcr : c.priority ≤ r.priority)
    (hsub : ∀ a ∈ l, ∀ x ∈ f a, x.mat.accepts p → a.mat.accepts p ∧ x.priority + K ≤ a.priority + L) : Tops K (l.flatMap f) p r := by
  obtain ⟨b, a, rfl, h1, h2, h5⟩ := h
  obtain ⟨b', a', e, h3, h4, h6⟩ := hr
  refine ⟨b.flatMap f ++ b', a' ++ a.flatMap f, by simp [e], h3, fun x hx hxp => ?_, fun x hx hxp => ?_⟩
  · rcases List.mem_append.1 hx with hx | hx
    · obtain ⟨y, hy, hxy⟩ := List.mem_flatMap.1 hx
      exact h2 y hy (hsub y (by simp [hy]) x hxy hxp).1
    · exact h4 x hx hxp
  · rcases List.mem_append.1 hx with hx | hx
    · exact h6 x hx hxp
    · obtain ⟨y, hy, hxy⟩ := List.mem_flatMap.1 hx
      obtain ⟨i1, i2⟩ := hsub y (by simp [hy]) x hxy hxp
      have := h5 y hy i1
      omega

theorem tops_filterMap {K B : Nat} {l : List (Rule π)} {f : Rule π → Option (Rule π)} {p q : Pkt} {b r : Rule π} (h : Tops K l q b)
    (hb : f b = some r) (hr : r.mat.accepts p)
    (hsub : ∀ x ∈ l, ∀ y, f x = some y → y.priority = B + x.priority ∧ (y.mat.accepts p → x.mat.accepts q)) :
    Tops K (l.filterMap f) p r := by
  obtain ⟨u, v, rfl, h1, h2, h3⟩ := h
  refine ⟨u.filterMap f, v.filterMap f, by simp [List.filterMap_append, List.filterMap_cons, hb], hr, fun y hy hyp => ?_, fun y hy hyp => ?_⟩
  · obtain ⟨x, hx, hxy⟩ := List.mem_filterMap.1 hy
    exact h2 x hx ((hsub x (by simp [hx]) y hxy).2 hyp)
  · obtain ⟨x, hx, hxy⟩ := List.mem_filterMap.1 hy
    obtain ⟨i1, i2⟩ := hsub x (by simp [hx]) y hxy
    have := h3 x hx (i2 hyp)
    have := (hsub b (by simp) r hb).1
    omega

theorem tops_of_apart {K : Nat} {l : List (Rule π)} (h : Apart K l) {p : Pkt} {c : Rule π} (hc : FirstHit l p c) : Tops K l p c := by
  obtain ⟨b, a, rfl, h1, h2⟩ := hc
  exact ⟨b, a, rfl, h1, h2, fun d hd hdp => (List.pairwise_cons.1 (List.pairwise_append.1 h).2.1).1 d hd ⟨p, h1, hdp⟩⟩

/-- Invariant of the loop, with priorities. -/
def TTop (R : List (Rule π)) (K : Nat) (l : List (Rule π)) : Prop :=
  ∀ p, HeadersKnown R p → ∃ c rs, Tops K l p c ∧ TRep R c rs ∧ Leads R 0 (St.enter p) rs c.inst.goto

theorem ttop_step {R : List (Rule π)} (h : TLoopOK R) {K M num : Nat} {l : List (Rule π)} (hM : 0 < M)
    (hn : ∃ r ∈ R, r.table = num) (hrep : ∀ c ∈ l, ∃ rs, TRep R c rs) (hi : TTop R (K * M) l) (openflow : Bool)
    (h2 : Apart K (tableRules R num)) (h3 : ∀ b ∈ tableRules R num, b.priority + K ≤ K * M) :
    TTop R K (l.flatMap fun a => if a.inst.goto = some num then (tableRules R num).filterMap (merged? a openflow) else [a]) := by
  have hKM : K ≤ K * M := Nat.le_mul_of_pos_right K hM
  intro p hp
  obtain ⟨c, rs, hfm, hr, hl⟩ := hi p hp
  have hsub : ∀ a ∈ l, ∀ x ∈ (if a.inst.goto = some num then (tableRules R num).filterMap (merged? a openflow) else [a]),
      x.mat.accepts p → a.mat.accepts p ∧ x.priority + K ≤ a.priority + K * M := by
    intro a ha x hx hxp
    obtain ⟨rs, hr⟩ := hrep a ha
    split at hx
    · next hgo =>
      obtain ⟨b, hb, hm⟩ := List.mem_filterMap.1 hx
      have hb' := mem_tableRules.1 hb
      obtain ⟨-, -, f3, -, f5⟩ := merged_t h hr hgo hb'.1 hb'.2 hm
      have := h3 b hb
      exact ⟨f3 p hxp, by omega⟩
    · simp at hx; subst hx; exact ⟨hxp, by omega⟩
  have hcp : c.mat.accepts p := by obtain ⟨_, _, _, h1, _⟩ := hfm; exact h1
  by_cases hgo : c.inst.goto = some num
  · have hne : c.inst.goto ≠ none := by rw [hgo]; simp
    have hkn := known_t hr hp hl hne
    have hfw : c.inst.forward p = (runAll rs (St.enter p)).pkt := (hr.run (St.enter p)).1
    obtain ⟨r0, hr0, hrt⟩ := hn
    obtain ⟨s, hs, hst, hsp⟩ := h.covered r0 hr0 (c.inst.forward p)
    obtain ⟨b, hb⟩ := exists_firstHit (l := tableRules R num) ⟨s, mem_tableRules.2 ⟨hs, hst.trans hrt⟩, hsp⟩
    have hbR := mem_tableRules.1 hb.mem
    have hbp : b.mat.accepts (c.inst.forward p) := by obtain ⟨_, _, _, h1, _⟩ := hb; exact h1
    obtain ⟨r, hm⟩ : ∃ r, merged? c openflow b = some r := by
      rcases merge_t h hr hgo hbR.1 hbR.2 openflow with ⟨r, e, -⟩ | ⟨-, hno⟩
      · exact ⟨_, by unfold merged?; rw [e]⟩
      · exact absurd ⟨hcp, hbp⟩ (hno p hkn)
    obtain ⟨f1, f2, f3, f4, f5⟩ := merged_t h hr hgo hbR.1 hbR.2 hm
    have hrp : r.mat.accepts p := (f4 p hkn).2 ⟨hcp, hbp⟩
    refine ⟨r, rs ++ [b], tops_flatMap hfm ?_ (by omega) hsub, f1, ?_⟩
    · rw [if_pos hgo]
      refine tops_filterMap (B := c.priority) (tops_of_apart h2 hb) hm hrp fun x hx y hy => ?_
      have hx' := mem_tableRules.1 hx
      have := merged_t h hr hgo hx'.1 hx'.2 hy
      exact ⟨this.2.2.2.2, fun hyp => ((this.2.2.2.1 p hkn).1 hyp).2⟩
    · rw [f2]
      rw [hgo] at hl
      refine .snoc hl ?_
      rw [← hfw]
      exact hb.hits
  · refine ⟨c, rs, tops_flatMap hfm ?_ (Nat.le_refl _) hsub, hr, hl⟩
    rw [if_neg hgo]
    exact ⟨[], [], rfl, hcp, by simp, by simp⟩

theorem ttop_loop {R : List (Rule π)} (h : TLoopOK R) {tables : List Nat} (hd : Separate R) (hs : ScaledFor tables R)
    (hsort : tables.Pairwise (· < ·)) (openflow : Bool) : ∀ (rem pre : List Nat) (l res : List (Rule π)), pre ++ rem = tables →
    (∀ n ∈ rem, ∃ r ∈ R, r.table = n) →
    TTop R (maxPriority ^ rem.length) l → (∀ c ∈ l, ∃ rs, TRep R c rs) →
    rem.foldlM (fun acc n => condense acc (tableRules R n) n openflow) l = .ok res → TTop R 1 res
  | [], pre, l, res, _, _, hg, _, h => by cases h; simpa using hg
  | num :: rem, pre, l, res, he, hex, hg, hrep, hres => by
    rw [List.foldlM_cons, condense_t h hrep] at hres
    obtain ⟨t1, t2⟩ := table_apart hd hs num
    have hp : tablePower tables num = rem.length := by rw [← he]; exact tablePower_mid (he ▸ hsort)
    rw [hp] at t1 t2
    refine ttop_loop h hd hs hsort openflow rem (pre ++ [num]) _ res (by simp [he]) (fun n hn => hex n (List.mem_cons_of_mem _ hn)) ?_ ?_ hres
    · exact ttop_step h maxPriority_pos (hex num List.mem_cons_self) hrep (by rw [List.length_cons, Nat.pow_succ] at hg; exact hg) openflow t1 t2
    · intro c hc
      obtain ⟨a, ha, hca⟩ := List.mem_flatMap.1 hc
      obtain ⟨rs, hr⟩ := hrep a ha
      split at hca
      · next hgo =>
        obtain ⟨b, hb, hm⟩ := List.mem_filterMap.1 hca
        have hb' := mem_tableRules.1 hb
        exact ⟨_, (merged_t h hr hgo hb'.1 hb'.2 hm).1⟩
      · simp at hca; subst hca; exact ⟨rs, hr⟩

theorem single_tops {rules : List (Rule Nat)} (h : PipelineOK rules) (hf : TunnelPipeline rules) (hd : Separate rules) {openflow : Bool}
    {cs : List (Rule Nat)} (hcs : toSingleTable rules openflow = .ok cs) : TTop (prepared rules) 1 cs := by
  obtain ⟨rem, hT, e⟩ := toSingleTable_eq h.prio h.zero openflow
  rw [e] at hcs
  obtain ⟨hd', hs'⟩ := prepared_separate hd h.prio
  have hsort := tablesOf_sorted rules
  have t1 := (table_apart hd' hs' 0).1
  have t2 : tablePower (tablesOf rules) 0 = rem.length := by
    rw [hT] at hsort ⊢; exact tablePower_mid (pre := []) hsort
  rw [t2] at t1
  have hl := tloopOK h hf
  have hst : TInv (prepared rules) (tablesOf rules) (tableRules (prepared rules) 0) :=
    tinv_start hl (prepared_table h.path (by rw [hT]; simp)) fun r hr _ n hn => (prepared_goto h hr hn).2
  refine ttop_loop hl hd' hs' hsort openflow rem [0] _ cs (by rw [hT]; rfl) (fun n hn => prepared_table h.path (by rw [hT]; simp [hn])) ?_
    hst.rep hcs
  intro p hp
  obtain ⟨c, rs, h1, h2, h3⟩ := hst.first p hp
  exact ⟨c, rs, tops_of_apart t1 h1, h2, h3⟩

end OFE
