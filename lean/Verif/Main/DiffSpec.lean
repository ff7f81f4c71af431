import Verif.Main.DiffLemmas
import Verif.Props.Main
import Verif.Props.Ruleset
import Verif.Props.Cudd

/-!
# Lemmas for `-D`: what is found for two forms
-/

namespace OFE
open DD

theorem Separate.sorted {π : Type} {rules : List (Rule π)} (h : Separate rules) : Separate (sortRuleset rules) :=
  ((sortRuleset_perm rules).pairwise_iff (R := fun r s : Rule π => r.table = s.table → r.priority = s.priority → ¬ ∃ p, r.mat.accepts p ∧ s.mat.accepts p)
    (fun {a b} hab h1 h2 ⟨p, h3, h4⟩ => hab h1.symm h2.symm ⟨p, h4, h3⟩)).2 h

theorem Separate.noTies {π : Type} {rules : List (Rule π)} (h : Separate rules) : NoTies rules := by
  induction rules with
  | nil => intro r hr; cases hr
  | cons x rules ih =>
    obtain ⟨h1, h2⟩ := List.pairwise_cons.1 h
    intro r hr s hs ht hp hex
    obtain ⟨p, pr, ps⟩ := hex
    rcases List.mem_cons.1 hr with rfl | _
    · rcases List.mem_cons.1 hs with rfl | hs
      · rfl
      · exact absurd ⟨p, pr, ps⟩ (h1 s hs ht hp)
    · rename_i hr'
      rcases List.mem_cons.1 hs with rfl | hs
      · exact absurd ⟨p, ps, pr⟩ (h1 r hr' ht.symm hp.symm)
      · exact ih h2 r hr' s hs ht hp ⟨p, pr, ps⟩

/-- A rule that some packet matches has one position. -/
theorem Separate.position {π : Type} {rules : List (Rule π)} (h : Separate rules) {i j : Nat} {r : Rule π} (hi : rules[i]? = some r)
    (hj : rules[j]? = some r) {p : Pkt} (hp : r.mat.accepts p) : i = j := by
  have key : ∀ {i j : Nat}, rules[i]? = some r → rules[j]? = some r → ¬ i < j := by
    intro i j hi hj hij
    obtain ⟨h1, e1⟩ := List.getElem?_eq_some_iff.1 hi
    obtain ⟨h2, e2⟩ := List.getElem?_eq_some_iff.1 hj
    have := List.pairwise_iff_getElem.1 h i j h1 h2 hij
    rw [e1, e2] at this
    exact this rfl rfl ⟨p, hp, hp⟩
  have := key hi hj
  have := key hj hi
  omega

theorem runs_accepts {π : Type} {rules : List (Rule π)} {t : Nat} {s s' : St} {rs : List (Rule π)} (h : Runs rules t s rs s') :
    ∀ r ∈ rs, ∃ p, r.mat.accepts p := by
  induction h with
  | last h1 _ => intro r hr; simp only [List.mem_singleton] at hr; subst hr; exact ⟨_, h1.2.2.1⟩
  | next h1 _ _ ih =>
    intro r hr
    rcases List.mem_cons.1 hr with rfl | hr
    · exact ⟨_, h1.2.2.1⟩
    · exact ih r hr

theorem positions_unique {π : Type} {S : List (Rule π)} (h : Separate S) : ∀ {rs : List (Rule π)} {o o' : List Nat},
    (∀ r ∈ rs, ∃ p, r.mat.accepts p) → o.map (S[·]?) = rs.map some → o'.map (S[·]?) = rs.map some → o = o'
  | [], o, o', _, h1, h2 => by
    rw [List.map_nil, List.map_eq_nil_iff] at h1 h2
    rw [h1, h2]
  | r :: rs, o, o', hp, h1, h2 => by
    cases o with
    | nil => cases h1
    | cons i o =>
      cases o' with
      | nil => cases h2
      | cons j o' =>
        simp only [List.map_cons, List.cons.injEq] at h1 h2
        obtain ⟨p, hr⟩ := hp r List.mem_cons_self
        rw [h.position h1.1 h2.1 hr, positions_unique h (fun x hx => hp x (List.mem_cons_of_mem _ hx)) h1.2 h2.2]

/-- Sorting a single table by priority does not change which rule a packet hits first. -/
theorem sorted_firstHit {rules cs : List (Rule Nat)} (h : PipelineOK rules) (hf : FlatPipeline rules) (hd : Separate rules)
    (e : toSingleTable rules true = .ok cs) (hz : ∀ c ∈ cs, c.table = 0) {p : Pkt} {c : Rule Nat} (hc : FirstHit cs p c) :
    FirstHit (sortRuleset cs) p c := by
  obtain ⟨b, a, hcs, h1, h2⟩ := hc
  have hag := C30_agree_partial rules h hf hd true cs e p b a c hcs h1 h2
  have hcm : c ∈ sortRuleset cs := mem_sortRuleset.2 (by rw [hcs]; simp)
  obtain ⟨r, hr⟩ := exists_firstHit ⟨c, hcm, h1⟩
  obtain ⟨b', a', e', r1, r2⟩ := hr
  have hrm : r ∈ cs := mem_sortRuleset.1 (by rw [e']; simp)
  have hor : r = c ∨ r ∈ b ++ a := by
    rw [hcs] at hrm
    rcases List.mem_append.1 hrm with hm | hm
    · exact .inr (by simp [hm])
    · rcases List.mem_cons.1 hm with rfl | hm
      · exact .inl rfl
      · exact .inr (by simp [hm])
  rcases hor with rfl | hor
  · exact ⟨b', a', e', r1, r2⟩
  · have hlt := hag r hor r1
    rw [e'] at hcm
    rcases List.mem_append.1 hcm with hm | hm
    · exact absurd h1 (r2 c hm)
    · rcases List.mem_cons.1 hm with rfl | hm
      · omega
      · have hp := (C58_sorted cs).2.1
        rw [e'] at hp
        have := (List.pairwise_cons.1 (List.pairwise_append.1 hp).2.1).1 c hm
        have z1 := hz r hrm
        have z2 := hz c (by rw [hcs]; simp)
        omega

/-- What the entry for a rule says. -/
structure PathEntry (r : Rule Nat) (e : Nat × List Nat) : Prop where
  covers : ∀ p : Pkt, Covers totBits e.1 p.hdr ↔ r.mat.accepts p
  valid : WcValid totBits e.1
  free : FreeBelow (fieldPos 39) e.1
  path : e.2 = r.path

theorem pathEntries_spec {rules : List (Rule Nat)} (h : ∀ r ∈ rules, PlainRule r) (hz : ∀ r ∈ rules, r.table = 0) :
    ∃ es, pathEntries rules = .ok es ∧ List.Forall₂ PathEntry rules es := by
  unfold pathEntries
  induction rules with
  | nil => exact ⟨[], rfl, .nil⟩
  | cons r rules ih =>
    obtain ⟨es, e1, e2⟩ := ih (fun x hx => h x (List.mem_cons_of_mem _ hx)) fun x hx => hz x (List.mem_cons_of_mem _ hx)
    have hr := h r (by simp)
    have hk : ∀ x ∈ r.mat.items, x.1 < 56 := fun x hx => by have := hr.ok.keys x hx; omega
    obtain ⟨w, m', f1, f2, f3⟩ := Deps.getWildcard_spec hr.ok.inv hk
    refine ⟨(w, r.path) :: es, ?_, .cons ⟨fun p => f3 p.hdr, f2, ?_, rfl⟩ e2⟩
    · rw [List.mapM_cons, if_pos (hz r (by simp)), f1, e1]; rfl
    · have := getWildcard_eq hr.ok.inv
      rw [f1] at this
      exact freeBelow_match hr.ok.keys this.symm

theorem firstHit_entries {rules : List (Rule Nat)} {es : List (Nat × List Nat)} (h : List.Forall₂ PathEntry rules es) {p : Pkt} {c : Rule Nat}
    (hc : FirstHit rules p c) : FirstMatch totBits p.hdr es (some c.path) := by
  obtain ⟨b, a, rfl, h1, h2⟩ := hc
  induction b generalizing es with
  | nil =>
    match es, h with
    | (w, q) :: es, .cons hx _ =>
      obtain rfl : q = c.path := hx.path
      exact .hit ((hx.covers p).2 h1)
  | cons x b ih =>
    match es, h with
    | (w, q) :: es, .cons hx hrest =>
      exact .miss (fun hcov => h2 x List.mem_cons_self ((hx.covers p).1 hcov)) (ih hrest fun y hy => h2 y (List.mem_cons_of_mem _ hy))

theorem firstMatch_outer {n m : Nat} {α : Type} {l : List (Nat × α)} (hl : ∀ e ∈ l, FreeBelow m e.1) {p q : Packet}
    (hpq : ∀ i, m ≤ i → i < n → p i = q i) {x : Option α} (h : FirstMatch n p l x) : FirstMatch n q l x := by
  induction h with
  | nil => exact .nil
  | hit h => exact .hit ((covers_free (hl _ List.mem_cons_self) hpq).1 h)
  | miss h _ ih =>
    exact .miss (fun h' => h ((covers_free (hl _ List.mem_cons_self) hpq).2 h')) (ih fun e he => hl e (List.mem_cons_of_mem _ he))

theorem FormIn.wf {s : List Label} {A : List (Rule Nat)} {t : DD Nat} (h : FormIn s A t) : WF totBits 0 t ∧ WF (totBits - fieldPos 39) 0 t := by
  obtain ⟨_, _, _, _, _, _, _, hf⟩ := h.single
  exact ⟨hf.wf, hf.outer⟩

theorem lookup_pktOf {t : DD Nat} (h : WF (totBits - fieldPos 39) 0 t) (q : Packet) : t.lookup totBits q = t.lookup totBits (pktOf q).hdr := by
  unfold lookup
  apply eval_congr h
  intro i _ hi
  exact (pktOf_hdr q (by omega) (by omega)).symm

theorem FormIn.some {s : List Label} {A : List (Rule Nat)} {t : DD Nat} (h : FormIn s A t) (q : Packet) : t.lookup totBits q ≠ none := by
  obtain ⟨cs, e, -⟩ := h.single
  obtain ⟨c, l, L, i, -, -, -, h1, -⟩ := h.packet e (pktOf q)
  rw [lookup_pktOf h.wf.2, h1]
  simp

/-- The packet is labelled differently by the single tables. -/
def DiffLabels (cs ds : List (Rule Nat)) (p : Pkt) (c d : Rule Nat) : Prop :=
  FirstHit cs p c ∧ FirstHit ds p d ∧ ∃ L M, c.label = .ok L ∧ d.label = .ok M ∧ L ≠ M

/-- The single table of a good pipeline. -/
theorem good_single {A : List (Rule Nat)} (h : GoodPipeline A) {cs : List (Rule Nat)} (e : toSingleTable (sortRuleset A) true = .ok cs) :
    ((∀ c ∈ cs, PlainRule c) ∧ ∀ c ∈ cs, c.table = 0) ∧ (cs.map (·.path)).Nodup ∧ ∀ c ∈ cs, c.path ≠ [] := by
  have hflat : FlatPipeline (sortRuleset A) := fun r hr hg => h.flat r (mem_sortRuleset.1 hr) hg
  exact ⟨single_plain h.ok.sorted hflat h.plain.sorted e, single_paths h.ok.sorted.prio h.ok.sorted.zero h.ok.sorted.path e⟩

theorem conflictingRules_spec {s : List Label} {A B : List (Rule Nat)} (gA : GoodPipeline A) (gB : GoodPipeline B) (sA : Separate A)
    (sB : Separate B) {t u : DD Nat} (fA : FormIn s A t) (fB : FormIn s B u) {cs ds : List (Rule Nat)}
    (ec : toSingleTable (sortRuleset A) true = .ok cs) (ed : toSingleTable (sortRuleset B) true = .ok ds) :
    ∃ res, conflictingRules (Cudd.difference 1 t u) cs ds = .ok res ∧
      ∀ o x, (∃ l, (o, l) ∈ res ∧ x ∈ l) ↔ ∃ p c d, p.Sized ∧ DiffLabels cs ds p c d ∧ c.path = o ∧ d.path = x := by
  obtain ⟨⟨pc, zc⟩, nc, ec0⟩ := good_single gA ec
  obtain ⟨⟨pd, zd⟩, nd, ed0⟩ := good_single gB ed
  obtain ⟨es, e1, f1⟩ := pathEntries_spec (rules := sortRuleset cs) (fun r hr => pc r (mem_sortRuleset.1 hr)) fun r hr => zc r (mem_sortRuleset.1 hr)
  obtain ⟨es', e2, f2⟩ := pathEntries_spec (rules := sortRuleset ds) (fun r hr => pd r (mem_sortRuleset.1 hr)) fun r hr => zd r (mem_sortRuleset.1 hr)
  have hmem : ∀ {rules : List (Rule Nat)} {es : List (Nat × List Nat)}, List.Forall₂ PathEntry rules es →
      es.map (·.2) = rules.map (·.path) ∧ ∀ e ∈ es, WcValid totBits e.1 ∧ FreeBelow (fieldPos 39) e.1 := by
    intro rules es h
    induction h with
    | nil => simp
    | cons h _ ih =>
      refine ⟨by rw [List.map_cons, List.map_cons, ih.1, h.path], fun e he => ?_⟩
      rcases List.mem_cons.1 he with rfl | he
      · exact ⟨h.valid, h.free⟩
      · exact ih.2 e he
  have hdiff : Cudd.difference 1 t u = DD.difference 1 t u := (Cudd.C05_C07_cudd_same totBits 1 t u fA.wf.1 fB.wf.1).2.2.2
  have hex : ∀ p, (DD.difference 1 t u).lookup totBits p = some 1 ↔ t.lookup totBits p ≠ u.lookup totBits p :=
    C07_difference_exact_partial totBits 1 t u fA.wf.1 fB.wf.1 fun p hp => absurd hp (fA.some p)
  have hpart := C07_difference_partial totBits 1 t u fA.wf.1 fB.wf.1
  obtain ⟨res, r1, r2⟩ := C33_find_conflicting_paths totBits (by decide) 1 [] es es' (fun e he => ((hmem f1).2 e he).1)
    (fun e he => ((hmem f2).2 e he).1)
    (by rw [(hmem f1).1]; exact ((sortRuleset_perm cs).map _).nodup_iff.2 nc)
    (by
      rw [(hmem f1).1]
      intro hm
      obtain ⟨r, hr, h0⟩ := List.mem_map.1 hm
      exact ec0 r (mem_sortRuleset.1 hr) h0)
    (DD.difference 1 t u) hpart.1 (fun p => by
      cases hv : (DD.difference 1 t u).lookup totBits p with
      | none => exact .inl rfl
      | some x => exact .inr (by rw [(hpart.2.2 p).2.2 x hv]))
  refine ⟨res, ?_, fun o x => ?_⟩
  · unfold conflictingRules
    rw [e1, e2, hdiff]
    exact r1
  · have hflat : ∀ {X : List (Rule Nat)}, GoodPipeline X → FlatPipeline (sortRuleset X) := fun g r hr hg => g.flat r (mem_sortRuleset.1 hr) hg
    have hlab : ∀ p : Pkt, ∀ c d, FirstHit cs p c → FirstHit ds p d →
        (t.lookup totBits p.hdr ≠ u.lookup totBits p.hdr ↔ ∃ L M, c.label = .ok L ∧ d.label = .ok M ∧ L ≠ M) := by
      intro p c d hc hd
      obtain ⟨c', l, L, i, a1, a2, ⟨-, a3⟩, a4, a5⟩ := fA.packet ec p
      obtain ⟨d', m, M, j, b1, b2, ⟨-, b3⟩, b4, b5⟩ := fB.packet ed p
      cases hc.unique a1
      cases hd.unique b1
      rw [a4, b4]
      constructor
      · intro hne
        refine ⟨L, M, a3, b3, ?_⟩
        rintro rfl
        rw [a5] at b5
        cases b5
        exact hne rfl
      · rintro ⟨L', M', h1, h2, h3⟩ he
        rw [a3] at h1; rw [b3] at h2
        cases h1; cases h2; cases he
        exact h3 (session_inj s a5 b5)
    rw [r2 o x]
    constructor
    · rintro ⟨q, hq, ⟨y, hy, rfl⟩, ⟨z, hz, rfl⟩⟩
      have hagree : ∀ i, fieldPos 39 ≤ i → i < totBits → q i = (pktOf q).hdr i := fun i h1 h2 => (pktOf_hdr q h1 h2).symm
      have hy' := firstMatch_outer (fun e he => ((hmem f1).2 e he).2) hagree hy
      have hz' := firstMatch_outer (fun e he => ((hmem f2).2 e he).2) hagree hz
      obtain ⟨c, -, -, -, a1, -⟩ := fA.packet ec (pktOf q)
      obtain ⟨d, -, -, -, b1, -⟩ := fB.packet ed (pktOf q)
      cases (firstHit_entries f1 (sorted_firstHit gA.ok.sorted (hflat gA) sA.sorted ec zc a1)).unique hy'
      cases (firstHit_entries f2 (sorted_firstHit gB.ok.sorted (hflat gB) sB.sorted ed zd b1)).unique hz'
      refine ⟨pktOf q, c, d, pktOf_sized q, ⟨a1, b1, (hlab _ c d a1 b1).1 ?_⟩, rfl, rfl⟩
      rw [← lookup_pktOf fA.wf.2, ← lookup_pktOf fB.wf.2]
      exact (hex q).1 hq
    · rintro ⟨p, c, d, -, ⟨a1, b1, hne⟩, rfl, rfl⟩
      exact ⟨p.hdr, (hex p.hdr).2 ((hlab p c d a1 b1).2 hne),
        ⟨_, firstHit_entries f1 (sorted_firstHit gA.ok.sorted (hflat gA) sA.sorted ec zc a1), rfl⟩,
        ⟨_, firstHit_entries f2 (sorted_firstHit gB.ok.sorted (hflat gB) sB.sorted ed zd b1), rfl⟩⟩

end OFE
