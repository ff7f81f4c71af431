import Verif.Deps.Incremental

/-!
# Updating the affected edges, and the whole insertion
-/

namespace OFE
namespace Deps
open DD

variable {n : Nat}

theorem on_of_lookup {g : Dag} {r c : DRule} {b : BDD} (h : g.reaches.lookup ⟨r, c⟩ = some b) (p : Packet) :
    g.on n r c p ↔ Holds n b p := by unfold Dag.on; rw [h]; simp

theorem processEdge_spec (hn : 0 < n) {new : DRule} (hnew : WcValid n new.wc) {g : Dag} (hg : Good n g) {acc : BDD} (hacc : WF n 0 acc)
    {e : Edge} (he : ∃ p, g.on n e.child e.parent p) :
    ∃ acc' g', processEdge n new (acc, g) e = .ok (acc', g') ∧ WF n 0 acc' ∧ Good n g' ∧
      (∀ p, Holds n acc' p ↔ Holds n acc p ∨ (g.on n e.child e.parent p ∧ new.hits n p)) ∧
      ∀ r c p, g'.on n r c p ↔ g.on n r c p ∧ ¬ ((⟨r, c⟩ : Edge) = e ∧ new.hits n p) := by
  obtain ⟨k, v⟩ := e
  have hN := holds_bdd hn hnew
  obtain ⟨b, hb⟩ := Option.isSome_iff_exists.1 ((hg.some_iff k v).2 he)
  have hbw := (hg.labels _ _ hb).1
  have hon := on_of_lookup (n := n) hb
  unfold processEdge
  simp only [Dag.label, hb, bind, Except.bind, pure, Except.pure]
  by_cases h : Cudd.subtract b (new.bdd n) = bot
  · have hall : ∀ p, Holds n b p → new.hits n p := by
      intro p hp
      by_contra hc
      have := (holds_sub hbw hN.1 p).2 ⟨hp, fun h => hc ((hN.2 p).1 h)⟩
      rw [h] at this; exact not_holds_bot p this
    have hmem : k ∈ g.kids v := (hg.kids k v).2 (by simp [hb])
    rw [if_pos h, if_pos hmem]
    refine ⟨_, _, rfl, wf_add hacc hbw, ⟨?_, ?_, ?_⟩, ?_, ?_⟩
    · intro e' b' hb'
      simp only [lookup_dictDel] at hb'
      split at hb'
      · cases hb'
      · exact hg.labels _ _ hb'
    · intro r c
      rw [kids_set, lookup_dictDel]
      by_cases e : c = v
      · subst e
        rw [if_pos rfl, List.mem_filter, hg.kids]
        by_cases e' : r = k
        · subst e'; simp
        · simp [e']
      · rw [if_neg e, hg.kids, if_neg (by simp [e])]
    · intro c
      rw [kids_set]
      split
      · exact (hg.nodup _).filter _
      · exact hg.nodup _
    · intro p
      rw [holds_add hacc hbw, hon]
      constructor
      · rintro (h1 | h1)
        · exact .inl h1
        · exact .inr ⟨h1, hall p h1⟩
      · rintro (h1 | h1)
        · exact .inl h1
        · exact .inr h1.1
    · intro r c p
      by_cases e : (⟨r, c⟩ : Edge) = ⟨k, v⟩
      · rw [Edge.mk.injEq] at e
        obtain ⟨rfl, rfl⟩ := e
        constructor
        · rintro ⟨b', e', -⟩
          simp [lookup_dictDel] at e'
        · rintro ⟨h1, h2⟩
          exact absurd ⟨rfl, hall p ((hon p).1 h1)⟩ h2
      · unfold Dag.on
        simp only [lookup_dictDel, e, if_false, false_and, not_false_eq_true, and_true]
  · rw [if_neg h]
    have hiw := wf_inter hbw hN.1
    have hsw := wf_sub hbw hN.1
    refine ⟨_, _, rfl, wf_add hacc hiw, ⟨?_, ?_, hg.nodup⟩, ?_, ?_⟩
    · intro e' b' hb'
      simp only [lookup_dictSet] at hb'
      split at hb'
      · cases hb'; exact ⟨hsw, h⟩
      · exact hg.labels _ _ hb'
    · intro r c
      refine (hg.kids r c).trans ?_
      simp only [lookup_dictSet]
      split
      · next e => rw [Edge.mk.injEq] at e; obtain ⟨rfl, rfl⟩ := e; simp [hb]
      · rfl
    · intro p
      rw [holds_add hacc hiw, holds_inter hbw hN.1, hN.2, hon]
    · intro r c p
      unfold Dag.on
      simp only [lookup_dictSet]
      split
      · next e =>
        rw [Edge.mk.injEq] at e
        obtain ⟨rfl, rfl⟩ := e
        simp [hb, holds_sub hbw hN.1, hN.2]
      · next e => simp [e]

theorem processEdges_spec (hn : 0 < n) {new : DRule} (hnew : WcValid n new.wc) (l : List Edge) {g : Dag} (hg : Good n g) {acc : BDD}
    (hacc : WF n 0 acc) (hnd : l.Nodup) (hl : ∀ e ∈ l, ∃ p, g.on n e.child e.parent p) :
    ∃ acc' g', l.foldlM (processEdge n new) (acc, g) = .ok (acc', g') ∧ WF n 0 acc' ∧ Good n g' ∧
      (∀ p, Holds n acc' p ↔ Holds n acc p ∨ ∃ e ∈ l, g.on n e.child e.parent p ∧ new.hits n p) ∧
      ∀ r c p, g'.on n r c p ↔ g.on n r c p ∧ ¬ ((⟨r, c⟩ : Edge) ∈ l ∧ new.hits n p) := by
  induction l generalizing g acc with
  | nil => exact ⟨acc, g, rfl, hacc, hg, by simp, by simp⟩
  | cons e l ih =>
    rw [List.nodup_cons] at hnd
    obtain ⟨a1, g1, e1, w1, hg1, h1, o1⟩ := processEdge_spec hn hnew hg hacc (hl e (by simp))
    have same : ∀ e' ∈ l, ∀ p, g1.on n e'.child e'.parent p ↔ g.on n e'.child e'.parent p := by
      intro e' he' p
      rw [o1]
      have : e' ≠ e := by rintro rfl; exact hnd.1 he'
      simp [this]
    obtain ⟨a2, g2, e2, w2, hg2, h2, o2⟩ := ih hg1 w1 hnd.2 (fun e' he' => by
      obtain ⟨p, hp⟩ := hl e' (List.mem_cons_of_mem _ he')
      exact ⟨p, (same e' he' p).2 hp⟩)
    refine ⟨a2, g2, by rw [List.foldlM_cons, e1]; exact e2, w2, hg2, fun p => ?_, fun r c p => ?_⟩
    · rw [h2, h1]
      constructor
      · rintro ((h | h) | ⟨e', he', h⟩)
        · exact .inl h
        · exact .inr ⟨e, by simp, h⟩
        · exact .inr ⟨e', List.mem_cons_of_mem _ he', (same e' he' p).1 h.1, h.2⟩
      · rintro (h | ⟨e', he', h⟩)
        · exact .inl (.inl h)
        · rcases List.mem_cons.1 he' with rfl | he'
          · exact .inl (.inr h)
          · exact .inr ⟨e', he', (same e' he' p).2 h.1, h.2⟩
    · rw [o2, o1]
      simp only [List.mem_cons]
      tauto

theorem processAffected_spec (hn : 0 < n) {new : DRule} (hnew : WcValid n new.wc) (aff : List (DRule × List Edge)) {g : Dag}
    (hg : Good n g) (hnd : (aff.map (·.1)).Nodup)
    (haff : ∀ x ∈ aff, x.2 ≠ [] ∧ x.2.Nodup ∧ ∀ e ∈ x.2, e.child = x.1 ∧ e.parent ≠ new ∧ ∃ p, g.on n e.child e.parent p ∧ new.hits n p) :
    ∃ g', processAffected n new aff g = .ok g' ∧ Good n g' ∧
      ∀ r c p, g'.on n r c p ↔
        (c = new ∧ ∃ l, (r, l) ∈ aff ∧ ∃ e ∈ l, g.on n e.child e.parent p ∧ new.hits n p) ∨
        (¬ (c = new ∧ ∃ l, (r, l) ∈ aff) ∧ g.on n r c p ∧ ¬ ((∃ l, (r, l) ∈ aff ∧ (⟨r, c⟩ : Edge) ∈ l) ∧ new.hits n p)) := by
  induction aff generalizing g with
  | nil => exact ⟨g, rfl, hg, by simp⟩
  | cons x aff ih =>
    obtain ⟨k, l⟩ := x
    simp only [List.map_cons, List.nodup_cons] at hnd
    obtain ⟨hl1, hl2, hl3⟩ := haff (k, l) (by simp)
    simp only at hl1 hl2 hl3
    obtain ⟨a1, g1, e1, w1, hg1, h1, o1⟩ := processEdges_spec hn hnew l hg wf_bot hl2 (fun e he => by
      obtain ⟨-, -, p, hp, -⟩ := hl3 e he; exact ⟨p, hp⟩)
    have hne : a1 ≠ bot := by
      rw [ne_bot_iff w1]
      obtain ⟨e, he⟩ := List.exists_mem_of_ne_nil l hl1
      obtain ⟨-, -, p, hp⟩ := hl3 e he
      exact ⟨p, (h1 p).2 (.inr ⟨e, he, hp⟩)⟩
    have hg2 : Good n (g1.setEdge k new a1) := good_setEdge hg1 w1 hne
    have o2 := fun r c p => on_setEdge (n := n) (g := g1) (r := k) (c := new) (b := a1) r c p
    have hk : ∀ r l', (r, l') ∈ aff → r ≠ k := by
      rintro r l' hm rfl
      exact hnd.1 (List.mem_map.2 ⟨_, hm, rfl⟩)
    have hkl : ∀ r c, r ≠ k → (⟨r, c⟩ : Edge) ∉ l := fun r c hr hm => hr (hl3 _ hm).1
    have same : ∀ r c p, r ≠ k → ((g1.setEdge k new a1).on n r c p ↔ g.on n r c p) := by
      intro r c p hr
      rw [o2, if_neg (fun h => hr h.1), o1]
      simp [hkl r c hr]
    obtain ⟨g3, e3, hg3, o3⟩ := ih hg2 hnd.2 (fun x hx => by
      obtain ⟨b1, b2, b3⟩ := haff x (List.mem_cons_of_mem _ hx)
      refine ⟨b1, b2, fun e he => ?_⟩
      obtain ⟨c1, c2, p, c3, c4⟩ := b3 e he
      exact ⟨c1, c2, p, (same _ _ p (by rw [c1]; exact hk x.1 x.2 hx)).2 c3, c4⟩)
    refine ⟨g3, ?_, hg3, fun r c p => ?_⟩
    · unfold processAffected at e3 ⊢
      rw [List.foldlM_cons]
      simp only [e1, bind, Except.bind, pure, Except.pure] at e3 ⊢
      exact e3
    · rw [o3]
      by_cases hr : r = k
      · subst hr
        have hno : ∀ l', (r, l') ∉ aff := fun l' hm => hk r l' hm rfl
        have hone : ∀ l', (r, l') ∈ (r, l) :: aff ↔ l' = l := by
          intro l'
          constructor
          · intro hm
            rcases List.mem_cons.1 hm with hm | hm
            · simpa using hm
            · exact absurd hm (hno l')
          · rintro rfl; simp
        simp only [hno, hone, false_and, exists_false, and_false, not_false_eq_true, and_true, true_and, false_or, exists_eq_left, exists_eq]
        rw [o2]
        by_cases hc : c = new
        · subst hc
          rw [if_pos ⟨rfl, rfl⟩, h1]
          simp [not_holds_bot]
        · rw [if_neg (fun h => hc h.2), o1]
          simp [hc]
      · have hmem : ∀ l', (r, l') ∈ (k, l) :: aff ↔ (r, l') ∈ aff := by
          intro l'; simp [hr]
        simp only [hmem]
        rw [same r c p hr]
        have : (c = new ∧ ∃ l', (r, l') ∈ aff ∧ ∃ e ∈ l', (g1.setEdge k new a1).on n e.child e.parent p ∧ new.hits n p) ↔
            (c = new ∧ ∃ l', (r, l') ∈ aff ∧ ∃ e ∈ l', g.on n e.child e.parent p ∧ new.hits n p) := by
          have : ∀ l', (r, l') ∈ aff → ((∃ e ∈ l', (g1.setEdge k new a1).on n e.child e.parent p ∧ new.hits n p) ↔
              ∃ e ∈ l', g.on n e.child e.parent p ∧ new.hits n p) := by
            intro l' hm
            have hch := (haff (r, l') (List.mem_cons_of_mem _ hm)).2.2
            constructor
            · rintro ⟨e, he, h, h'⟩
              exact ⟨e, he, (same _ _ p (by rw [(hch e he).1]; exact hr)).1 h, h'⟩
            · rintro ⟨e, he, h, h'⟩
              exact ⟨e, he, (same _ _ p (by rw [(hch e he).1]; exact hr)).2 h, h'⟩
          constructor
          · rintro ⟨a, l', hm, h⟩; exact ⟨a, l', hm, (this l' hm).1 h⟩
          · rintro ⟨a, l', hm, h⟩; exact ⟨a, l', hm, (this l' hm).2 h⟩
        rw [this]

/-- The default rule: the lowest, and it takes every packet. -/
structure IsDefault (n : Nat) (S : List DRule) (d : DRule) : Prop where
  mem : d ∈ S
  all : ∀ p, d.hits n p
  low : ∀ r ∈ S, r ≠ d → d.priority < r.priority

theorem dagInsert_spec (hn : 0 < n) {S : List DRule} {new d : DRule} (hT : TableOK n (new :: S)) (hd : IsDefault n (new :: S) d)
    (hdS : d ∈ S) (hnS : new ∉ S) {ord : List DRule → List DRule} (hord : ∀ l, (ord l).Perm l) {depth : Nat} (hdep : S.length < depth)
    {g : Dag} (hg : Good n g) (hx : ExactOn n S S g) :
    ∃ g', dagInsert n ord depth d new g = .ok g' ∧ Good n g' ∧ ExactOn n (new :: S) (new :: S) g' := by
  have hnew := hT.valid new (by simp)
  have hdn : d.priority < new.priority := hd.low new (by simp) (by rintro rfl; exact hnS hdS)
  have hmem : ∀ {r}, r ∈ S → r ∈ new :: S := fun h => List.mem_cons_of_mem _ h
  obtain ⟨s, vis, e1, hs⟩ := findAffected_spec hn hg hnew (S := S)
    (fun r c p h => by have := (hx r c p).1 h; exact ⟨this.1, this.2.2.1⟩) (fun r hr => hT.valid r (hmem hr)) hord depth d ⟨[], [d]⟩
    (by unfold height; exact Nat.lt_of_le_of_lt List.countP_le_length hdep)
    ⟨by simp, by simp, by simp [Aff.has]⟩ (by simp) (by simp [Aff.has])
  have hpar : s.parents = d :: vis := hs.parents
  have hparS : ∀ q ∈ s.parents, q ∈ S ∧ q.priority < new.priority := by
    intro q hq
    rw [hpar] at hq
    rcases List.mem_cons.1 hq with rfl | hq
    · exact ⟨hdS, hdn⟩
    · obtain ⟨h1, u, p, hp⟩ := hs.elig q hq
      exact ⟨((hx _ _ _).1 hp).1, h1.1⟩
  -- everything that overlaps below the new rule is found
  have hall : ∀ k, ∀ q ∈ S, q.priority ≤ k → Elig n new q → q ∈ s.parents := by
    intro k
    induction k with
    | zero =>
      intro q hq hk _
      by_cases e : q = d
      · rw [e, hpar]; simp
      · have := hd.low q (hmem hq) e; omega
    | succ k ih =>
      intro q hq hk hel
      by_cases e : q = d
      · rw [e, hpar]; simp
      · obtain ⟨p, hp1, hp2⟩ := hel.2
        obtain ⟨v, hv, ⟨hv1, hv2⟩, hmax⟩ := exists_highest (l := S) (P := fun x => x.priority < q.priority ∧ x.hits n p)
          ⟨d, hdS, hd.low q (hmem hq) e, hd.all p⟩
        have hon : g.on n q v p := (hx q v p).2 ⟨hq, hv, hv1, hp1, hv2, fun y hy h1 h2 h3 => by
          have := hmax y hy ⟨h2, h3⟩; omega⟩
        have hkid : q ∈ g.kids v := (hg.kids q v).2 ((hg.some_iff q v).2 ⟨p, hon⟩)
        have hvin : v ∈ s.parents := ih v hv (by omega) ⟨by have := hel.1; omega, p, hv2, hp2⟩
        rw [hpar] at hvin
        rcases List.mem_cons.1 hvin with rfl | hvin
        · exact hs.here q hkid hel
        · exact hs.below v hvin q hkid hel
  have hall : ∀ q ∈ S, Elig n new q → q ∈ s.parents := fun q hq => hall _ q hq (Nat.le_refl _)
  -- the affected edges
  have hed : ∀ e, s.has e ↔ e.parent.priority < new.priority ∧ Loses n g new e.child e.parent := by
    intro e
    rw [hs.edges e]
    have hkid : ∀ {r v}, Loses n g new r v → r ∈ g.kids v := by
      rintro r v ⟨-, p, hp, -⟩
      exact (hg.kids r v).2 ((hg.some_iff r v).2 ⟨p, hp⟩)
    constructor
    · rintro (h | ⟨h1, -, h3⟩ | ⟨h1, h2⟩)
      · simp [Aff.has] at h
      · rw [h1]; exact ⟨hdn, h3⟩
      · exact ⟨(hparS _ (by rw [hpar]; exact List.mem_cons_of_mem _ h1)).2, h2⟩
    · rintro ⟨h1, h2⟩
      obtain ⟨-, p, hp, hp'⟩ := id h2
      obtain ⟨-, hvS, hf⟩ := (hx _ _ _).1 hp
      have hin := hall e.parent hvS ⟨h1, p, hf.2.2.1, hp'⟩
      rw [hpar] at hin
      rcases List.mem_cons.1 hin with hin | hin
      · exact .inr (.inl ⟨hin, by rw [← hin]; exact hkid h2, by rw [← hin]; exact h2⟩)
      · exact .inr (.inr ⟨hin, h2⟩)
  have hentry : ∀ x ∈ s.edges, s.edges.lookup x.1 = some x.2 := fun x hx => lookup_eq_some_of_mem hs.inv.keys hx
  obtain ⟨g1, e2, hg1, o1⟩ := processAffected_spec hn hnew s.edges hg hs.inv.keys (fun x hx' => by
    obtain ⟨a1, a2, a3⟩ := hs.inv.entry _ _ (hentry x hx')
    refine ⟨a1, a2, fun e he => ?_⟩
    have hh : s.has e := by unfold Aff.has; rw [a3 e he, hentry x hx']; exact he
    obtain ⟨-, -, p, hp, hp'⟩ := (hed e).1 hh
    refine ⟨a3 e he, ?_, p, hp, hp'⟩
    intro h
    rw [h] at hp
    exact hnS ((hx _ _ _).1 hp).2.1)
  have hgN : ∀ r c p, g.on n r c p → r ≠ new ∧ c ≠ new := by
    intro r c p h
    have := (hx r c p).1 h
    exact ⟨fun h => hnS (h ▸ this.1), fun h => hnS (h ▸ this.2.1)⟩
  have o1' : ∀ r c p, g1.on n r c p ↔
      (c = new ∧ new.priority < r.priority ∧ new.hits n p ∧ ∃ v, v.priority < new.priority ∧ g.on n r v p) ∨
      (g.on n r c p ∧ ¬ (c.priority < new.priority ∧ new.priority < r.priority ∧ new.hits n p)) := by
    intro r c p
    rw [o1]
    have hl : ∀ l, (r, l) ∈ s.edges → ∀ e, e ∈ l ↔ e.child = r ∧ s.has e := by
      intro l hm e
      have h1 := hentry _ hm
      simp only at h1
      constructor
      · intro he
        have := (hs.inv.entry _ _ h1).2.2 e he
        exact ⟨this, by unfold Aff.has; rw [this, h1]; exact he⟩
      · rintro ⟨h2, h3⟩
        unfold Aff.has at h3
        rw [h2, h1] at h3; exact h3
    have hex : ∀ e, s.has e → ∃ l, (e.child, l) ∈ s.edges ∧ e ∈ l := by
      intro e he
      unfold Aff.has at he
      cases hh : s.edges.lookup e.child with
      | none => simp [hh] at he
      | some l => rw [hh] at he; exact ⟨l, mem_of_lookup_eq_some hh, he⟩
    constructor
    · rintro (⟨h1, l, h2, e, h3, h4, h5⟩ | ⟨h1, h2, h3⟩)
      · obtain ⟨h6, h7⟩ := (hl l h2 e).1 h3
        have := (hed e).1 h7
        rw [h6] at this h4
        exact .inl ⟨h1, this.2.1, h5, e.parent, this.1, h4⟩
      · refine .inr ⟨h2, fun ⟨h4, h5, h6⟩ => h3 ⟨?_, h6⟩⟩
        have := hex ⟨r, c⟩ ((hed ⟨r, c⟩).2 ⟨h4, h5, p, h2, h6⟩)
        exact this
    · rintro (⟨h1, h2, h3, v, h4, h5⟩ | ⟨h1, h2⟩)
      · obtain ⟨l, h6, h7⟩ := hex ⟨r, v⟩ ((hed ⟨r, v⟩).2 ⟨h4, h2, p, h5, h3⟩)
        exact .inl ⟨h1, l, h6, ⟨r, v⟩, h7, h5, h3⟩
      · refine .inr ⟨fun h => (hgN _ _ _ h1).2 h.1, h1, fun ⟨⟨l, h3, h4⟩, h5⟩ => h2 ?_⟩
        have := (hed ⟨r, c⟩).1 ((hl l h3 _).1 h4).2
        exact ⟨this.1, this.2.1, h5⟩
  -- the edges of the new rule
  have hNw := holds_bdd hn hnew
  have hm : ∀ q, q ∈ descending (ord s.parents) ↔ q ∈ s.parents := fun q => mem_descending.trans (hord _).mem_iff
  obtain ⟨hg2, o2⟩ := parentsLoop_spec hn new (ps := descending (ord s.parents))
    (fun q hq => hT.valid q (hmem (hparS q ((hm q).1 hq)).1)) hNw.1 hg1
  have harr : ∀ c p, Arrives n (new.bdd n) (descending (ord s.parents)) c p ↔ c ∈ S ∧ FallsTo n S new c p := by
    intro c p
    by_cases hc : c.priority < new.priority
    · rw [arrives_iff (rs := S) (descending_sorted _) (hNw.2 p) hc
        (fun r hr s' hs' => hT.ties r (hmem (hparS r ((hm r).1 hr)).1) s' (hmem (hparS s' ((hm s').1 hs')).1))
        (fun q hq => hparS q ((hm q).1 hq))
        (fun q hq hlt h1 h2 _ => (hm q).2 (hall q hq ⟨hlt, p, h2, h1⟩)), hm]
      constructor
      · rintro ⟨h1, h2⟩; exact ⟨(hparS c h1).1, h2⟩
      · rintro ⟨h1, h2⟩; exact ⟨hall c h1 ⟨h2.1, p, h2.2.2.1, h2.2.1⟩, h2⟩
    · constructor
      · intro h; exact absurd (hparS c ((hm c).1 h.2.1)).2 hc
      · intro h; exact absurd h.2.1 hc
  have hstart : startWc new (ord s.parents) = .ok new.wc := by
    apply startWc_same
    · intro h
      have : d ∈ ord s.parents := (hord _).mem_iff.2 (by rw [hpar]; simp)
      rw [h] at this; cases this
    · intro q hq
      exact hT.table q (hmem (hparS q ((hord _).mem_iff.1 hq)).1) new (by simp)
  refine ⟨_, ?_, hg2, fun r c p => ?_⟩
  · unfold dagInsert
    simp only [e1, e2, bind, Except.bind, pure, Except.pure, addParents, hstart]
    rfl
  · rw [o2, o1']
    simp only [harr]
    have hg1N : ∀ c p, ¬ (c = new ∧ new.priority < new.priority ∧ new.hits n p ∧ ∃ v, v.priority < new.priority ∧ g.on n new v p) :=
      fun c p h => Nat.lt_irrefl _ h.2.1
    by_cases hr : r = new
    · subst hr
      have hF : FallsTo n (r :: S) r c p ↔ FallsTo n S r c p := by
        unfold FallsTo
        simp only [List.mem_cons, forall_eq_or_imp]
        constructor
        · rintro ⟨a, b, d, e, f⟩; exact ⟨a, b, d, f⟩
        · rintro ⟨a, b, d, f⟩; exact ⟨a, b, d, fun _ h => absurd h (Nat.lt_irrefl _), f⟩
      rw [hF]
      constructor
      · rintro (⟨-, h1, h2⟩ | ⟨-, h | h⟩)
        · exact ⟨by simp, hmem h1, h2⟩
        · exact absurd h (hg1N c p)
        · exact absurd rfl (hgN _ _ _ h.1).1
      · rintro ⟨-, h1, h2⟩
        refine .inl ⟨rfl, (List.mem_cons.1 h1).resolve_left ?_, h2⟩
        rintro rfl; exact Nat.lt_irrefl _ h2.1
    · simp only [hr, false_and, false_or, not_false_eq_true, true_and, List.mem_cons]
      by_cases hc : c = new
      · subst hc
        simp only [true_and, true_or]
        constructor
        · rintro (⟨h1, h2, v, h3, h4⟩ | ⟨h1, -⟩)
          · obtain ⟨a1, a2, a3, a4, a5, a6⟩ := (hx _ _ _).1 h4
            refine ⟨a1, h1, a4, h2, fun q hq h5 h6 => ?_⟩
            rcases List.mem_cons.1 hq with rfl | hq
            · omega
            · exact a6 q hq (by omega) h6
          · exact absurd rfl (hgN _ _ _ h1).2
        · rintro ⟨h1, h2, h3, h4, h5⟩
          refine .inl ⟨h2, h4, ?_⟩
          obtain ⟨v, hv, ⟨hv1, hv2⟩, hmax⟩ := exists_highest (l := S) (P := fun x => x.priority < c.priority ∧ x.hits n p)
            ⟨d, hdS, hdn, hd.all p⟩
          refine ⟨v, hv1, (hx r v p).2 ⟨h1, hv, by omega, h3, hv2, fun y hy h6 h7 h8 => ?_⟩⟩
          rcases Nat.lt_trichotomy y.priority c.priority with h9 | h9 | h9
          · have := hmax y hy ⟨h9, h8⟩; omega
          · exact hT.ties y (hmem hy) c (by simp) h9 (by rintro rfl; exact hnS hy) ⟨p, h8, h4⟩
          · exact h5 y (hmem hy) h9 h7 h8
      · simp only [hc, false_and, false_or]
        rw [hx]
        constructor
        · rintro ⟨⟨a1, a2, a3, a4, a5, a6⟩, a7⟩
          refine ⟨a1, a2, a3, a4, a5, fun q hq h1 h2 h3 => ?_⟩
          rcases List.mem_cons.1 hq with rfl | hq
          · exact a7 ⟨h1, h2, h3⟩
          · exact a6 q hq h1 h2 h3
        · rintro ⟨a1, a2, a3, a4, a5, a6⟩
          exact ⟨⟨a1, a2, a3, a4, a5, fun q hq => a6 q (hmem hq)⟩, fun ⟨h1, h2, h3⟩ => a6 new (by simp) h1 h2 h3⟩

/-- Inserting rules one by one, in any order. -/
theorem insert_all (hn : 0 < n) {d : DRule} {ord : List DRule → List DRule} (hord : ∀ l, (ord l).Perm l) {depth : Nat} (l : List DRule)
    {S : List DRule} (hdS : d ∈ S) (hT : TableOK n (l ++ S)) (hd : IsDefault n (l ++ S) d) (hnd : (l ++ S).Nodup)
    (hdep : (l ++ S).length ≤ depth) {g : Dag} (hg : Good n g) (hx : ExactOn n S S g) :
    ∃ g' T, l.foldlM (fun g R => dagInsert n ord depth d R g) g = .ok g' ∧ Good n g' ∧ ExactOn n T T g' ∧ ∀ r, r ∈ T ↔ r ∈ l ++ S := by
  induction l generalizing S g with
  | nil => exact ⟨g, S, rfl, hg, hx, by simp⟩
  | cons x l ih =>
    have hsub : ∀ r ∈ x :: S, r ∈ x :: l ++ S := by
      intro r hr
      rcases List.mem_cons.1 hr with rfl | hr
      · simp
      · simp [hr]
    have hsub2 : ∀ r, r ∈ l ++ x :: S ↔ r ∈ x :: l ++ S := by
      intro r; simp only [List.mem_append, List.mem_cons, List.cons_append]; tauto
    have hperm : (l ++ x :: S).Perm (x :: l ++ S) := List.perm_middle
    have hxS : x ∉ S := by
      intro h
      simp only [List.cons_append, List.nodup_cons] at hnd
      exact hnd.1 (List.mem_append_right _ h)
    obtain ⟨g1, e1, hg1, hx1⟩ := dagInsert_spec hn (S := S) (new := x) (d := d)
      ⟨fun r hr => hT.valid r (hsub r hr), fun r hr s hs => hT.table r (hsub r hr) s (hsub s hs),
        fun r hr s hs => hT.ties r (hsub r hr) s (hsub s hs)⟩
      ⟨List.mem_cons_of_mem _ hdS, hd.all, fun r hr => hd.low r (hsub r hr)⟩ hdS hxS hord
      (depth := depth) (by simp at hdep; omega) hg hx
    obtain ⟨g2, T, e2, hg2, hx2, hT2⟩ := ih (S := x :: S) (List.mem_cons_of_mem _ hdS)
      ⟨fun r hr => hT.valid r ((hsub2 r).1 hr), fun r hr s hs => hT.table r ((hsub2 r).1 hr) s ((hsub2 s).1 hs),
        fun r hr s hs => hT.ties r ((hsub2 r).1 hr) s ((hsub2 s).1 hs)⟩
      ⟨(hsub2 d).2 hd.mem, hd.all, fun r hr => hd.low r ((hsub2 r).1 hr)⟩ (hperm.nodup_iff.2 hnd) (by rw [hperm.length_eq]; exact hdep) hg1 hx1
    exact ⟨g2, T, by rw [List.foldlM_cons, e1]; exact e2, hg2, hx2, fun r => (hT2 r).trans (hsub2 r)⟩

theorem exact_single (d : DRule) : ExactOn n [d] [d] ⟨[], []⟩ := by
  intro r c p
  constructor
  · rintro ⟨b, h, -⟩; simp at h
  · rintro ⟨h1, h2, h3⟩
    rw [List.mem_singleton] at h1 h2
    subst h1 h2
    exact absurd h3.1 (Nat.lt_irrefl _)

theorem exactOn_congr {rs rs' : List DRule} (hm : ∀ r, r ∈ rs ↔ r ∈ rs') {g : Dag} (h : ExactOn n rs rs g) : ExactOn n rs' rs' g := by
  intro r c p
  rw [h r c p, hm, hm]
  unfold FallsTo
  simp only [hm]

end Deps
end OFE
