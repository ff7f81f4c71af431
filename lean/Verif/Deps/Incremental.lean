import Verif.Deps.Batch

/-!
# Inserting a rule into the dependency graph
-/

namespace OFE
namespace Deps
open DD

variable {n : Nat}

/-- A highest-priority rule with a property. -/
theorem exists_highest {l : List DRule} {P : DRule → Prop} (h : ∃ x ∈ l, P x) :
    ∃ x ∈ l, P x ∧ ∀ y ∈ l, P y → y.priority ≤ x.priority := by
  induction l with
  | nil => obtain ⟨x, hx, -⟩ := h; cases hx
  | cons a l ih =>
    by_cases hl : ∃ x ∈ l, P x
    · obtain ⟨x, hx, h1, h2⟩ := ih hl
      by_cases ha : P a ∧ x.priority < a.priority
      · refine ⟨a, by simp, ha.1, fun y hy hp => ?_⟩
        rcases List.mem_cons.1 hy with rfl | hy
        · exact Nat.le_refl _
        · have := h2 y hy hp; omega
      · refine ⟨x, List.mem_cons_of_mem _ hx, h1, fun y hy hp => ?_⟩
        rcases List.mem_cons.1 hy with rfl | hy
        · by_contra hlt; exact ha ⟨hp, by omega⟩
        · exact h2 y hy hp
    · obtain ⟨x, hx, hp⟩ := h
      rcases List.mem_cons.1 hx with rfl | hx
      · refine ⟨x, by simp, hp, fun y hy hp' => ?_⟩
        rcases List.mem_cons.1 hy with rfl | hy
        · exact Nat.le_refl _
        · exact absurd ⟨y, hy, hp'⟩ hl
      · exact absurd ⟨x, hx, hp⟩ hl

/-! ### The search -/

/-- Entry of `aff_edges`. -/
def Aff.has (s : Aff) (e : Edge) : Prop := e ∈ (s.edges.lookup e.child).getD []

/-- Invariant of the search state. -/
structure AffInv (s : Aff) : Prop where
  keys : (s.edges.map (·.1)).Nodup
  entry : ∀ k l, s.edges.lookup k = some l → l ≠ [] ∧ l.Nodup ∧ ∀ e ∈ l, e.child = k
  parent : ∀ e, s.has e → e.parent ∈ s.parents

theorem AffInv.add {s : Aff} (h : AffInv s) {e : Edge} (hp : e.parent ∈ s.parents) (hn : ¬ s.has e) :
    let s' : Aff := { s with edges := dictSet e.child ((s.edges.lookup e.child).getD [] ++ [e]) s.edges }
    AffInv s' ∧ ∀ e', s'.has e' ↔ s.has e' ∨ e' = e := by
  intro s'
  have hhas : ∀ e', s'.has e' ↔ s.has e' ∨ e' = e := by
    intro e'
    simp only [Aff.has, s', lookup_dictSet]
    by_cases hk : e'.child = e.child
    · rw [if_pos hk, hk]; simp
    · rw [if_neg hk]
      constructor
      · exact .inl
      · rintro (h' | rfl)
        · exact h'
        · exact absurd rfl hk
  refine ⟨⟨nodup_dictSet _ _ h.keys, fun k l hl => ?_, fun e' he' => ?_⟩, hhas⟩
  · simp only [s', lookup_dictSet] at hl
    split at hl
    · next hk =>
      cases hl
      refine ⟨by simp, ?_, fun e' he' => ?_⟩
      · rw [List.nodup_append]
        refine ⟨?_, by simp, ?_⟩
        · cases hh : s.edges.lookup e.child with
          | none => simp
          | some l => exact (h.entry _ _ hh).2.1
        · simp only [List.mem_singleton]
          rintro a ha _ rfl rfl
          exact hn ha
      · rw [List.mem_append, List.mem_singleton] at he'
        rcases he' with he' | rfl
        · cases hh : s.edges.lookup e.child with
          | none => simp [hh] at he'
          | some l =>
            rw [hh] at he'
            exact ((h.entry _ _ hh).2.2 e' he').trans hk.symm
        · exact hk.symm
    · exact h.entry _ _ hl
  · rcases (hhas e').1 he' with h' | rfl
    · exact h.parent e' h'
    · exact hp

/-- Rules worth visiting. -/
def Elig (n : Nat) (new c : DRule) : Prop := c.priority < new.priority ∧ ∃ p, c.hits n p ∧ new.hits n p

/-- Edges that lose packets to the new rule. -/
def Loses (n : Nat) (g : Dag) (new r v : DRule) : Prop := new.priority < r.priority ∧ ∃ p, g.on n r v p ∧ new.hits n p

/-- How deep the search can still go below `rule`. -/
def height (S : List DRule) (new rule : DRule) : Nat :=
  S.countP fun q => decide (rule.priority < q.priority ∧ q.priority < new.priority)

theorem height_lt {S : List DRule} {new rule c : DRule} (hc : c ∈ S) (h1 : rule.priority < c.priority) (h2 : c.priority < new.priority) :
    height S new c < height S new rule := by
  unfold height
  induction S with
  | nil => cases hc
  | cons a S ih =>
    rw [List.countP_cons, List.countP_cons]
    have hle : S.countP (fun q => decide (c.priority < q.priority ∧ q.priority < new.priority)) ≤
        S.countP (fun q => decide (rule.priority < q.priority ∧ q.priority < new.priority)) := by
      apply List.countP_mono_left
      intro q _ hq
      simp only [decide_eq_true_eq] at hq ⊢
      exact ⟨by omega, hq.2⟩
    by_cases e : c = a
    · subst e
      simp only [decide_eq_true_eq]
      rw [if_neg (by omega), if_pos ⟨h1, h2⟩]
      omega
    · have := ih ((List.mem_cons.1 hc).resolve_left e)
      simp only [decide_eq_true_eq]
      split <;> split <;> omega

/-- What a search started at `rule` with the children `ks` to look at does to the state. -/
structure Searched (n : Nat) (g : Dag) (new rule : DRule) (ks : List DRule) (s s' : Aff) (vis : List DRule) : Prop where
  inv : AffInv s'
  parents : s'.parents = s.parents ++ vis
  fresh : ∀ v ∈ vis, v ∉ s.parents
  elig : ∀ v ∈ vis, Elig n new v ∧ ∃ u, ∃ p, g.on n v u p
  here : ∀ c ∈ ks, Elig n new c → c ∈ s'.parents
  below : ∀ v ∈ vis, ∀ c ∈ g.kids v, Elig n new c → c ∈ s'.parents
  edges : ∀ e, s'.has e ↔ s.has e ∨ (e.parent = rule ∧ e.child ∈ ks ∧ Loses n g new e.child rule) ∨
    (e.parent ∈ vis ∧ Loses n g new e.child e.parent)

theorem findAffected_spec (hn : 0 < n) {g : Dag} (hg : Good n g) {S : List DRule} {new : DRule} (hnew : WcValid n new.wc)
    (hS : ∀ r c p, g.on n r c p → r ∈ S ∧ c.priority < r.priority) (hv : ∀ r ∈ S, WcValid n r.wc)
    {ord : List DRule → List DRule} (hord : ∀ l, (ord l).Perm l) (depth : Nat) (rule : DRule) (s : Aff) (hd : height S new rule < depth)
    (hs : AffInv s) (hr : rule ∈ s.parents) (hno : ∀ e, s.has e → e.parent ≠ rule) :
    ∃ s' vis, findAffected n ord g new depth rule s = .ok s' ∧ Searched n g new rule (g.kids rule) s s' vis := by
  induction depth generalizing rule s with
  | zero => omega
  | succ depth ih =>
    have hN := holds_bdd hn hnew
    rw [findAffected]
    -- the loop over the children
    suffices H : ∀ (ks : List DRule) (s : Aff), ks.Nodup → (∀ c ∈ ks, c ∈ g.kids rule) → AffInv s → rule ∈ s.parents →
        (∀ c ∈ ks, ¬ s.has ⟨c, rule⟩) →
        ∃ s' vis, ks.foldlM (fun s child =>
          if new.priority < child.priority then do
            let b ← g.label ⟨child, rule⟩
            if Cudd.intersection b (new.bdd n) = bot then return s
            else return { s with edges := dictSet child ((s.edges.lookup child).getD [] ++ [⟨child, rule⟩]) s.edges }
          else if child.priority < new.priority then
            if child ∉ s.parents ∧ Cudd.intersection (child.bdd n) (new.bdd n) ≠ bot then
              findAffected n ord g new depth child { s with parents := s.parents ++ [child] }
            else return s
          else return s) s = (.ok s' : Except PyErr Aff) ∧ Searched n g new rule ks s s' vis by
      obtain ⟨s', vis, e, hh⟩ := H (ord (g.kids rule)) s ((hord _).nodup_iff.2 (hg.nodup rule)) (fun c hc => (hord _).mem_iff.1 hc) hs hr
        (fun c _ hc => hno _ hc rfl)
      refine ⟨s', vis, e, { hh with here := fun c hc => hh.here c ((hord _).mem_iff.2 hc), edges := fun e => ?_ }⟩
      rw [hh.edges e, (hord _).mem_iff]
    intro ks
    induction ks with
    | nil =>
      intro s _ _ hs _ _
      exact ⟨s, [], rfl, hs, by simp, by simp, by simp, by simp, by simp, by simp⟩
    | cons c ks ihk =>
      intro s hnd hsub hs hr hno
      rw [List.nodup_cons] at hnd
      have hsub' : ∀ x ∈ ks, x ∈ g.kids rule := fun x hx => hsub x (List.mem_cons_of_mem _ hx)
      obtain ⟨b, hb⟩ := Option.isSome_iff_exists.1 ((hg.kids c rule).1 (hsub c (by simp)))
      have hbw := (hg.labels _ _ hb).1
      obtain ⟨pc, hpc⟩ := (hg.some_iff c rule).1 (by simp [hb])
      obtain ⟨hcS, hlt⟩ := hS c rule pc hpc
      have hon : ∀ p, g.on n c rule p ↔ Holds n b p := by intro p; unfold Dag.on; rw [hb]; simp
      rw [List.foldlM_cons]
      by_cases h1 : new.priority < c.priority
      · simp only [if_pos h1, Dag.label, hb]
        have hnel : ¬ Elig n new c := fun h => by have := h.1; omega
        by_cases h2 : Cudd.intersection b (new.bdd n) = bot
        · have hnl : ¬ Loses n g new c rule := by
            rintro ⟨-, p, h3, h4⟩
            have := (holds_inter hbw hN.1 p).2 ⟨(hon p).1 h3, (hN.2 p).2 h4⟩
            rw [h2] at this; exact not_holds_bot p this
          obtain ⟨s', vis, e, hh⟩ := ihk s hnd.2 hsub' hs hr fun x hx => hno x (List.mem_cons_of_mem _ hx)
          refine ⟨s', vis, ?_, { hh with here := fun x hx hel => ?_, edges := fun e' => ?_ }⟩
          · simp only [if_pos h2, bind, Except.bind, pure, Except.pure] at e ⊢
            exact e
          · rcases List.mem_cons.1 hx with rfl | hx
            · exact absurd hel hnel
            · exact hh.here x hx hel
          · rw [hh.edges e']
            constructor
            · rintro (a | ⟨a1, a2, a3⟩ | a)
              · exact .inl a
              · exact .inr (.inl ⟨a1, List.mem_cons_of_mem _ a2, a3⟩)
              · exact .inr (.inr a)
            · rintro (a | ⟨a1, a2, a3⟩ | a)
              · exact .inl a
              · rcases List.mem_cons.1 a2 with a2 | a2
                · rw [a2] at a3; exact absurd a3 hnl
                · exact .inr (.inl ⟨a1, a2, a3⟩)
              · exact .inr (.inr a)
        · have hl : Loses n g new c rule := by
            obtain ⟨p, hp⟩ := (ne_bot_iff (wf_inter hbw hN.1)).1 h2
            rw [holds_inter hbw hN.1] at hp
            exact ⟨h1, p, (hon p).2 hp.1, (hN.2 p).1 hp.2⟩
          obtain ⟨hs2, hhas⟩ := hs.add (e := ⟨c, rule⟩) hr (hno c (by simp))
          obtain ⟨s', vis, e, hh⟩ := ihk _ hnd.2 hsub' hs2 hr (fun x hx h => by
            rcases (hhas _).1 h with h | h
            · exact hno x (List.mem_cons_of_mem _ hx) h
            · rw [Edge.mk.injEq] at h
              rw [h.1] at hx; exact hnd.1 hx)
          refine ⟨s', vis, ?_, { hh with here := fun x hx hel => ?_, edges := fun e' => ?_ }⟩
          · simp only [if_neg h2, bind, Except.bind, pure, Except.pure] at e ⊢
            exact e
          · rcases List.mem_cons.1 hx with rfl | hx
            · exact absurd hel hnel
            · exact hh.here x hx hel
          · rw [hh.edges e', hhas]
            constructor
            · rintro ((a | a) | ⟨a1, a2, a3⟩ | a)
              · exact .inl a
              · subst a; exact .inr (.inl ⟨rfl, by simp, hl⟩)
              · exact .inr (.inl ⟨a1, List.mem_cons_of_mem _ a2, a3⟩)
              · exact .inr (.inr a)
            · rintro (a | ⟨a1, a2, a3⟩ | a)
              · exact .inl (.inl a)
              · rcases List.mem_cons.1 a2 with a2 | a2
                · left; right
                  obtain ⟨x, y⟩ := e'
                  simp only at a1 a2
                  rw [a1, a2]
                · exact .inr (.inl ⟨a1, a2, a3⟩)
              · exact .inr (.inr a)
      · have hnl : ¬ Loses n g new c rule := fun h => h1 h.1
        simp only [if_neg h1]
        by_cases h2 : c.priority < new.priority
        · simp only [if_pos h2]
          have hcw := holds_bdd hn (hv c hcS)
          have hint : Cudd.intersection (c.bdd n) (new.bdd n) ≠ bot ↔ Elig n new c := by
            rw [ne_bot_iff (wf_inter hcw.1 hN.1)]
            simp only [holds_inter hcw.1 hN.1, hcw.2, hN.2, Elig, h2, true_and]
          by_cases h3 : c ∉ s.parents ∧ Cudd.intersection (c.bdd n) (new.bdd n) ≠ bot
          · simp only [if_pos h3]
            have hel := hint.1 h3.2
            have hnp : ∀ e, s.has e → e.parent ≠ c := fun e he h => h3.1 (h ▸ hs.parent e he)
            obtain ⟨s1, vis1, e1, hh1⟩ := ih c { s with parents := s.parents ++ [c] }
              (by have := height_lt (S := S) (new := new) hcS hlt h2; omega)
              ⟨hs.keys, hs.entry, fun e he => List.mem_append_left _ (hs.parent e he)⟩ (by simp) hnp
            have hp1 : s1.parents = s.parents ++ (c :: vis1) := by rw [hh1.parents]; simp
            have hrv : ∀ v ∈ c :: vis1, v ≠ rule := by
              intro v hv
              rcases List.mem_cons.1 hv with rfl | hv
              · rintro rfl; exact h3.1 hr
              · rintro rfl; exact hh1.fresh v hv (List.mem_append_left _ hr)
            have hhas1 : ∀ e, s1.has e ↔ s.has e ∨ (e.parent ∈ c :: vis1 ∧ Loses n g new e.child e.parent) := by
              intro e
              rw [hh1.edges e]
              have hk : ∀ r, Loses n g new r c → r ∈ g.kids c := by
                rintro r ⟨-, p, h, -⟩
                rw [hg.kids, hg.some_iff]; exact ⟨p, h⟩
              constructor
              · rintro (a | ⟨a1, a2, a3⟩ | a)
                · exact .inl a
                · exact .inr ⟨by rw [a1]; simp, by rw [a1]; exact a3⟩
                · exact .inr ⟨List.mem_cons_of_mem _ a.1, a.2⟩
              · rintro (a | ⟨a1, a2⟩)
                · exact .inl a
                · rcases List.mem_cons.1 a1 with a1 | a1
                  · rw [a1] at a2
                    exact .inr (.inl ⟨a1, hk _ a2, a2⟩)
                  · exact .inr (.inr ⟨a1, a2⟩)
            obtain ⟨s', vis, e, hh⟩ := ihk s1 hnd.2 hsub' hh1.inv (by rw [hp1]; exact List.mem_append_left _ hr) (fun x hx h => by
              rcases (hhas1 _).1 h with h | h
              · exact hno x (List.mem_cons_of_mem _ hx) h
              · exact hrv _ h.1 rfl)
            have hp' : s'.parents = s.parents ++ (c :: vis1 ++ vis) := by rw [hh.parents, hp1]; simp
            refine ⟨s', c :: vis1 ++ vis, ?_, ⟨hh.inv, hp', ?_, ?_, ?_, ?_, ?_⟩⟩
            · rw [e1]; exact e
            · intro v hv
              rcases List.mem_append.1 hv with hv | hv
              · rcases List.mem_cons.1 hv with rfl | hv
                · exact h3.1
                · exact fun h => hh1.fresh v hv (List.mem_append_left _ h)
              · exact fun h => hh.fresh v hv (by rw [hp1]; exact List.mem_append_left _ h)
            · intro v hv
              rcases List.mem_append.1 hv with hv | hv
              · rcases List.mem_cons.1 hv with rfl | hv
                · exact ⟨hel, rule, pc, hpc⟩
                · exact hh1.elig v hv
              · exact hh.elig v hv
            · intro x hx hel'
              rcases List.mem_cons.1 hx with rfl | hx
              · rw [hp']; simp
              · exact hh.here x hx hel'
            · intro v hv x hx hel'
              rcases List.mem_append.1 hv with hv | hv
              · rw [hh.parents]
                apply List.mem_append_left
                rcases List.mem_cons.1 hv with rfl | hv
                · exact hh1.here x hx hel'
                · exact hh1.below v hv x hx hel'
              · exact hh.below v hv x hx hel'
            · intro e'
              rw [hh.edges e', hhas1]
              simp only [List.mem_append]
              constructor
              · rintro ((a | a) | ⟨a1, a2, a3⟩ | a)
                · exact .inl a
                · exact .inr (.inr ⟨.inl a.1, a.2⟩)
                · exact .inr (.inl ⟨a1, List.mem_cons_of_mem _ a2, a3⟩)
                · exact .inr (.inr ⟨.inr a.1, a.2⟩)
              · rintro (a | ⟨a1, a2, a3⟩ | ⟨a1 | a1, a2⟩)
                · exact .inl (.inl a)
                · rcases List.mem_cons.1 a2 with a2 | a2
                  · rw [a2] at a3; exact absurd a3 hnl
                  · exact .inr (.inl ⟨a1, a2, a3⟩)
                · exact .inl (.inr ⟨a1, a2⟩)
                · exact .inr (.inr ⟨a1, a2⟩)
          · simp only [if_neg h3]
            obtain ⟨s', vis, e, hh⟩ := ihk s hnd.2 hsub' hs hr fun x hx => hno x (List.mem_cons_of_mem _ hx)
            refine ⟨s', vis, e, { hh with here := fun x hx hel => ?_, edges := fun e' => ?_ }⟩
            · rcases List.mem_cons.1 hx with rfl | hx
              · rw [hh.parents]
                apply List.mem_append_left
                by_contra hc
                exact h3 ⟨hc, hint.2 hel⟩
              · exact hh.here x hx hel
            · rw [hh.edges e']
              constructor
              · rintro (a | ⟨a1, a2, a3⟩ | a)
                · exact .inl a
                · exact .inr (.inl ⟨a1, List.mem_cons_of_mem _ a2, a3⟩)
                · exact .inr (.inr a)
              · rintro (a | ⟨a1, a2, a3⟩ | a)
                · exact .inl a
                · rcases List.mem_cons.1 a2 with a2 | a2
                  · rw [a2] at a3; exact absurd a3 hnl
                  · exact .inr (.inl ⟨a1, a2, a3⟩)
                · exact .inr (.inr a)
        · simp only [if_neg h2]
          obtain ⟨s', vis, e, hh⟩ := ihk s hnd.2 hsub' hs hr fun x hx => hno x (List.mem_cons_of_mem _ hx)
          refine ⟨s', vis, e, { hh with here := fun x hx hel => ?_, edges := fun e' => ?_ }⟩
          · rcases List.mem_cons.1 hx with rfl | hx
            · exact absurd hel.1 h2
            · exact hh.here x hx hel
          · rw [hh.edges e']
            constructor
            · rintro (a | ⟨a1, a2, a3⟩ | a)
              · exact .inl a
              · exact .inr (.inl ⟨a1, List.mem_cons_of_mem _ a2, a3⟩)
              · exact .inr (.inr a)
            · rintro (a | ⟨a1, a2, a3⟩ | a)
              · exact .inl a
              · rcases List.mem_cons.1 a2 with a2 | a2
                · rw [a2] at a3; exact absurd a3 hnl
                · exact .inr (.inl ⟨a1, a2, a3⟩)
              · exact .inr (.inr a)

end Deps
end OFE
