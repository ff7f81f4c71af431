import Verif.Actions.SetLemmas

/-!
# An action set is determined by its content
-/

namespace OFE

theorem setField_indep {f g v w : Nat} (hfg : f ≠ g) (hf : f < 40) (hg : g < 40) : dependsB (.setField f v) (.setField g w) = false := by
  have h : ∀ f g : Fin 40, f.1 ≠ g.1 → dependsB (.setField f.1 0) (.setField g.1 0) = false := by decide +kernel
  exact h ⟨f, hf⟩ ⟨g, hg⟩ hfg

/-- Two lists ordered by type, with the same actions, no two in the same slot, differ in the order of independent actions only. -/
theorem sorted_trace : ∀ (s t : List Action), AllKnown s → s.Perm t → (s.Pairwise fun a b => a.toType ≠ b.toType) →
    (s.Pairwise fun a b => a.ty ≤ b.ty) → (t.Pairwise fun a b => a.ty ≤ b.ty) → TraceEq dependsB s t
  | [], t, _, hp, _, _, _ => by rw [List.nil_perm.1 hp]; exact .refl _
  | a :: s, t, hk, hp, hsl, hs, ht => by
    have ha : a ∈ t := hp.mem_iff.1 List.mem_cons_self
    obtain ⟨l, r, rfl⟩ := List.append_of_mem ha
    have hp' : s.Perm (l ++ r) := (List.perm_cons a).1 (hp.trans List.perm_middle)
    have hsl' := List.pairwise_cons.1 hsl
    have hs' := List.pairwise_cons.1 hs
    have hsub : (l ++ r).Sublist (l ++ a :: r) := List.Sublist.append_left (List.sublist_cons_self a r) l
    have ih := sorted_trace s (l ++ r) (fun x hx => hk x (List.mem_cons_of_mem _ hx)) hp' hsl'.2 hs'.2 (ht.sublist hsub)
    refine (ih.cons a).trans ?_
    have hm : TraceEq dependsB (l ++ [a]) (a :: l) := by
      refine TraceEq.move a l fun y hy => ?_
      have hy' : y ∈ s := hp'.mem_iff.2 (List.mem_append_left _ hy)
      have h1 := hs'.1 y hy'
      have h2 : y.ty ≤ a.ty := (List.pairwise_append.1 ht).2.2 y hy a List.mem_cons_self
      have h3 := hsl'.1 y hy'
      have h4 : a.ty = y.ty := Nat.le_antisymm h1 h2
      have ka := hk a List.mem_cons_self
      have ky := hk y (List.mem_cons_of_mem _ hy')
      revert h3 h4 ka ky
      cases a <;> cases y <;> simp only [Action.toType, Action.ty, ne_eq, TypeKey.t.injEq, not_true_eq_false, false_implies, Nat.reduceEqDiff,
        implies_true, Action.known, decide_eq_true_eq, TypeKey.s.injEq]
      intro h _ h5 h6
      exact setField_indep (fun e => h e.symm) h6 h5
    have := (hm.append_right r).symm dependsB_symm
    simpa using this

/-- An action set is determined by its content. -/
theorem setInv_ext {s t : List Action} {l l' : ActionList} (h : SetInv s l) (h' : SetInv t l') (hk : AllKnown s) (e : ∀ a, a ∈ l.orig ↔ a ∈ l'.orig) :
    l.levels = l'.levels ∧ l.len = l'.len := by
  have hp : l.orig.Perm l'.orig := (List.perm_ext_iff_of_nodup h.nodup h'.nodup).2 e
  have hko : AllKnown l.orig := fun a ha => hk a ((h.content a).1 ha).1.mem
  have htr := sorted_trace l.orig l'.orig hko hp h.slots h.sorted h'.sorted
  refine ⟨?_, hp.length_eq⟩
  rw [h.levels, h'.levels]
  exact foldl_trace lt_strictTotal dependsB_symm htr (by simp [LvSorted])

theorem lastOf_of_slots {s : List Action} (h : s.Pairwise fun a b => a.toType ≠ b.toType) {a : Action} (ha : a ∈ s) : LastOf s a := by
  obtain ⟨l, r, rfl⟩ := List.append_of_mem ha
  exact ⟨l, r, rfl, fun b hb => Ne.symm ((List.pairwise_cons.1 (List.pairwise_append.1 h).2.1).1 b hb)⟩

/-- Putting the actions of an action set into a new one gives the same action set. -/
theorem actionSet_rebuild {s : List Action} {l : ActionList} (h : SetInv s l) (hk : AllKnown s) :
    ∃ l', actionSetOfList l.iter = .ok l' ∧ l'.levels = l.levels ∧ l'.len = l.len ∧ SetInv l.iter l' := by
  have hp := h.iter_perm
  have hko : AllKnown l.iter := fun a ha => hk a ((h.content a).1 (hp.mem_iff.1 ha)).1.mem
  obtain ⟨l', e, h'⟩ := setInv_ofList l.iter [] .empty setInv_empty (by simpa using hko)
  rw [List.nil_append] at h'
  have hsl : l.iter.Pairwise fun a b => a.toType ≠ b.toType := (hp.pairwise_iff fun {a b} hh => Ne.symm hh).2 h.slots
  have := setInv_ext h h' hk fun a => by
    rw [h'.content a]
    constructor
    · intro ha
      refine ⟨lastOf_of_slots hsl (hp.mem_iff.2 ha), fun ho g hg => ?_⟩
      exact ((h.content a).1 ha).2 ho g ((h.content g).1 (hp.mem_iff.1 hg)).1.mem
    · rintro ⟨ha, -⟩
      exact hp.mem_iff.1 ha.mem
  exact ⟨l', e, this.1.symm, this.2.symm, h'⟩

end OFE
