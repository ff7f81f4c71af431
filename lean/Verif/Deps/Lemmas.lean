import Verif.Deps.Spec
import Verif.Cudd.Lemmas
import Verif.Bdd.WcLemmas
import Verif.Props.Cudd
import Verif.DictLemmas

/-!
# Diagrams with one terminal as packet sets; sorting
-/

namespace OFE
namespace Deps
open DD

variable {n : Nat}

theorem holds_lookup (b : BDD) (p : Packet) : b.lookup n p = if Holds n b p then some () else none := by
  by_cases h : Holds n b p
  · rw [if_pos h]; exact h
  · rw [if_neg h]
    cases e : b.lookup n p with
    | none => rfl
    | some u => cases u; exact absurd e h

theorem holds_ofWc (hn : 0 < n) {wc : Nat} (hw : WcValid n wc) :
    WF n 0 (ofWc n wc) ∧ ∀ p, Holds n (ofWc n wc) p ↔ Covers n wc p := by
  obtain ⟨t, h1, h2, -, -, -, h5⟩ := wcToDD_spec hn () hw
  rw [Cudd.C09_cudd_same n wc () (.inr hw)] at h1
  have : ofWc n wc = t := Option.some.inj h1
  rw [this]
  exact ⟨h2, h5⟩

theorem wf_inter {a b : BDD} (ha : WF n 0 a) (hb : WF n 0 b) : WF n 0 (Cudd.intersection a b) := by
  rw [Cudd.intersection_eq ha hb]; exact wf_intersection ha hb

theorem wf_sub {a b : BDD} (ha : WF n 0 a) (hb : WF n 0 b) : WF n 0 (Cudd.subtract a b) := by
  rw [Cudd.subtract_eq ha hb]; exact wf_subtract ha hb

theorem wf_add {a b : BDD} (ha : WF n 0 a) (hb : WF n 0 b) : WF n 0 (Cudd.meld a b) := by
  rw [Cudd.meld_eq ha hb]; exact wf_meld ha hb

theorem holds_inter {a b : BDD} (ha : WF n 0 a) (hb : WF n 0 b) (p : Packet) :
    Holds n (Cudd.intersection a b) p ↔ Holds n a p ∧ Holds n b p := by
  rw [Cudd.intersection_eq ha hb]
  unfold Holds lookup
  rw [eval_intersection ha hb]
  unfold intP
  split
  · next h => rw [h]; simp
  · next h =>
    constructor
    · intro h'; cases h'
    · rintro ⟨h1, h2⟩; exact absurd (h1.trans h2.symm) h

theorem holds_sub {a b : BDD} (ha : WF n 0 a) (hb : WF n 0 b) (p : Packet) :
    Holds n (Cudd.subtract a b) p ↔ Holds n a p ∧ ¬ Holds n b p := by
  rw [Cudd.subtract_eq ha hb]
  unfold Holds lookup
  rw [eval_subtract ha hb]
  unfold subP
  split
  · next h => rw [h]; simp
  · next h =>
    constructor
    · intro h'; exact ⟨h', fun h2 => h (h'.trans h2.symm)⟩
    · exact fun h => h.1

theorem holds_add {a b : BDD} (ha : WF n 0 a) (hb : WF n 0 b) (p : Packet) :
    Holds n (Cudd.meld a b) p ↔ Holds n a p ∨ Holds n b p := by
  rw [Cudd.meld_eq ha hb]
  unfold Holds lookup
  rw [eval_meld ha hb]
  cases h : DD.eval a _ with
  | none => simp
  | some u => cases u; simp

theorem not_holds_bot (p : Packet) : ¬ Holds n bot p := by simp [Holds, lookup, eval]

theorem wf_bot : WF n 0 (bot : BDD) := trivial

theorem ne_bot_iff {a : BDD} (ha : WF n 0 a) : a ≠ bot ↔ ∃ p, Holds n a p := by
  constructor
  · intro h
    by_contra hc
    apply h
    refine lookup_ext ha wf_bot fun p => ?_
    rw [holds_lookup, holds_lookup, if_neg fun h => hc ⟨p, h⟩, if_neg (not_holds_bot p)]
  · rintro ⟨p, hp⟩ rfl
    exact not_holds_bot p hp

theorem bdd_ext {a b : BDD} (ha : WF n 0 a) (hb : WF n 0 b) (h : ∀ p, Holds n a p ↔ Holds n b p) : a = b := by
  refine lookup_ext ha hb fun p => ?_
  rw [holds_lookup, holds_lookup]
  simp only [h]

theorem holds_bdd (hn : 0 < n) {r : DRule} (hw : WcValid n r.wc) :
    WF n 0 (r.bdd n) ∧ ∀ p, Holds n (r.bdd n) p ↔ r.hits n p := holds_ofWc hn hw

/-! ### Sorting -/

section sort
variable {α : Type} (le : α → α → Bool)

theorem insertBy_perm (x : α) (l : List α) : (insertBy le x l).Perm (x :: l) := by
  induction l with
  | nil => exact .refl _
  | cons y l ih =>
    unfold insertBy
    split
    · exact .refl _
    · exact (ih.cons y).trans (.swap x y l)

theorem sortBy_perm (l : List α) : (sortBy le l).Perm l := by
  induction l with
  | nil => exact .refl _
  | cons x l ih => exact (insertBy_perm le x _).trans (ih.cons x)

theorem insertBy_sorted (total : ∀ a b, le a b = true ∨ le b a = true) (trans : ∀ a b c, le a b = true → le b c = true → le a c = true)
    (x : α) {l : List α} (h : l.Pairwise fun a b => le a b = true) : (insertBy le x l).Pairwise fun a b => le a b = true := by
  induction l with
  | nil => simp [insertBy]
  | cons y l ih =>
    rw [List.pairwise_cons] at h
    unfold insertBy
    split
    · next hxy =>
      refine List.pairwise_cons.2 ⟨fun z hz => ?_, List.pairwise_cons.2 h⟩
      rcases List.mem_cons.1 hz with rfl | hz
      · exact hxy
      · exact trans _ _ _ hxy (h.1 z hz)
    · next hxy =>
      refine List.pairwise_cons.2 ⟨fun z hz => ?_, ih h.2⟩
      rcases List.mem_cons.1 ((insertBy_perm le x l).mem_iff.1 hz) with rfl | hz
      · exact (total z y).resolve_left hxy
      · exact h.1 z hz

theorem sortBy_sorted (total : ∀ a b, le a b = true ∨ le b a = true) (trans : ∀ a b c, le a b = true → le b c = true → le a c = true)
    (l : List α) : (sortBy le l).Pairwise fun a b => le a b = true := by
  induction l with
  | nil => exact .nil
  | cons x l ih => exact insertBy_sorted le total trans x ih

end sort

theorem mem_descending {P : List DRule} {x : DRule} : x ∈ descending P ↔ x ∈ P := (sortBy_perm _ P).mem_iff

theorem descending_sorted (P : List DRule) : (descending P).Pairwise fun a b => b.priority ≤ a.priority := by
  have := sortBy_sorted (fun a b : DRule => decide (b.priority ≤ a.priority)) (by intro a b; simp only [decide_eq_true_eq]; omega)
    (by intro a b c; simp only [decide_eq_true_eq]; omega) P
  simpa [descending] using this

theorem mem_setAdd {α : Type} [DecidableEq α] {x y : α} {s : List α} : y ∈ setAdd x s ↔ y = x ∨ y ∈ s := by
  unfold setAdd
  split
  · next h => constructor
              · exact .inr
              · rintro (rfl | h'); exacts [h, h']
  · simp [or_comm]

end Deps
end OFE
