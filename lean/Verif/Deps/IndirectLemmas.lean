import Verif.Deps.Indirect
import Verif.Deps.Batch
import Verif.Props.Rule
import Verif.Rule.MergeLemmas3

/-! # Lemmas: indirect dependencies -/

namespace OFE
namespace Deps
open DD
variable {n : Nat}

/-- A loop each round of which adds the elements `Q x`. -/
theorem foldlM_adds {σ α β : Type} {f : σ → α → Except PyErr σ} (M : σ → β → Prop) (G : σ → Prop) (Q : α → β → Prop) (l : List α)
    (h : ∀ x ∈ l, ∀ s, G s → ∃ s', f s x = .ok s' ∧ G s' ∧ ∀ e, M s' e ↔ M s e ∨ Q x e) (s : σ) (hs : G s) :
    ∃ s', l.foldlM f s = .ok s' ∧ G s' ∧ ∀ e, M s' e ↔ M s e ∨ ∃ x ∈ l, Q x e := by
  induction l generalizing s with
  | nil => exact ⟨s, rfl, hs, by simp⟩
  | cons x l ih =>
    obtain ⟨s1, e1, g1, m1⟩ := h x (by simp) s hs
    obtain ⟨s2, e2, g2, m2⟩ := ih (fun y hy => h y (List.mem_cons_of_mem _ hy)) s1 g1
    refine ⟨s2, by rw [List.foldlM_cons, e1]; exact e2, g2, fun e => ?_⟩
    rw [m2, m1, or_assoc]
    simp [List.mem_cons, or_and_right, exists_or]

theorem mem_foldl_setAdd {α β : Type} [DecidableEq β] (c : α → Prop) [DecidablePred c] (k : α → β) (l : List α) (s : List β) (e : β) :
    e ∈ l.foldl (fun s x => if c x then setAdd (k x) s else s) s ↔ e ∈ s ∨ ∃ x ∈ l, c x ∧ e = k x := by
  induction l generalizing s with
  | nil => simp
  | cons x l ih =>
    rw [List.foldl_cons, ih]
    by_cases h : c x
    · rw [if_pos h, mem_setAdd]
      simp only [List.mem_cons, or_and_right, exists_or, exists_eq_left, h, true_and]
      tauto
    · rw [if_neg h]
      simp only [List.mem_cons, or_and_right, exists_or, exists_eq_left, h, false_and, false_or]

theorem foldl_nodup {α β : Type} [DecidableEq β] (c : α → Prop) [DecidablePred c] (k : α → β) (l : List α) (s : List β) (h : s.Nodup) :
    (l.foldl (fun s x => if c x then setAdd (k x) s else s) s).Nodup := by
  induction l generalizing s with
  | nil => exact h
  | cons x l ih =>
    rw [List.foldl_cons]
    apply ih
    split
    · exact nodup_setAdd h
    · exact h

/-- Both tests say whether there is a common packet. -/
theorem test_same (hn : 0 < n) {a b : Nat} (ha : WcValid n a) (hb : WcValid n b) :
    (wcIntersect n a b ≠ 0 ↔ ∃ p, Covers n a p ∧ Covers n b p) ∧
    (Cudd.intersection (ofWc n a) (ofWc n b) ≠ bot ↔ ∃ p, Covers n a p ∧ Covers n b p) := by
  constructor
  · rw [Ne, wcIntersect_eq_zero hn, not_not]
  · obtain ⟨wa, ca⟩ := holds_ofWc hn ha
    obtain ⟨wb, cb⟩ := holds_ofWc hn hb
    rw [ne_bot_iff (wf_inter wa wb)]
    simp only [holds_inter wa wb, ca, cb]

theorem foldlM_congr_mem {σ α : Type} {f f' : σ → α → Except PyErr σ} : ∀ (l : List α) (s : σ), (∀ x ∈ l, ∀ s, f s x = f' s x) →
    l.foldlM f s = l.foldlM f' s
  | [], _, _ => rfl
  | x :: l, s, h => by
    rw [List.foldlM_cons, List.foldlM_cons, h x (by simp)]
    cases f' s x with
    | error e => rfl
    | ok s' => exact foldlM_congr_mem l s' fun y hy => h y (List.mem_cons_of_mem _ hy)

theorem foldl_congr_mem {σ α : Type} {f f' : σ → α → σ} : ∀ (l : List α) (s : σ), (∀ x ∈ l, ∀ s, f s x = f' s x) → l.foldl f s = l.foldl f' s
  | [], _, _ => rfl
  | x :: l, s, h => by
    rw [List.foldl_cons, List.foldl_cons, h x (by simp)]
    exact foldl_congr_mem l _ fun y hy => h y (List.mem_cons_of_mem _ hy)

theorem startWc_valid' {R : DRule} {P : List DRule} (hw : WcValid n R.wc) (he : ∀ w, R.egress = .ok w → WcValid n w) {w : Nat}
    (h : startWc R P = .ok w) : WcValid n w := by
  unfold startWc at h
  split at h
  · split at h
    · cases h; exact hw
    · exact he w h
  · exact he w h

theorem indirect_same (hn : 0 < n) {R : DRule} {P : List DRule} (hR : WcValid n R.wc) (he : ∀ w, R.egress = .ok w → WcValid n w)
    (hP : ∀ p ∈ P, WcValid n p.wc) (g : List Edge) : indirectBdd n R P g = indirectHs n R P g := by
  unfold indirectBdd indirectHs
  cases hs : startWc R P with
  | error e => rfl
  | ok w =>
    simp only [bind, Except.bind, pure, Except.pure, Except.ok.injEq]
    apply foldl_congr_mem
    intro p hp s
    obtain ⟨t1, t2⟩ := test_same hn (startWc_valid' hR he hs) (hP p hp)
    have : Cudd.intersection (ofWc n w) (p.bdd n) ≠ bot ↔ wcIntersect n w p.wc ≠ 0 := t2.trans t1.symm
    by_cases h : wcIntersect n w p.wc ≠ 0
    · rw [if_pos h, if_pos (this.2 h)]
    · rw [if_neg h, if_neg (fun h' => h (this.1 h'))]

/-- One table: the start of the search is the rule itself, or there is nothing below. -/
theorem start_table {rs : List DRule} (ht : ∀ r ∈ rs, ∀ s ∈ rs, r.table = s.table) {R : DRule} (hR : R ∈ rs)
    (he : (∀ q ∈ rs, ¬ q.priority < R.priority) → ∃ w, R.egress = .ok w) :
    ∃ w, startWc R (potential rs R) = .ok w ∧ (potential rs R ≠ [] → w = R.wc) := by
  cases hP : potential rs R with
  | nil =>
    obtain ⟨w, hw⟩ := he fun q hq hlt => by
      have : q ∈ potential rs R := by simp [potential, hq, hlt]
      rw [hP] at this; cases this
    exact ⟨w, hw, by simp⟩
  | cons p P =>
    refine ⟨R.wc, ?_, fun _ => rfl⟩
    have hp : p ∈ rs := List.mem_of_mem_filter (p := fun Rj => decide (Rj.priority < R.priority ∨ Rj.table > R.table))
      (by have : p ∈ potential rs R := by rw [hP]; simp
          exact this)
    simp [startWc, ht R hR p hp]

theorem buildIndirect_spec (hn : 0 < n) {rs : List DRule} (ht : ∀ r ∈ rs, ∀ s ∈ rs, r.table = s.table)
    (he : ∀ r ∈ rs, (∀ q ∈ rs, ¬ q.priority < r.priority) → ∃ w, r.egress = .ok w) :
    ∃ es, buildIndirect n rs = .ok es ∧ es.Nodup ∧
      ∀ r c, ⟨r, c⟩ ∈ es ↔ r ∈ rs ∧ c ∈ rs ∧ c.priority < r.priority ∧ ∃ p, r.hits n p ∧ c.hits n p := by
  obtain ⟨es, h1, h2, h3⟩ := foldlM_adds (f := fun g R => indirectHs n R (potential rs R) g) (fun s (e : Edge) => e ∈ s) List.Nodup
    (fun R e => e.child = R ∧ e.parent ∈ rs ∧ e.parent.priority < R.priority ∧ ∃ p, R.hits n p ∧ e.parent.hits n p) rs
    (fun R hR s hs => by
      obtain ⟨w, hw, hw'⟩ := start_table ht hR (he R hR)
      refine ⟨(potential rs R).foldl (fun g p => if wcIntersect n w p.wc ≠ 0 then setAdd ⟨R, p⟩ g else g) s,
        by simp only [indirectHs, hw, bind, Except.bind, pure, Except.pure],
        foldl_nodup (fun p : DRule => wcIntersect n w p.wc ≠ 0) (fun p => (⟨R, p⟩ : Edge)) _ _ hs, fun e => ?_⟩
      rw [mem_foldl_setAdd (fun p : DRule => wcIntersect n w p.wc ≠ 0) (fun p => (⟨R, p⟩ : Edge))]
      refine or_congr_right ?_
      constructor
      · rintro ⟨p, hp, hx, rfl⟩
        have hpm := hp
        simp only [potential, List.mem_filter, decide_eq_true_eq] at hp
        have : w = R.wc := hw' (List.ne_nil_of_mem hpm)
        subst this
        refine ⟨rfl, hp.1, ?_, ?_⟩
        · rcases hp.2 with h | h
          · exact h
          · exact absurd (ht R hR p hp.1) (by omega)
        · by_contra hno
          exact hx ((wcIntersect_eq_zero hn _ _).2 hno)
      · rintro ⟨rfl, hp, hlt, hx⟩
        have hpm : e.parent ∈ potential rs e.child := by simp [potential, hp, hlt]
        have : w = e.child.wc := hw' (List.ne_nil_of_mem hpm)
        subst this
        exact ⟨e.parent, hpm, fun h0 => (wcIntersect_eq_zero hn _ _).1 h0 hx, rfl⟩)
    [] (by simp)
  refine ⟨es, h1, h2, fun r c => ?_⟩
  rw [h3]
  simp only [List.not_mem_nil, false_or]
  constructor
  · rintro ⟨x, hx, rfl, h⟩; exact ⟨hx, h⟩
  · rintro ⟨hx, h⟩; exact ⟨r, hx, rfl, h⟩

end Deps
end OFE
