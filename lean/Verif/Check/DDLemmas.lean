import Verif.Cudd.Lemmas
import Verif.Match.MatchLemmas

/-!
# Diagrams that only look at the OpenFlow fields
-/

namespace OFE
namespace DD
variable {α : Type} [DecidableEq α]

/-- A reduced diagram whose value does not depend on the variables from `N` on has no nodes for them. -/
theorem wf_of_indep {n N k : Nat} {t : DD α} (h : WF n k t)
    (hi : ∀ q q' : Nat → Bool, (∀ i, i < N → q i = q' i) → t.eval q = t.eval q') : WF N k t := by
  induction t generalizing k with
  | bot => trivial
  | term => trivial
  | node num z o ihz iho =>
    have hz : ∀ q, z.eval q = (node num z o).eval (Function.update q num false) := eval_zero h
    have ho : ∀ q, o.eval q = (node num z o).eval (Function.update q num true) := eval_one h
    have upd : ∀ (b : Bool) (q q' : Nat → Bool), (∀ i, i < N → q i = q' i) →
        ∀ i, i < N → Function.update q num b i = Function.update q' num b i := by
      intro b q q' hq i hi
      by_cases e : i = num
      · subst e; simp
      · rw [Function.update_of_ne e, Function.update_of_ne e]; exact hq i hi
    have hlt : num < N := by
      by_contra hge
      refine h.2.2.1 (eq_of_eval_eq h.2.2.2.1 h.2.2.2.2 fun q => ?_)
      rw [hz, ho]
      apply hi
      intro i hi'
      rw [Function.update_of_ne (by omega), Function.update_of_ne (by omega)]
    refine ⟨h.1, hlt, h.2.2.1, ihz h.2.2.2.1 fun q q' hq => ?_, iho h.2.2.2.2 fun q q' hq => ?_⟩
    · rw [hz, hz]; exact hi _ _ (upd _ _ _ hq)
    · rw [ho, ho]; exact hi _ _ (upd _ _ _ hq)

/-- The wildcards read off such a diagram leave the corresponding header bits open. -/
theorem toWcsAux_free {n N m k : Nat} {t : DD α} (ht : WF N k t) (hm : m + N ≤ n) {wc : Nat} (hw : FreeBelow m wc) :
    ∀ x ∈ toWcsAux (n - 1) t wc, FreeBelow m x.1 := by
  induction t generalizing k wc with
  | bot => simp [toWcsAux]
  | term a => simpa [toWcsAux] using hw
  | node num z o ihz iho =>
    obtain ⟨h1, h2, h3, h4, h5⟩ := ht
    intro x hx
    simp only [toWcsAux, List.mem_append] at hx
    rcases hx with hx | hx
    · refine ihz h4 (fun i hi => ?_) x hx
      simp only [testBit_andNot, testBit_two_shift]
      have := hw i hi
      simp [this]; omega
    · refine iho h5 (fun i hi => ?_) x hx
      simp only [testBit_andNot, testBit_one_shift]
      have := hw i hi
      simp [this]; omega

end DD

open DD

/-- The bits of the fields of OpenFlow proper lie above those of the inner headers and the padding. -/
theorem fieldPos_outer : fieldPos 39 + width 39 ≤ totBits ∧ 3 ≤ fieldPos 39 ∧ ∀ f, f < 40 → fieldPos 39 ≤ fieldPos f := by
  decide +kernel

theorem freeBelow_match {m : MItems} {w : Nat} (hk : ∀ x ∈ m, x.1 < 40) (h : toWildcard m = .ok w) : FreeBelow (fieldPos 39) w := by
  obtain ⟨w', e, b⟩ := toWildcard_ok (m := m) fun x hx => by have := hk x hx; omega
  rw [h] at e; cases e
  have ho := fieldPos_outer
  have key : ∀ i c, i < fieldPos 39 → w.testBit (2 * i + Bool.toNat c) = true := by
    intro i c hi
    rw [b, decide_eq_true (by omega), Bool.true_and, List.all_eq_true]
    intro x hx
    have := ho.2.2 x.1 (hk x hx)
    exact allows_outside (by omega)
  intro i hi
  exact ⟨key i false hi, key i true hi⟩

theorem padFull_of_free {w : Nat} (h : FreeBelow (fieldPos 39) w) : PadFull w := by
  intro j hj
  have ho := fieldPos_outer
  have := h (j / 2) (by omega)
  rcases Nat.mod_two_eq_zero_or_one j with e | e
  · rw [show j = 2 * (j / 2) by omega]; exact this.1
  · rw [show j = 2 * (j / 2) + 1 by omega]; exact this.2

theorem fieldsOf_outer {w : Nat} (h : FreeBelow (fieldPos 39) w) : ∀ x ∈ fieldsOf w, x.1 < 40 := by
  intro x hx
  by_contra hge
  obtain ⟨h1, h2⟩ := mem_fieldsOf.1 hx
  have hn := nextPos_eq h1
  have hle : fieldPos x.1 + width x.1 ≤ fieldPos 39 := by
    have h3 : ∀ f, f < 56 → 40 ≤ f → fieldPos f + width f ≤ fieldPos 39 := by decide +kernel
    exact h3 x.1 h1 (by omega)
  rw [entryOf_nil fun j hj1 hj2 => ?_] at h2
  · simp at h2
  · have := h (j / 2) (by omega)
    rcases Nat.mod_two_eq_zero_or_one j with e | e
    · rw [show j = 2 * (j / 2) by omega]; exact this.1
    · rw [show j = 2 * (j / 2) + 1 by omega]; exact this.2

theorem covers_free {n m w : Nat} (h : FreeBelow m w) {p q : Packet} (hpq : ∀ i, m ≤ i → i < n → p i = q i) :
    Covers n w p ↔ Covers n w q := by
  have key : ∀ {p q : Packet}, (∀ i, m ≤ i → i < n → p i = q i) → Covers n w p → Covers n w q := by
    intro p q hpq hc i hi
    by_cases hm : m ≤ i
    · rw [← hpq i hm hi]; exact hc i hi
    · have := h i (by omega)
      cases q i
      · exact this.1
      · exact this.2
  exact ⟨key hpq, key fun i a b => (hpq i a b).symm⟩

end OFE
