import Verif.Rule.ReqLemmas
import Verif.Props.ActionSet

/-!
# Lemmas: merging rules without push and pop
-/

namespace OFE

/-- The value a list of actions leaves in field `g`, if it sets it. -/
def setOf : List Action → Nat → Option Nat
  | [], _ => none
  | a :: rest, g => (setOf rest g).or (match a with | .setField f v => if g = f then some (wrote f v) else none | _ => none)

theorem setValue_eq (f v : Nat) : setValue f v = wrote f v := rfl

/-- Fields set are OpenFlow fields other than the metadata. -/
structure FlatOK (s : List Action) : Prop where
  flat : FlatActs s
  fields : ∀ f v, Action.setField f v ∈ s → f < 40

theorem FlatOK.tail {a : Action} {s : List Action} (h : FlatOK (a :: s)) : FlatOK s :=
  ⟨fun b hb => h.flat b (List.mem_cons_of_mem _ hb), fun f v hf => h.fields f v (List.mem_cons_of_mem _ hf)⟩

theorem setOf_lt {s : List Action} (h : FlatOK s) {g : Nat} (hg : (setOf s g).isSome = true) : g < 40 ∧ g ≠ 2 := by
  induction s with
  | nil => simp [setOf] at hg
  | cons a s ih =>
    simp only [setOf, Option.isSome_or, Bool.or_eq_true] at hg
    rcases hg with hg | hg
    · exact ih h.tail hg
    · split at hg
      · next f v =>
        split at hg
        · next e =>
          subst e
          refine ⟨h.fields _ _ List.mem_cons_self, fun e => ?_⟩
          subst e
          exact (h.flat _ List.mem_cons_self).2.2 v rfl
        · cases hg
      · cases hg

theorem simStep_flat {a : Action} (h1 : a.pushes = none) (h2 : a.pops = none) (x : Match × Match) :
    simStep x a = .ok (match a with
      | .setField f v => (x.1.append f (wrote f v) none, x.2.append f (wrote f v) none)
      | _ => x) := by
  cases a <;> simp [Action.pushes, Action.pops] at h1 h2 <;> rfl

theorem act_flat_fld {a : Action} (h1 : a.pushes = none) (h2 : a.pops = none) (p : Pkt) (g d : Nat) :
    (act a p).fld g d = match a with
      | .setField f v => if g = f ∧ d = 0 then wrote f v else p.fld g d
      | _ => p.fld g d := by
  cases a <;> simp [Action.pushes, Action.pops] at h1 h2 <;> rfl

theorem exec_flat_fld {s : List Action} (h : FlatOK s) (p : Pkt) (g d : Nat) :
    (exec s p).1.fld g d = if d = 0 then (setOf s g).getD (p.fld g 0) else p.fld g d := by
  induction s generalizing p with
  | nil => simp only [exec, setOf]; split <;> simp_all
  | cons a s ih =>
    have ha := h.flat a List.mem_cons_self
    simp only [exec]
    rw [ih h.tail, act_flat_fld ha.1 ha.2.1, act_flat_fld ha.1 ha.2.1]
    by_cases hd : d = 0
    · subst hd
      simp only [if_true, setOf]
      cases setOf s g with
      | some v => simp
      | none =>
        simp only [Option.none_or, Option.getD_none]
        cases a <;> simp
        split <;> simp
    · simp only [if_neg hd]
      cases a <;> simp [hd]

theorem normValue_none (f v : Nat) : normValue f v none = (v, none) := by
  unfold normValue
  cases fieldBits f <;> rfl

theorem foldlM_simStep {s : List Action} (h : FlatOK s) : ∀ (sim rw : Match), sim.Inv → rw.Inv →
    (∀ x ∈ sim.items, x.1 < 40) → (∀ x ∈ rw.items, x.1 < 40) →
    ∃ sim' rw', s.foldlM simStep (sim, rw) = .ok (sim', rw') ∧ sim'.Inv ∧ rw'.Inv ∧ (∀ x ∈ sim'.items, x.1 < 40) ∧
      (∀ x ∈ rw'.items, x.1 < 40) ∧
      (∀ g, sim'.items.lookup g = ((setOf s g).map (·, none)).or (sim.items.lookup g)) ∧
      ∀ g, rw'.items.lookup g = ((setOf s g).map (·, none)).or (rw.items.lookup g) := by
  induction s with
  | nil =>
    intro sim rw h1 h2 h3 h4
    exact ⟨sim, rw, rfl, h1, h2, h3, h4, by simp [setOf], by simp [setOf]⟩
  | cons a s ih =>
    intro sim rw h1 h2 h3 h4
    have ha := h.flat a List.mem_cons_self
    rw [List.foldlM_cons, simStep_flat ha.1 ha.2.1]
    simp only [bind, Except.bind]
    cases a with
    | setField f v =>
      have hf := h.fields f v List.mem_cons_self
      obtain ⟨sim', rw', e, i1, i2, k1, k2, l1, l2⟩ := ih h.tail (sim.append f (wrote f v) none) (rw.append f (wrote f v) none)
        (inv_append h1 _ _ _) (inv_append h2 _ _ _) (keys_append hf h3) (keys_append hf h4)
      refine ⟨sim', rw', e, i1, i2, k1, k2, fun g => ?_, fun g => ?_⟩
      · rw [l1, lookup_append, normValue_none]
        simp only [setOf]
        cases setOf s g <;> simp
        split <;> simp
      · rw [l2, lookup_append, normValue_none]
        simp only [setOf]
        cases setOf s g <;> simp
        split <;> simp
    | _ =>
      obtain ⟨sim', rw', e, i1, i2, k1, k2, l1, l2⟩ := ih h.tail sim rw h1 h2 h3 h4
      refine ⟨sim', rw', e, i1, i2, k1, k2, fun g => ?_, fun g => ?_⟩
      · rw [l1]; simp [setOf]
      · rw [l2]; simp [setOf]

/-- The bits a rule rewrites. -/
def rwBit (i : Inst) (g k : Nat) : Option Bool :=
  if g = 2 then (match i.wmeta with | none => none | some (v, m) => reqItem v m k) else (setOf i.apply.iter g).map (·.testBit k)

theorem shown_lt {g : Nat} (h : g < 40) : shown g = (g, 0) := by simp [shown, h]

theorem shown_ge {g : Nat} (h : 40 ≤ g) : (shown g).2 ≠ 0 := by
  have : ¬ g < 40 := by omega
  simp [shown, this]

theorem forward_bit {i : Inst} (h : FlatOK i.apply.iter) (p : Pkt) {g k : Nat} (hk : k < width g) :
    (i.forward p).hdr.bit g k = (rwBit i g k).getD (p.hdr.bit g k) := by
  have hg := field_lt hk
  rw [hdr_bit _ hg hk, hdr_bit _ hg hk]
  have hs2 : setOf i.apply.iter 2 = none := by
    cases hs : setOf i.apply.iter 2 with
    | none => rfl
    | some v => exact absurd rfl (setOf_lt h (by rw [hs]; rfl)).2
  by_cases h40 : g < 40
  · rw [shown_lt h40]
    simp only
    by_cases hg2 : g = 2
    · subst hg2
      unfold Inst.forward rwBit
      have e := exec_flat_fld h p 2 0
      rw [hs2] at e
      simp only [if_true, Option.getD_none] at e
      cases hw : i.wmeta with
      | none => simp only [writeMeta, if_true, Option.getD_none, e]
      | some w =>
        obtain ⟨v, m⟩ := w
        cases m with
        | none => simp [writeMeta, reqItem]
        | some m =>
          simp only [writeMeta, reqItem, e, and_self, if_true, Nat.testBit_or, Nat.testBit_and, testBit_andNot]
          by_cases hm : m.testBit k = true
          · simp [hm]
          · simp [hm]
    · have e := exec_flat_fld h p g 0
      simp only [if_true] at e
      have e2 : (i.forward p).fld g 0 = (exec i.apply.iter p).1.fld g 0 := by
        unfold Inst.forward writeMeta
        split <;> simp [hg2]
      rw [e2, e]
      unfold rwBit
      rw [if_neg hg2]
      cases setOf i.apply.iter g <;> rfl
  · have hd : (shown g).2 ≠ 0 := shown_ge (by omega)
    have e := exec_flat_fld h p (shown g).1 (shown g).2
    rw [if_neg hd] at e
    have e2 : (i.forward p).fld (shown g).1 (shown g).2 = (exec i.apply.iter p).1.fld (shown g).1 (shown g).2 := by
      unfold Inst.forward writeMeta
      split <;> simp [hd]
    rw [e2, e]
    have : rwBit i g k = none := by
      unfold rwBit
      rw [if_neg (by omega)]
      cases hs : setOf i.apply.iter g with
      | none => rfl
      | some v => exact absurd (setOf_lt h (by rw [hs]; rfl)).1 h40
    rw [this]; rfl

/-- What `simEgress` computes. -/
structure SimOK {π : Type} (r : Rule π) (sim rw : Match) : Prop where
  inv : sim.Inv
  invrw : rw.Inv
  keys : ∀ x ∈ sim.items, x.1 < 40
  keysrw : ∀ x ∈ rw.items, x.1 < 40
  req : ∀ g k, k < width g → OFE.req sim.items g k = (rwBit r.inst g k).or (OFE.req r.mat.items g k)
  rwSome : ∀ g, g ≠ 2 → ((rw.items.lookup g).isSome = true ↔ (setOf r.inst.apply.iter g).isSome = true)
  rwMeta : rw.items.lookup 2 = (match r.inst.wmeta with | none => none | some (v, m) => some (normValue 2 v m))

theorem simEgress_ok {π : Type} {r : Rule π} (hi : r.mat.Inv) (hk : ∀ x ∈ r.mat.items, x.1 < 40) (hf : FlatOK r.inst.apply.iter) :
    ∃ sim rw, simEgress r none = .ok (sim, rw) ∧ SimOK r sim rw := by
  obtain ⟨sim, rw, e, i1, i2, k1, k2, l1, l2⟩ := foldlM_simStep hf r.mat Match.empty hi inv_empty hk (by simp [Match.empty])
  have hs2 : setOf r.inst.apply.iter 2 = none := by
    cases hs : setOf r.inst.apply.iter 2 with
    | none => rfl
    | some v => exact absurd rfl (setOf_lt hf (by rw [hs]; rfl)).2
  have l2' : ∀ g, rw.items.lookup g = (setOf r.inst.apply.iter g).map (·, none) := fun g => by
    rw [l2]; simp [Match.empty]
  have hsim : simEgress r none = .ok (simMeta r.inst.wmeta (sim, rw)) := by
    unfold simEgress
    simp only [bind, Except.bind]
    rw [e]
    rfl
  have hreq : ∀ g k, OFE.req sim.items g k = ((setOf r.inst.apply.iter g).map (·.testBit k)).or (OFE.req r.mat.items g k) := by
    intro g k
    unfold OFE.req
    rw [l1]
    cases setOf r.inst.apply.iter g <;> simp [reqItem]
  have hm2 : sim.items.lookup 2 = r.mat.items.lookup 2 := by rw [l1, hs2]; simp
  cases hw : r.inst.wmeta with
  | none =>
    refine ⟨sim, rw, by rw [hsim, hw]; rfl, i1, i2, k1, k2, fun g k hk => ?_, fun g _ => ?_, ?_⟩
    · rw [hreq]
      unfold rwBit
      by_cases hg : g = 2
      · subst hg; simp [hw, hs2]
      · simp [hg]
    · rw [l2']; simp
    · rw [l2', hs2, hw]; rfl
  | some w =>
    obtain ⟨wv, W⟩ := w
    have hrw : (simMeta r.inst.wmeta (sim, rw)).2 = rw.append 2 wv W := by rw [hw]; rfl
    refine ⟨(simMeta r.inst.wmeta (sim, rw)).1, (simMeta r.inst.wmeta (sim, rw)).2, hsim, ?_, ?_, ?_, ?_, fun g k hk => ?_,
      fun g hg => ?_, ?_⟩
    · rw [hw]; unfold simMeta; simp only; split <;> exact inv_append i1 _ _ _
    · rw [hrw]; exact inv_append i2 _ _ _
    · rw [hw]; unfold simMeta; simp only; split <;> exact keys_append (by decide) k1
    · rw [hrw]; exact keys_append (by decide) k2
    · rw [hw]
      unfold simMeta rwBit
      simp only [hw]
      by_cases hg : g = 2
      · subst hg
        simp only [if_true]
        split
        · next mv mm wmask h1 =>
          have e1 : sim.items.lookup 2 = some (mv, mm) := h1
          rw [show fMeta = 2 from rfl, req_append (by decide) hk, if_pos rfl]
          unfold OFE.req
          rw [← hm2, e1]
          unfold reqItem
          simp only
          cases mm with
          | none =>
            simp only [Nat.testBit_or, Nat.testBit_and, testBit_andNot]
            by_cases hm : wmask.testBit k = true <;> simp [hm]
          | some m =>
            simp only [Nat.testBit_or, Nat.testBit_and, testBit_andNot]
            by_cases hm : wmask.testBit k = true <;> simp [hm]
        · rename_i W _ _ hno
          rw [show fMeta = 2 from rfl, req_append (by decide) hk, if_pos rfl]
          cases W with
          | none => simp [reqItem]
          | some wmask =>
            have : r.mat.items.lookup 2 = none := by
              cases hl : r.mat.items.lookup 2 with
              | none => rfl
              | some x => exact absurd rfl (hno x.1 x.2 wmask (by rw [show fMeta = 2 from rfl, hm2, hl]))
            unfold OFE.req
            rw [this]
            simp
      · simp only [if_neg hg]
        rw [← hreq]
        split
        · rw [show fMeta = 2 from rfl, req_append (by decide) hk, if_neg hg]
        · rw [show fMeta = 2 from rfl, req_append (by decide) hk, if_neg hg]
    · rw [hrw, lookup_append, if_neg hg, l2']; simp
    · rw [hrw, lookup_append, if_pos rfl, hw]

end OFE
