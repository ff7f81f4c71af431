import Verif.Rule.TunnelMerge
import Verif.Ruleset.TunnelSpec
import Verif.Deps.TunnelLemmas

/-!
# Lemmas: every header in the simulated egress is that of some packet

The other direction of C32: what the simulated egress allows in the outermost headers does occur.
-/

namespace OFE

variable {π : Type}

theorem act_congr (a : Action) {p p' : Pkt} {g : Nat} (h : ∀ d, p.fld g d = p'.fld g d) (d : Nat) : (act a p).fld g d = (act a p').fld g d := by
  cases a <;> simp only [act, pushHdr, popHdr, h] <;> rfl

theorem exec_congr : ∀ (l : List Action) {p p' : Pkt} {g : Nat}, (∀ d, p.fld g d = p'.fld g d) → ∀ d, (exec l p).1.fld g d = (exec l p').1.fld g d
  | [], _, _, _, h, d => h d
  | a :: l, _, _, _, h, d => exec_congr l (act_congr a h) d

theorem forward_congr {i : Inst} {p p' : Pkt} {g : Nat} (hg : g ≠ 2) (h : ∀ d, p.fld g d = p'.fld g d) (d : Nat) :
    (i.forward p).fld g d = (i.forward p').fld g d := by
  have := exec_congr i.apply.iter h d
  unfold Inst.forward writeMeta
  split
  · exact this
  · simp only [hg, false_and, if_false]; exact this
  · simp only [hg, false_and, if_false]; exact this

/-- The value of a field that has the required bits and is 0 otherwise. -/
def leastVal (m : Match) (g : Nat) : Nat :=
  if m.items.lookup g = none then 0 else Nat.ofBits fun i : Fin (width g) => (req m.items g i).getD false

theorem leastVal_bit {m : Match} {g k : Nat} (hk : k < width g) : (leastVal m g).testBit k = (req m.items g k).getD false := by
  unfold leastVal
  split
  · next h => rw [req_none h]; simp
  · rw [Nat.testBit_ofBits_lt _ _ hk]

/-- The packet with just the required bits. -/
def leastPkt (m : Match) : Pkt := ⟨fun g d => if d = 0 then leastVal m g else 0, fun _ => 0, 0, fun _ => 0, 0, 0⟩

theorem leastPkt_bit {m : Match} {g k : Nat} (hk : k < width g) {b : Bool} (h : req m.items g k = some b) : ((leastPkt m).fld g 0).testBit k = b := by
  simp only [leastPkt, if_true]
  rw [leastVal_bit hk, h]; rfl

/-- Every packet that the simulated egress covers looks, in its outermost headers, like one that the rule forwards. -/
theorem egress_sound {r : Rule π} (hr : RuleOK r) (hm : NoMeta r.inst.apply.iter) (h2 : ∀ t, pushCount t r.inst.apply.iter ≤ 2)
    (h1 : ∀ t, popCount t r.inst.apply.iter = 0 ∨ pushCount t r.inst.apply.iter ≤ 1)
    (hx : ∀ t, 0 < pushCount t r.inst.apply.iter → ∀ f ∈ t.fields, ExactOrFree r.mat f) :
    ∃ e, gotoEgress r none = .ok e ∧ Deps.MOK e ∧ ∀ q, e.accepts q → ∃ p, r.mat.accepts p ∧
      ∀ g k, g < 40 → k < width g → ((r.inst.forward p).fld g 0).testBit k = (q.fld g 0).testBit k := by
  obtain ⟨sim, rw', es, hs⟩ := simEgress_tun hr hm h2 h1
  have eg : gotoEgress r none = .ok sim := by simp only [gotoEgress, es, bind, Except.bind, pure, Except.pure]
  refine ⟨sim, eg, ⟨hs.inv, hs.keys⟩, fun q hq => ?_⟩
  have hreq : ∀ {p : Pkt}, sim.accepts p → ∀ g k b, g < 40 → k < width g → req sim.items g k = some b → (p.fld g 0).testBit k = b := by
    intro p hp g k b hg hk hb
    have := (agrees_iff hs.inv).2 hp g k b hk hb
    rwa [shown_lt hg] at this
  have h0acc : r.mat.accepts (leastPkt r.mat) := (accepts_outer hr.inv hr.keys _).2 fun g k b _ hk hb => leastPkt_bit hk hb
  have h0 : sim.accepts (r.inst.forward (leastPkt r.mat)) := by
    obtain ⟨m, e1, ha⟩ := C32_egress_covers_partial r hr (leastPkt r.mat) h0acc h2 h1 fun t ht f hf => by
      refine ⟨fun d hd => by simp only [leastPkt, if_neg (show d ≠ 0 by omega)], ?_⟩
      rcases hx t ht f hf with h | h
      · exact .inr ⟨h, by simp [leastPkt, leastVal, h]⟩
      · exact .inl h
    rw [eg] at e1
    cases e1
    exact ha
  let M : Nat := Nat.ofBits fun i : Fin (width 2) => if (rwBit r.inst 2 i).isSome then (req r.mat.items 2 i).getD false else (q.fld 2 0).testBit i
  have hM : ∀ k, k < width 2 → M.testBit k = if (rwBit r.inst 2 k).isSome then (req r.mat.items 2 k).getD false else (q.fld 2 0).testBit k := by
    intro k hk
    simp only [M]
    rw [Nat.testBit_ofBits_lt _ _ hk]
  let fromAt : Nat → Nat := fun g => popsOf g r.inst.apply.iter - pushesOf g r.inst.apply.iter
  let F : Nat → Nat → Nat := fun g d =>
    if g = 2 then (if d = 0 then M else 0)
    else if (rw'.items.lookup g).isSome then (leastPkt r.mat).fld g d
    else if d = (fromAt g) then q.fld g 0
    else (leastPkt r.mat).fld g d
  let p : Pkt := { leastPkt r.mat with fld := F }
  have p2 : p.fld 2 0 = M := rfl
  refine ⟨p, (accepts_outer hr.inv hr.keys p).2 fun g k b hg hk hb => ?_, fun g k hg hk => ?_⟩
  · by_cases g2 : g = 2
    · subst g2
      rw [p2, hM k hk]
      have hsr := hs.reqMeta k hk
      cases hw : rwBit r.inst 2 k with
      | some d => simp [hb]
      | none =>
        rw [hw, Option.none_or, hb] at hsr
        simpa using hreq hq 2 k b hg hk hsr
    · show (if g = 2 then _ else _ : Nat).testBit k = b
      rw [if_neg g2]
      cases hl : rw'.items.lookup g with
      | some v => simpa using leastPkt_bit hk hb
      | none =>
        rcases hs.slot g hg g2 with ⟨v, h, -⟩ | ⟨-, hle, hrq⟩
        · rw [show inAt g 0 = g from rfl, hl] at h; cases h
        · by_cases hp : 0 = fromAt g
          · simp only [Option.isSome_none, Bool.false_eq_true, if_false, if_pos hp]
            have := hrq k hk
            rw [if_pos (by simp only [fromAt] at hp; omega), hb] at this
            exact hreq hq g k b hg hk this
          · simp only [Option.isSome_none, Bool.false_eq_true, if_false, if_neg hp]
            exact leastPkt_bit hk hb
  · by_cases g2 : g = 2
    · subst g2
      rw [hs.pktMeta, p2, hM k hk]
      have hsr := hs.reqMeta k hk
      cases hw : rwBit r.inst 2 k with
      | some d =>
        rw [hw, Option.some_or] at hsr
        simpa using (hreq hq 2 k d hg hk hsr).symm
      | none => simp
    · cases hl : rw'.items.lookup g with
      | some v =>
        have hsame : ∀ d, p.fld g d = (leastPkt r.mat).fld g d := fun d => by
          show (if g = 2 then _ else _ : Nat) = _
          simp [g2, hl]
        rw [forward_congr g2 hsame]
        rcases hs.slot g hg g2 with ⟨v, -, h⟩ | ⟨h, -⟩
        · have hv : req sim.items g k = some (v.testBit k) := by
            unfold req
            rw [show sim.items.lookup g = some (v, none) from h]; rfl
          rw [hreq h0 g k _ hg hk hv, hreq hq g k _ hg hk hv]
        · rw [show inAt g 0 = g from rfl, hl] at h; cases h
      | none =>
        rw [hs.pkt p g hg g2 hl]
        show (if g = 2 then _ else _ : Nat).testBit k = _
        simp [g2, hl, fromAt]

end OFE
