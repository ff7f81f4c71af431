import Verif.Reverse.Model
import Verif.Props.Main

/-!
# Lemmas for the option to reverse fields
-/

namespace OFE

/-! ### Reversed numbers -/

theorem testBit_double_add (x : Nat) (b : Bool) (j : Nat) : (x * 2 + b.toNat).testBit j = if j = 0 then b else x.testBit (j - 1) := by
  cases j with
  | zero => cases b <;> simp
  | succ j =>
    rw [Nat.testBit_succ]
    have : (x * 2 + b.toNat) / 2 = x := by cases b <;> simp <;> omega
    rw [this]; simp

theorem testBit_readBits (v n j : Nat) : (readBits v n).testBit j = (decide (j < n) && v.testBit (n - 1 - j)) := by
  induction n generalizing j with
  | zero => simp [readBits]
  | succ n ih =>
    have e : readBits v (n + 1) = readBits v n * 2 + (v.testBit n).toNat := by
      unfold readBits; rw [List.range_succ, List.foldl_append]; rfl
    rw [e, testBit_double_add]
    cases j with
    | zero => simp
    | succ j =>
      rw [if_neg (by omega), ih, show j + 1 - 1 = j from rfl, show n + 1 - 1 - (j + 1) = n - 1 - j from by omega]
      congr 1
      simp

/-- The lowest `w` bits in the opposite order, the others as they are. -/
def revLow (w v : Nat) : Nat := readBits v w ||| (v >>> w) <<< w

theorem testBit_revLow (w v j : Nat) : (revLow w v).testBit j = if j < w then v.testBit (w - 1 - j) else v.testBit j := by
  unfold revLow
  rw [Nat.testBit_or, testBit_readBits, Nat.testBit_shiftLeft, Nat.testBit_shiftRight]
  by_cases h : j < w
  · simp [h, show ¬ w ≤ j by omega]
  · simp [h, show w ≤ j by omega, show w + (j - w) = j by omega]

theorem revLow_revLow (w v : Nat) : revLow w (revLow w v) = v := by
  apply Nat.eq_of_testBit_eq
  intro j
  rw [testBit_revLow]
  split
  · rw [testBit_revLow, if_pos (by omega)]
    congr 1; omega
  · rw [testBit_revLow, if_neg (by assumption)]

theorem revLow_zero (w : Nat) : revLow w 0 = 0 := by
  apply Nat.eq_of_testBit_eq
  intro j
  rw [testBit_revLow]; simp

theorem revLow_small {w v : Nat} (h : v < 2 ^ w) : revLow w v = readBits v w := by
  unfold revLow
  rw [Nat.shiftRight_eq_div_pow, Nat.div_eq_of_lt h]
  simp

theorem reverseChecked_ok {f v : Nat} (hf : f < 40) (hv : v < 2 ^ width f) : reverseChecked f v = .ok (revLow (width f) v) := by
  have hb : fieldBits f = some (width f) ∧ 0 < width f := by
    have : ∀ f : Fin 40, fieldBits f.1 = some (width f.1) ∧ 0 < width f.1 := by decide +kernel
    exact this ⟨f, hf⟩
  have hr : reverseValue (width f) v = revLow (width f) v := by
    unfold reverseValue
    rw [revLow_small hv, Nat.max_eq_left]
    split
    · exact hb.2
    · exact (Nat.log2_lt (by assumption)).2 hv
  unfold reverseChecked
  rw [hb.1]
  simp only [hr]
  rw [if_pos]
  apply Nat.eq_of_testBit_eq
  intro j
  rw [Nat.testBit_and, Nat.testBit_two_pow_sub_one, testBit_revLow]
  by_cases h : j < width f
  · simp [h]
  · have : v.testBit j = false := Nat.testBit_lt_two_pow (Nat.lt_of_lt_of_le hv (Nat.pow_le_pow_right (by omega) (by omega)))
    simp [h, this]

/-! ### Reversed packets -/

/-- The packet with the bits of every field but the VLAN id in the opposite order. -/
def revPkt (p : Pkt) : Pkt :=
  { p with fld := fun g d => if g = 6 then p.fld g d else revLow (width g) (p.fld g d), ipcp := fun d => revLow (width 7) (p.ipcp d) }

theorem revPkt_revPkt (p : Pkt) : revPkt (revPkt p) = p := by
  obtain ⟨fld, ipcp, a, b, c, d⟩ := p
  simp only [revPkt, Pkt.mk.injEq, and_true]
  refine ⟨?_, ?_⟩
  · funext g d
    split
    · rfl
    · exact revLow_revLow ..
  · funext d; exact revLow_revLow ..

theorem wire_revPkt (p : Pkt) : wire (revPkt p) = revPkt (wire p) := by
  simp only [wire, revPkt, Pkt.mk.injEq, and_true]
  funext g d
  by_cases h : g = 2 ∧ d = 0
  · rw [if_pos h, if_pos h, if_neg (by omega), revLow_zero]
  · rw [if_neg h, if_neg h]

/-- The action on reversed packets. -/
def revAct : Action → Action
  | .setField f v => if f = 6 then .setField f v else .setField f (revLow (width f) v)
  | a => a

theorem revAct_set (f v : Nat) : revAct (.setField f v) = if f = 6 then .setField f v else .setField f (revLow (width f) v) := rfl

/-- Sent copies reversed. -/
def revSent (l : List (Dest × Pkt)) : List (Dest × Pkt) := l.map fun x => (x.1, revPkt x.2)

theorem act_revAct (a : Action) (p : Pkt) : act (revAct a) (revPkt p) = revPkt (act a p) := by
  have push : ∀ (h : Nat → Bool), pushHdr h (revPkt p).fld = (fun g d => if g = 6 then pushHdr h p.fld g d else revLow (width g) (pushHdr h p.fld g d)) := by
    intro h
    funext g d
    simp only [pushHdr, revPkt, wrote]
    by_cases hg : g = 6
    · subst hg; simp
    · by_cases hh : h g = true <;> by_cases hd : d = 0 <;> simp [hg, hh, hd]
  have pop : ∀ (h : Nat → Bool), popHdr h (revPkt p).fld = (fun g d => if g = 6 then popHdr h p.fld g d else revLow (width g) (popHdr h p.fld g d)) := by
    intro h
    funext g d
    simp only [popHdr, revPkt]
    by_cases hg : g = 6
    · subst hg; simp
    · by_cases hh : h g = true <;> simp [hg, hh]
  have set : ∀ f v, act (revAct (.setField f v)) (revPkt p) = revPkt (act (.setField f v) p) := by
    intro f v
    rw [revAct_set]
    by_cases hf : f = 6
    · subst hf
      simp only [if_true, act, revPkt, Pkt.mk.injEq, and_true]
      funext g d
      by_cases hg : g = 6
      · subst hg; simp
      · simp [hg]
    · rw [if_neg hf]
      simp only [act, revPkt, Pkt.mk.injEq, and_true]
      funext g d
      by_cases hg : g = f
      · subst hg
        by_cases hd : d = 0 <;> simp [hf, hd, Writes.wr, wrote]
      · simp [hg]
  cases a with
  | setField f v => exact set f v
  | pushVlan _ => simp only [revAct, act, push]; rfl
  | popVlan => simp only [revAct, act, pop]; rfl
  | pushMpls _ => simp only [revAct, act, push]; rfl
  | popMpls _ => simp only [revAct, act, pop]; rfl
  | popPbb => simp only [revAct, act, pop]; rfl
  | pushPbb _ =>
    simp only [revAct, act, push]
    simp only [revPkt, Pkt.mk.injEq, and_true, true_and]
    funext d
    by_cases hd : d = 0 <;> simp [hd]
  | _ => rfl

theorem emit_revAct (a : Action) (p : Pkt) : emit (revAct a) (revPkt p) = revSent (emit a p) := by
  cases a with
  | setField f v => simp only [revAct]; split <;> rfl
  | _ => rfl

theorem exec_revAct (l : List Action) (p : Pkt) : exec (l.map revAct) (revPkt p) = (revPkt (exec l p).1, revSent (exec l p).2) := by
  induction l generalizing p with
  | nil => rfl
  | cons a l ih =>
    rw [List.map_cons, exec, exec, act_revAct, ih, emit_revAct]
    simp only [revSent, List.map_append]

theorem revSent_revSent (l : List (Dest × Pkt)) : revSent (revSent l) = l := by
  simp [revSent, revPkt_revPkt, Function.comp_def]

theorem SameSent.revSent {a b : List (Dest × Pkt)} (h : SameSent a b) : SameSent (revSent a) (revSent b) := by
  unfold SameSent OFE.revSent at *
  have key : ∀ l : List (Dest × Pkt), (l.map fun x => (x.1, revPkt x.2)).map (fun x => (x.1, wire x.2)) =
      (l.map fun x => (x.1, wire x.2)).map fun x => (x.1, revPkt x.2) := by
    intro l
    simp [Function.comp_def, wire_revPkt]
  rw [key, key]
  exact h.map _

/-! ### Reversed rules -/

/-- The rule `r'` does to reversed packets what `r` does to packets. -/
structure RevRule (r r' : Rule Nat) : Prop where
  table : r'.table = r.table
  priority : r'.priority = r.priority
  goto : r'.inst.goto = r.inst.goto
  accepts : ∀ p, r'.mat.accepts (revPkt p) ↔ r.mat.accepts p
  fst : ∀ p, (exec r'.inst.apply.iter (revPkt p)).1 = revPkt (exec r.inst.apply.iter p).1
  snd : ∀ p, (exec r'.inst.apply.iter (revPkt p)).2.Perm (revSent (exec r.inst.apply.iter p).2)
  write : r'.inst.write.iter = r.inst.write.iter
  safe : ∀ a ∈ r.inst.write.iter, revAct a = a
  clear : r'.inst.clear = r.inst.clear
  wmeta : r.inst.wmeta = none
  wmeta' : r'.inst.wmeta = none

theorem RevRule.symm {r r' : Rule Nat} (h : RevRule r r') : RevRule r' r where
  table := h.table.symm
  priority := h.priority.symm
  goto := h.goto.symm
  accepts p := by have := h.accepts (revPkt p); rw [revPkt_revPkt] at this; exact this.symm
  fst p := by have := h.fst (revPkt p); rw [revPkt_revPkt] at this; rw [this, revPkt_revPkt]
  snd p := by
    have := h.snd (revPkt p)
    rw [revPkt_revPkt] at this
    have h2 := this.map (fun x : Dest × Pkt => (x.1, revPkt x.2))
    change (revSent _).Perm (revSent (revSent _)) at h2
    rw [revSent_revSent] at h2
    exact h2.symm
  write := h.write.symm
  safe := by rw [h.write]; exact h.safe
  clear := h.clear.symm
  wmeta := h.wmeta'
  wmeta' := h.wmeta

/-- States of a switch that has seen the packet and of one that has seen the reversed packet. -/
structure RevSt (s s' : St) : Prop where
  pkt : s'.pkt = revPkt s.pkt
  sent : s'.sent.Perm (revSent s.sent)
  writes : s'.writes = s.writes
  safe : ∀ a ∈ s.writes, revAct a = a

theorem RevSt.run {r r' : Rule Nat} (h : RevRule r r') {s s' : St} (hs : RevSt s s') : RevSt (r.inst.run s) (r'.inst.run s') := by
  refine ⟨?_, ?_, ?_, ?_⟩
  · simp only [Inst.run, Inst.forward, h.wmeta, h.wmeta', writeMeta]
    rw [hs.pkt, h.fst]
  · simp only [Inst.run]
    rw [hs.pkt, revSent, List.map_append]
    exact hs.sent.append (h.snd _)
  · simp only [Inst.run]
    rw [h.clear, h.write, hs.writes]
  · intro a ha
    simp only [Inst.run] at ha
    rcases List.mem_append.1 ha with ha | ha
    · split at ha
      · cases ha
      · exact hs.safe a ha
    · exact h.safe a ha

theorem RevSt.finish {s s' : St} (h : RevSt s s') : s'.finish.Perm (revSent s.finish) := by
  unfold St.finish
  have e : finalSet s.writes = (finalSet s.writes).map revAct := by
    symm
    exact (List.map_congr_left fun a ha => h.safe a (mem_finalSet.1 ha).1.mem).trans (List.map_id' _)
  rw [h.pkt, h.writes]
  conv => lhs; rw [e]
  rw [exec_revAct]
  simp only
  rw [show revSent (s.sent ++ (exec (finalSet s.writes) s.pkt).2) = revSent s.sent ++ revSent (exec (finalSet s.writes) s.pkt).2 from List.map_append]
  exact h.sent.append (.refl _)

theorem forall2_mem {α β : Type} {R : α → β → Prop} {l : List α} {l' : List β} (h : List.Forall₂ R l l') :
    (∀ x ∈ l, ∃ y ∈ l', R x y) ∧ ∀ y ∈ l', ∃ x ∈ l, R x y := by
  induction h with
  | nil => simp
  | @cons x y l l' hxy _ ih =>
    refine ⟨fun a ha => ?_, fun b hb => ?_⟩
    · rcases List.mem_cons.1 ha with rfl | ha
      · exact ⟨y, List.mem_cons_self, hxy⟩
      · obtain ⟨b, h1, h2⟩ := ih.1 a ha
        exact ⟨b, List.mem_cons_of_mem _ h1, h2⟩
    · rcases List.mem_cons.1 hb with rfl | hb
      · exact ⟨x, List.mem_cons_self, hxy⟩
      · obtain ⟨a, h1, h2⟩ := ih.2 b hb
        exact ⟨a, List.mem_cons_of_mem _ h1, h2⟩

theorem rev_hits {A A' : List (Rule Nat)} (h : List.Forall₂ RevRule A A') {t : Nat} {p : Pkt} {r : Rule Nat} (hr : Hits A t p r) :
    ∃ r', RevRule r r' ∧ Hits A' t (revPkt p) r' := by
  obtain ⟨h1, h2⟩ := forall2_mem h
  obtain ⟨a, b, c, d⟩ := hr
  obtain ⟨r', m, hrr⟩ := h1 r a
  refine ⟨r', hrr, m, hrr.table.trans b, (hrr.accepts p).2 c, fun s' hs' ht hacc => ?_⟩
  obtain ⟨s, hs, hss⟩ := h2 s' hs'
  have := d s hs (hss.table.symm.trans ht) ((hss.accepts p).1 hacc)
  rw [hss.priority, hrr.priority]
  exact this

theorem rev_runs {A A' : List (Rule Nat)} (h : List.Forall₂ RevRule A A') {t : Nat} {s : St} {rs : List (Rule Nat)} {s2 : St}
    (hr : Runs A t s rs s2) : ∀ s', RevSt s s' → ∃ rs' s2', Runs A' t s' rs' s2' ∧ RevSt s2 s2' := by
  induction hr with
  | @last t s r h1 h2 =>
    intro s' hs
    obtain ⟨r', hrr, hh⟩ := rev_hits h h1
    rw [← hs.pkt] at hh
    exact ⟨_, _, .last hh (hrr.goto.trans h2), hs.run hrr⟩
  | @next t s r n rs s2 h1 h2 _ ih =>
    intro s' hs
    obtain ⟨r', hrr, hh⟩ := rev_hits h h1
    rw [← hs.pkt] at hh
    obtain ⟨rs', s2', hr', hs'⟩ := ih _ (hs.run hrr)
    exact ⟨_, _, .next hh (hrr.goto.trans h2) hr', hs'⟩

theorem RevSt.enter (p : Pkt) : RevSt (St.enter p) (St.enter (revPkt p)) := ⟨rfl, .refl _, rfl, by simp [St.enter]⟩

theorem SameForwarding.rev {A A' B B' : List (Rule Nat)} (hA : List.Forall₂ RevRule A A') (hB : List.Forall₂ RevRule B B')
    (h : SameForwarding A B) : SameForwarding A' B' := by
  have symm : ∀ {A A' : List (Rule Nat)}, List.Forall₂ RevRule A A' → List.Forall₂ RevRule A' A := by
    intro A A' h
    induction h with
    | nil => exact .nil
    | cons a _ ih => exact .cons a.symm ih
  intro p rs s rs' s' hr hr'
  obtain ⟨q1, t, k1, k2⟩ := rev_runs (symm hA) hr _ (RevSt.enter p)
  obtain ⟨q2, t', k3, k4⟩ := rev_runs (symm hB) hr' _ (RevSt.enter p)
  have h1 := (h (revPkt p) _ _ _ _ k1 k3)
  have h2 : SameSent (OFE.revSent s.finish) (OFE.revSent s'.finish) :=
    ((sameSent_of_perm k2.finish.symm).trans h1).trans (sameSent_of_perm k4.finish)
  have h3 := h2.revSent
  rw [revSent_revSent, revSent_revSent] at h3
  exact h3

/-! ### The code -/

/-- The rules for which the reversal is right: exact values of the right width (or matches on the VLAN id), no set-field but of the VLAN id in the
write-actions, and no metadata written. -/
structure RevOK (r : Rule Nat) : Prop where
  ok : RuleOK r
  exact : ∀ x ∈ r.mat.items, x.1 = 6 ∨ (x.2.2 = none ∧ x.2.1 < 2 ^ width x.1)
  sets : ∀ f v, Action.setField f v ∈ r.inst.apply.iter → f = 6 ∨ v < 2 ^ width f
  writes : ∀ f v, Action.setField f v ∈ r.inst.write.iter → f = 6
  wmeta : r.inst.wmeta = none

/-- An item of a match reversed. -/
def revItem (x : Nat × Nat × Option Nat) : Nat × Nat × Option Nat := if x.1 = 6 then x else (x.1, revLow (width x.1) x.2.1, x.2.2)

theorem dictSet_middle {κ ν : Type} [DecidableEq κ] {k : κ} {v v' : ν} {a b : List (κ × ν)} (h : k ∉ a.map Prod.fst) :
    dictSet k v (a ++ (k, v') :: b) = a ++ (k, v) :: b := by
  induction a with
  | nil => simp [dictSet]
  | cons x a ih =>
    obtain ⟨k2, v2⟩ := x
    simp only [List.map_cons, List.mem_cons, not_or] at h
    rw [List.cons_append, dictSet, if_neg (fun e => h.1 e.symm), ih h.2]
    rfl

theorem reverseMatch_spec : ∀ (rest done : MItems) (m : Match), m.items = done ++ rest → (m.items.map Prod.fst).Nodup →
    (∀ x ∈ rest, x.1 < 40) → (∀ x ∈ rest, x.1 = 6 ∨ (x.2.2 = none ∧ x.2.1 < 2 ^ width x.1)) →
    ∃ m', reverseMatch rest m = .ok m' ∧ m'.items = done ++ rest.map revItem := by
  intro rest
  induction rest with
  | nil => intro done m e _ _ _; exact ⟨m, rfl, by simpa using e⟩
  | cons x rest ih =>
    intro done m e hn hk hx
    obtain ⟨f, v, mask⟩ := x
    rw [reverseMatch]
    by_cases hf : f = fVid
    · rw [if_pos hf]
      obtain ⟨m', h1, h2⟩ := ih (done ++ [(f, v, mask)]) m (by simpa using e) hn (fun x h => hk x (List.mem_cons_of_mem _ h))
        fun x h => hx x (List.mem_cons_of_mem _ h)
      refine ⟨m', h1, ?_⟩
      rw [h2]
      have : revItem (f, v, mask) = (f, v, mask) := if_pos hf
      simp [this]
    · rw [if_neg hf]
      have hf6 : f ≠ 6 := hf
      rcases hx _ List.mem_cons_self with h | ⟨h1, h2⟩
      · exact absurd h hf
      · simp only at h1 h2
        subst h1
        have hlt := hk _ List.mem_cons_self
        simp only at hlt
        rw [reverseChecked_ok hlt h2]
        simp only [bind, Except.bind, Option.getD_none, ne_eq, not_true, if_false, pure, Except.pure]
        have hnd : f ∉ done.map Prod.fst := by
          rw [e, List.map_append, List.nodup_append] at hn
          intro hm
          exact hn.2.2 f hm f (by simp) rfl
        have e2 : (m.append f (revLow (width f) v) none).items = (done ++ [(f, revLow (width f) v, none)]) ++ rest := by
          simp only [Match.append]
          have hnv : normValue f (revLow (width f) v) none = (revLow (width f) v, none) := by
            unfold normValue; split
            · rename_i h; cases h
            · rfl
          rw [e, hnv, dictSet_middle hnd]
          simp
        obtain ⟨m', h3, h4⟩ := ih _ _ e2 (by
          have : (m.append f (revLow (width f) v) none).items.map Prod.fst = m.items.map Prod.fst := by rw [e2, e]; simp
          rw [this]; exact hn) (fun x h => hk x (List.mem_cons_of_mem _ h)) fun x h => hx x (List.mem_cons_of_mem _ h)
        refine ⟨m', h3, ?_⟩
        rw [h4]
        have : revItem (f, v, none) = (f, revLow (width f) v, none) := if_neg hf6
        simp [this]

theorem revItem_matches {x : Nat × Nat × Option Nat} (hk : x.1 < 40) (hx : x.1 = 6 ∨ x.2.2 = none) (p : Pkt) :
    MatchesField (revPkt p).hdr (revItem x) ↔ MatchesField p.hdr x := by
  obtain ⟨f, v, mask⟩ := x
  simp only at hk hx
  have hb : ∀ (q : Pkt) i, i < width f → q.hdr.bit f i = (q.fld f 0).testBit i := by
    intro q i hi
    rw [hdr_bit q (by omega) hi]
    simp only [shown, if_pos hk]
  unfold revItem
  by_cases hf : f = 6
  · simp only [if_pos hf]
    unfold MatchesField
    constructor <;> intro h i hi hm
    · have := h i hi hm
      rw [hb _ i hi] at this ⊢
      simpa [revPkt, hf] using this
    · have := h i hi hm
      rw [hb _ i hi] at this ⊢
      simpa [revPkt, hf] using this
  · rcases hx with h | h
    · exact absurd h hf
    subst h
    simp only [if_neg hf]
    unfold MatchesField
    constructor <;> intro h i hi _
    · have := h (width f - 1 - i) (by simp only at hi ⊢; omega) (by simp)
      simp only at hi this ⊢
      rw [hb _ _ (by omega)] at this
      simp only [revPkt, if_neg hf, testBit_revLow] at this
      rw [if_pos (by omega), if_pos (by omega), show width f - 1 - (width f - 1 - i) = i from by omega] at this
      rw [hb _ i hi]
      exact this
    · have := h (width f - 1 - i) (by simp only at hi ⊢; omega) (by simp)
      simp only at hi this ⊢
      rw [hb _ _ (by omega)] at this
      rw [hb _ i hi]
      simp only [revPkt, if_neg hf, testBit_revLow]
      rw [if_pos hi, if_pos hi]
      exact this

theorem reverseAction_ok {a : Action} (hk : a.known = true) (hv : ∀ f v, a = .setField f v → f = 6 ∨ v < 2 ^ width f) :
    reverseAction a = .ok (revAct a) := by
  cases a with
  | setField f v =>
    rw [reverseAction, revAct_set]
    change (if f = 6 then _ else _) = _
    by_cases hf : f = 6
    · rw [if_pos hf, if_pos hf]
    · have hk' : f < 40 := by simpa [Action.known] using hk
      rw [if_neg hf, if_neg hf, reverseChecked_ok hk' ((hv f v rfl).resolve_left hf)]
      rfl
  | _ => rfl

theorem revAct_known {a : Action} (h : a.known = true) : (revAct a).known = true := by
  cases a with
  | setField f v =>
    rw [revAct_set]
    split <;> exact h
  | _ => exact h

theorem iter_known {s : List Action} {l : ActionList} (hs : ∀ a ∈ s, a.known = true) (h : ActionList.ofList s = .ok l) :
    ∀ a ∈ l.iter, a.known = true := fun a ha => hs a ((C19_canonical_order s l h).1.mem_iff.1 ha)

theorem mapM_eq_map {α β : Type} {f : α → Except PyErr β} {g : α → β} {l : List α} (h : ∀ a ∈ l, f a = .ok (g a)) : l.mapM f = .ok (l.map g) := by
  induction l with
  | nil => rfl
  | cons a l ih =>
    rw [List.mapM_cons, h a List.mem_cons_self, ih fun b hb => h b (List.mem_cons_of_mem _ hb)]
    rfl

theorem reverseRule_spec {r : Rule Nat} (h : RevOK r) : ∃ r', reverseRule false r = .ok r' ∧ RevRule r r' := by
  obtain ⟨m', e1, e2⟩ := reverseMatch_spec r.mat.items [] r.mat rfl h.ok.inv.nodup h.ok.keys h.exact
  obtain ⟨s, hs, es⟩ := h.ok.apply
  have hk := iter_known hs es
  have e3 : r.inst.apply.iter.mapM reverseAction = .ok (r.inst.apply.iter.map revAct) :=
    mapM_eq_map fun a ha => reverseAction_ok (hk a ha) fun f v e => h.sets f v (e ▸ ha)
  obtain ⟨l, e4⟩ := C19_known_ok (r.inst.apply.iter.map revAct) fun a ha => by
    obtain ⟨b, hb, rfl⟩ := List.mem_map.1 ha
    exact revAct_known (hk b hb)
  have hsame := C56_canonical_effect _ _ e4
  refine ⟨{ r with mat := m', inst := { r.inst with apply := l } }, ?_, ?_⟩
  · unfold reverseRule
    simp only [Bool.false_eq_true, if_false, e1, e3, e4, bind, Except.bind, pure, Except.pure]
  · refine ⟨rfl, rfl, rfl, fun p => ?_, fun p => ?_, fun p => ?_, rfl, fun a ha => ?_, rfl, h.wmeta, h.wmeta⟩
    · simp only [Match.accepts, MatchesAll]
      rw [e2, List.nil_append]
      constructor
      · intro hall x hx
        exact (revItem_matches (h.ok.keys x hx) ((h.exact x hx).imp id And.left) p).1 (hall _ (List.mem_map_of_mem hx))
      · intro hall y hy
        obtain ⟨x, hx, rfl⟩ := List.mem_map.1 hy
        exact (revItem_matches (h.ok.keys x hx) ((h.exact x hx).imp id And.left) p).2 (hall x hx)
    · simp only
      rw [(hsame (revPkt p)).1, exec_revAct]
    · simp only
      refine (hsame (revPkt p)).2.trans ?_
      rw [exec_revAct]
    · cases a with
      | setField f v =>
        rw [revAct_set, if_pos (h.writes f v ha)]
      | _ => rfl

theorem reverseFields_spec {rules : List (Rule Nat)} (h : ∀ r ∈ rules, RevOK r) :
    ∃ rules', reverseFields false rules = .ok rules' ∧ List.Forall₂ RevRule rules rules' := by
  unfold reverseFields
  induction rules with
  | nil => exact ⟨[], rfl, .nil⟩
  | cons r rules ih =>
    obtain ⟨r', e1, h1⟩ := reverseRule_spec (h r List.mem_cons_self)
    obtain ⟨rules', e2, h2⟩ := ih fun s hs => h s (List.mem_cons_of_mem _ hs)
    refine ⟨r' :: rules', ?_, .cons h1 h2⟩
    rw [List.mapM_cons, e1, e2]
    rfl

end OFE
