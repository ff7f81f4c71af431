import Verif.Rule.TunnelLemmas

/-!
# Lemmas: each action keeps the simulated packet in step
-/

namespace OFE

def bump (c : Nat → Nat) (f : Nat) : Nat → Nat := fun g => if g = f then c g + 1 else c g

theorem wrote_bit {f x y i : Nat} (h : x.testBit i = y.testBit i) : (wrote f x).testBit i = (wrote f y).testBit i := by
  unfold wrote; split <;> simp [Nat.testBit_or, h]

theorem depth_push {m m' : Match} {c : Nat → Nat} {f v : Nat} (hf : f ∈ tunFields) (hd : DepthOK m c)
    (hl : ∀ g, m'.items.lookup g = if g = f then none else if g = in1 f then (m.items.lookup f).map (moved (in1 f))
        else if g = in2 f then (m.items.lookup (in1 f)).map (moved (in2 f)) else m.items.lookup g) :
    DepthOK (m'.append f v none) (bump c f) := by
  obtain ⟨-, -, -, -, -, -, -, l0, l1, l1', l2, l2', ne, -⟩ := tun_ids f hf
  constructor
  · intro f' hf' hc
    obtain ⟨-, -, -, -, -, -, -, k0, k1, k1', k2, k2', -⟩ := tun_ids f' hf'
    by_cases e : f' = f
    · simp [bump, e] at hc
    · have hc' : c f' = 0 := by simpa [bump, e] using hc
      rw [lookup_append, if_neg (by omega), hl, if_neg (by omega), if_neg (fun h => e ((in_inj f' hf' f hf).1 (.inl h))),
        if_neg ((in_inj f' hf' f hf).2)]
      exact hd.one f' hf' hc'
  · intro f' hf' hc
    obtain ⟨-, -, -, -, -, -, -, k0, k1, k1', k2, k2', -⟩ := tun_ids f' hf'
    rw [lookup_append, if_neg (by omega), hl, if_neg (by omega), if_neg (Ne.symm ((in_inj f hf f' hf').2))]
    by_cases e : f' = f
    · subst e
      have hc' : c f' = 0 := by simp [bump] at hc; exact hc
      rw [if_pos rfl, hd.one f' hf' hc']; rfl
    · rw [if_neg (fun h => e ((in_inj f' hf' f hf).1 (.inr h)))]
      exact hd.two f' hf' (by simpa [bump, e] using hc)

theorem simPush_inv {fld : Nat → Nat → Nat} {x : Match × Match} {c : Nat → Nat} {K : Nat → Prop} (h : SimInv fld x c K) {f : Nat}
    (hf : f ∈ tunFields) (hc : c f ≤ 1) (hK : K f) :
    ∃ x', simPush x f = .ok x' ∧ SimInv (pushOne f fld) x' (bump c f) K := by
  obtain ⟨i0, i1, i2, i3, s0, s1, s2, l0, l1, l1', l2, l2', ne, w1, w2, -⟩ := tun_ids f hf
  obtain ⟨sim, e1, hi1, hk1, hl1⟩ := demote_ok hf (h.depth1.two f hf hc)
  obtain ⟨rw', e2, hi2, hk2, hl2⟩ := demote_ok hf (h.depth2.two f hf hc)
  have n1 : f ≠ in1 f := by omega
  have n2 : f ≠ in2 f := by omega
  let v := match sim.items.lookup (in1 f) with
    | some y => (if f = fVid then 0x1000 else 0) ||| y.1
    | none => if f = fVid then 0x1000 else 0
  refine ⟨(sim.append f v none, rw'.append f v none), ?_, ?_⟩
  · unfold simPush
    simp only [e1, e2, i1, bind, Except.bind, pure, Except.pure]
    rfl
  have hkn := h.known f hf hK
  have hv : ∀ i, i < width f → v.testBit i = (wrote f (fld f 0)).testBit i := by
    intro i hi
    rcases hkn.zero with ⟨v0, hv0⟩ | ⟨hn, hz⟩
    · have : v = wrote f v0 := by
        simp only [v, hl1, if_neg (Ne.symm n1), if_true, hv0, Option.map_some, moved_exact]
        unfold wrote fVid; split
        · rfl
        · exact Nat.zero_or _
      rw [this]
      refine wrote_bit ?_
      have := h.cov f i (v0.testBit i) hi (by unfold req; rw [hv0]; rfl)
      rw [s0] at this; exact this.symm
    · have : v = wrote f 0 := by
        simp only [v, hl1, if_neg (Ne.symm n1), if_true, hn, Option.map_none]
        unfold wrote fVid; split <;> simp
      rw [this, hz]
  constructor
  · exact inv_append (hi1 h.inv1) _ _ _
  · exact inv_append (hi2 h.inv2) _ _ _
  · exact keys_append (by omega) (hk1 h.keys1)
  · exact keys_append (by omega) (hk2 h.keys2)
  · intro g i b hi hb
    have hg := field_lt hi
    by_cases g0 : g = f
    · subst g0
      rw [req_append (by omega) hi, if_pos rfl] at hb
      cases hb
      rw [s0]
      simp only [pushOne, if_true]
      exact (hv i hi).symm
    rw [req_append (by omega) hi, if_neg g0] at hb
    by_cases g1 : g = in1 f
    · subst g1
      rw [req_moved l1' hi (g' := f) (m := x.1) (by rw [hl1, if_neg g0, if_pos rfl])] at hb
      rw [w1] at hi
      have := h.cov f i b hi hb
      rw [s0] at this
      rw [s1]
      simp only [pushOne, if_true]
      simpa using this
    by_cases g2 : g = in2 f
    · subst g2
      rw [req_moved l2' hi (g' := in1 f) (m := x.1) (by rw [hl1, if_neg g0, if_neg g1, if_pos rfl])] at hb
      rw [w2, ← w1] at hi
      have := h.cov (in1 f) i b hi hb
      rw [s1] at this
      rw [s2]
      simp only [pushOne, if_true]
      simpa using this
    · rw [req_same (m := x.1) (by rw [hl1, if_neg g0, if_neg g1, if_neg g2])] at hb
      have : (shown g).1 ≠ f := fun e => by rcases shown_cases f hf g hg e with a | a | a <;> contradiction
      simp only [pushOne, if_neg this]
      exact h.cov g i b hi hb
  · exact depth_push hf h.depth1 hl1
  · exact depth_push hf h.depth2 hl2
  · intro f' hf' hK'
    have hkn' := h.known f' hf' hK'
    obtain ⟨-, -, -, -, -, -, -, k0, k1, k1', k2, k2', -⟩ := tun_ids f' hf'
    by_cases e : f' = f
    · subst e
      refine ⟨.inl ⟨v, by rw [lookup_append, if_pos rfl, normValue_none]⟩, ?_, ?_, ?_⟩
      · rw [lookup_append, if_neg (Ne.symm n1), hl1, if_neg (Ne.symm n1), if_pos rfl]
        simp only [pushOne, if_true, Nat.one_ne_zero, if_false, Nat.sub_self]
        rcases hkn.zero with ⟨v0, hv0⟩ | ⟨hn, hz⟩
        · left; exact ⟨v0, by rw [hv0, Option.map_some, moved_exact]⟩
        · right; exact ⟨by rw [hn]; rfl, hz⟩
      · rw [lookup_append, if_neg (Ne.symm n2), hl1, if_neg (Ne.symm n2), if_neg (Ne.symm ne), if_pos rfl]
        simp only [pushOne, if_true]
        rcases hkn.one with ⟨v0, hv0⟩ | ⟨hn, hz⟩
        · left; exact ⟨v0, by rw [hv0, Option.map_some, moved_exact]⟩
        · right; exact ⟨by rw [hn]; rfl, hz⟩
      · intro d hd
        simp only [pushOne, if_true, if_neg (show d ≠ 0 by omega)]
        by_cases h3 : d = 3
        · subst h3
          rcases hkn.two with ⟨v0, hv0⟩ | ⟨hn, hz⟩
          · rw [h.depth1.two f' hf hc] at hv0; cases hv0
          · exact hz
        · exact hkn.deep _ (by omega)
    · have q0 : (sim.append f v none).items.lookup f' = x.1.items.lookup f' := by
        rw [lookup_append, if_neg e, hl1, if_neg e, if_neg (by omega), if_neg (by omega)]
      have q1 : (sim.append f v none).items.lookup (in1 f') = x.1.items.lookup (in1 f') := by
        rw [lookup_append, if_neg (by omega), hl1, if_neg (by omega), if_neg (fun h => e ((in_inj f' hf' f hf).1 (.inl h))),
          if_neg ((in_inj f' hf' f hf).2)]
      have q2 : (sim.append f v none).items.lookup (in2 f') = x.1.items.lookup (in2 f') := by
        rw [lookup_append, if_neg (by omega), hl1, if_neg (by omega), if_neg (Ne.symm ((in_inj f hf f' hf').2)),
          if_neg (fun h => e ((in_inj f' hf' f hf).1 (.inr h)))]
      have qf : ∀ d, pushOne f fld f' d = fld f' d := fun d => by simp only [pushOne, if_neg e]
      exact ⟨by rw [q0, qf]; exact hkn'.zero, by rw [q1, qf]; exact hkn'.one, by rw [q2, qf]; exact hkn'.two,
        fun d hd => by rw [qf]; exact hkn'.deep d hd⟩

theorem depth_pop {m m' : Match} {c : Nat → Nat} {f : Nat} (hf : f ∈ tunFields) (hd : DepthOK m c)
    (hl : ∀ g, m'.items.lookup g = if g = f then (m.items.lookup (in1 f)).map (moved f) else if g = in1 f then none else m.items.lookup g) :
    DepthOK m' c := by
  obtain ⟨-, -, -, -, -, -, -, l0, l1, l1', l2, l2', ne, -⟩ := tun_ids f hf
  constructor
  · intro f' hf' hc
    obtain ⟨-, -, -, -, -, -, -, k0, k1, k1', k2, k2', -⟩ := tun_ids f' hf'
    rw [hl, if_neg (by omega)]
    split
    · rfl
    · exact hd.one f' hf' hc
  · intro f' hf' hc
    obtain ⟨-, -, -, -, -, -, -, k0, k1, k1', k2, k2', -⟩ := tun_ids f' hf'
    rw [hl, if_neg (by omega), if_neg (Ne.symm ((in_inj f hf f' hf').2))]
    exact hd.two f' hf' hc

/-- Delete the field and move its inner copy outwards. -/
theorem popMatch_ok {m : Match} {f : Nat} (hf : f ∈ tunFields) (hi : m.Inv) (hk : ∀ x ∈ m.items, x.1 < 56)
    (h2 : m.items.lookup (in2 f) = none) :
    ∃ m1 m', delIf m f = .ok m1 ∧ promote m1 f 1 = .ok m' ∧ m'.Inv ∧ (∀ x ∈ m'.items, x.1 < 56) ∧
      ∀ g, m'.items.lookup g = if g = f then (m.items.lookup (in1 f)).map (moved f) else if g = in1 f then none else m.items.lookup g := by
  obtain ⟨-, -, -, -, -, -, -, l0, l1, l1', l2, l2', ne, -⟩ := tun_ids f hf
  obtain ⟨m1, e1, i1, k1, lk1⟩ := delIf_ok (f := f) hi hk
  obtain ⟨m', e2, i2, k2, lk2⟩ := promote_ok hf i1 k1 (by rw [lk1, if_pos rfl]) (by rw [lk1, if_neg (by omega), h2])
  refine ⟨m1, m', e1, e2, i2, k2, fun g => ?_⟩
  rw [lk2, lk1, lk1, if_neg (show in1 f ≠ f by omega)]
  by_cases g0 : g = f
  · simp [g0]
  · simp [g0]

theorem simPop_inv {fld : Nat → Nat → Nat} {x : Match × Match} {c : Nat → Nat} {K : Nat → Prop} (h : SimInv fld x c K) {f : Nat}
    (hf : f ∈ tunFields) (hc : c f ≤ 1) :
    ∃ x', simPop x f = .ok x' ∧ SimInv (popOne f fld) x' c K := by
  obtain ⟨i0, i1, i2, i3, s0, s1, s2, l0, l1, l1', l2, l2', ne, w1, w2, -⟩ := tun_ids f hf
  obtain ⟨a1, a, e1, e2, ia, ka, hl1⟩ := popMatch_ok hf h.inv1 h.keys1 (h.depth1.two f hf hc)
  obtain ⟨b1, b, e3, e4, ib, kb, hl2⟩ := popMatch_ok hf h.inv2 h.keys2 (h.depth2.two f hf hc)
  have n1 : f ≠ in1 f := by omega
  have n2 : f ≠ in2 f := by omega
  refine ⟨(a, b), ?_, ia, ib, ka, kb, ?_, depth_pop hf h.depth1 hl1, depth_pop hf h.depth2 hl2, ?_⟩
  · unfold simPop
    simp only [e1, e2, e3, e4, bind, Except.bind, pure, Except.pure]
  · intro g i bb hi hb
    have hg := field_lt hi
    by_cases g0 : g = f
    · subst g0
      rw [req_moved (by omega) hi (g' := in1 g) (m := x.1) (by rw [hl1, if_pos rfl])] at hb
      have := h.cov (in1 g) i bb (by rw [w1]; exact hi) hb
      rw [s1] at this
      rw [s0]
      simpa [popOne] using this
    by_cases g1 : g = in1 f
    · subst g1
      rw [req_none (by rw [hl1, if_neg g0, if_pos rfl])] at hb; cases hb
    rw [req_same (m := x.1) (by rw [hl1, if_neg g0, if_neg g1])] at hb
    by_cases g2 : g = in2 f
    · subst g2
      rw [req_none (h.depth1.two f hf hc)] at hb; cases hb
    · have : (shown g).1 ≠ f := fun e => by rcases shown_cases f hf g hg e with a | a | a <;> contradiction
      simp only [popOne, if_neg this]
      exact h.cov g i bb hi hb
  · intro f' hf' hK'
    have hkn := h.known f' hf' hK'
    obtain ⟨-, -, -, -, -, -, -, k0, k1, k1', k2, k2', -⟩ := tun_ids f' hf'
    by_cases e : f' = f
    · subst e
      refine ⟨?_, .inr ⟨by rw [hl1, if_neg (Ne.symm n1), if_pos rfl], ?_⟩, .inr ⟨?_, ?_⟩, fun d hd => ?_⟩
      · rw [hl1, if_pos rfl]
        simp only [popOne, if_true, Nat.zero_add]
        rcases hkn.one with ⟨v0, hv0⟩ | ⟨hn, hz⟩
        · left; exact ⟨v0, by rw [hv0, Option.map_some, moved_exact]⟩
        · right; exact ⟨by rw [hn]; rfl, hz⟩
      · simp only [popOne, if_true]
        rcases hkn.two with ⟨v0, hv0⟩ | ⟨hn, hz⟩
        · rw [h.depth1.two f' hf hc] at hv0; cases hv0
        · exact hz
      · rw [hl1, if_neg (Ne.symm n2), if_neg (Ne.symm ne), h.depth1.two f' hf hc]
      · simp only [popOne, if_true]; exact hkn.deep 3 (by omega)
      · simp only [popOne, if_true]; exact hkn.deep _ (by omega)
    · have q0 : a.items.lookup f' = x.1.items.lookup f' := by rw [hl1, if_neg e, if_neg (by omega)]
      have q1 : a.items.lookup (in1 f') = x.1.items.lookup (in1 f') := by
        rw [hl1, if_neg (by omega), if_neg (fun h => e ((in_inj f' hf' f hf).1 (.inl h)))]
      have q2 : a.items.lookup (in2 f') = x.1.items.lookup (in2 f') := by
        rw [hl1, if_neg (by omega), if_neg (Ne.symm ((in_inj f hf f' hf').2))]
      have qf : ∀ d, popOne f fld f' d = fld f' d := fun d => by simp only [popOne, if_neg e]
      exact ⟨by rw [q0, qf]; exact hkn.zero, by rw [q1, qf]; exact hkn.one, by rw [q2, qf]; exact hkn.two,
        fun d hd => by rw [qf]; exact hkn.deep d hd⟩

theorem setField_inv {fld : Nat → Nat → Nat} {x : Match × Match} {c : Nat → Nat} {K : Nat → Prop} (h : SimInv fld x c K) {f v : Nat}
    (hf : f < 40) : SimInv (fun g d => if g = f ∧ d = 0 then wrote f v else fld g d)
      (x.1.append f (setValue f v) none, x.2.append f (setValue f v) none) c K := by
  have hd : ∀ {m : Match}, DepthOK m c → DepthOK (m.append f (setValue f v) none) c := by
    intro m hm
    constructor
    · intro f' hf' hc
      obtain ⟨-, -, -, -, -, -, -, k0, k1, k1', k2, k2', -⟩ := tun_ids f' hf'
      rw [lookup_append, if_neg (by omega)]; exact hm.one f' hf' hc
    · intro f' hf' hc
      obtain ⟨-, -, -, -, -, -, -, k0, k1, k1', k2, k2', -⟩ := tun_ids f' hf'
      rw [lookup_append, if_neg (by omega)]; exact hm.two f' hf' hc
  refine ⟨inv_append h.inv1 _ _ _, inv_append h.inv2 _ _ _, keys_append (by omega) h.keys1, keys_append (by omega) h.keys2, ?_,
    hd h.depth1, hd h.depth2, ?_⟩
  · intro g i b hi hb
    have hg := field_lt hi
    rw [req_append (by omega) hi] at hb
    by_cases e : g = f
    · subst e
      rw [if_pos rfl] at hb; cases hb
      rw [shown_lt hf]
      simp only [and_self, if_true]; rfl
    · rw [if_neg e] at hb
      have : ¬ ((shown g).1 = f ∧ (shown g).2 = 0) := by
        rintro ⟨a, b⟩
        have h1 : shown g = shown f := by rw [shown_lt hf, ← a, ← b]
        exact e (shown_inj g hg f (by omega) h1)
      simp only [if_neg this]
      exact h.cov g i b hi hb
  · intro f' hf' hK'
    have hkn := h.known f' hf' hK'
    obtain ⟨-, -, -, -, -, -, -, k0, k1, k1', k2, k2', -⟩ := tun_ids f' hf'
    have q : ∀ d, d ≠ 0 → (if f' = f ∧ d = 0 then wrote f v else fld f' d) = fld f' d := fun d hd => if_neg (fun h => hd h.2)
    refine ⟨?_, ?_, ?_, ?_⟩
    · by_cases e : f' = f
      · left; exact ⟨setValue f v, by rw [lookup_append, if_pos e, normValue_none]⟩
      · rw [lookup_append, if_neg e, if_neg (fun h => e h.1)]; exact hkn.zero
    · rw [lookup_append, if_neg (by omega), q 1 (by omega)]; exact hkn.one
    · rw [lookup_append, if_neg (by omega), q 2 (by omega)]; exact hkn.two
    · intro d hd; rw [q d (by omega)]; exact hkn.deep d hd

/-! ### All actions -/

theorem foldl_push {K : Nat → Prop} : ∀ (l : List Nat) {fld : Nat → Nat → Nat} {x : Match × Match} {c : Nat → Nat}, SimInv fld x c K →
    l.Nodup → (∀ f ∈ l, f ∈ tunFields ∧ c f ≤ 1 ∧ K f) →
    ∃ x', l.foldlM simPush x = .ok x' ∧ SimInv (l.foldl (fun y f => pushOne f y) fld) x' (fun g => if g ∈ l then c g + 1 else c g) K
  | [], _, x, _, h, _, _ => ⟨x, rfl, by simpa using h⟩
  | f :: l, fld, x, c, h, hn, hl => by
    obtain ⟨hf, hc, hK⟩ := hl f List.mem_cons_self
    obtain ⟨x1, e1, h1⟩ := simPush_inv h hf hc hK
    obtain ⟨hn1, hn2⟩ := List.nodup_cons.1 hn
    obtain ⟨x2, e2, h2⟩ := foldl_push l h1 hn2 fun g hg => by
      obtain ⟨a, b, c'⟩ := hl g (List.mem_cons_of_mem _ hg)
      refine ⟨a, ?_, c'⟩
      have : g ≠ f := fun e => hn1 (e ▸ hg)
      simp only [bump, if_neg this]; exact b
    refine ⟨x2, by rw [List.foldlM_cons, e1]; exact e2, ?_⟩
    have : (fun g => if g ∈ f :: l then c g + 1 else c g) = fun g => if g ∈ l then bump c f g + 1 else bump c f g := by
      funext g
      simp only [List.mem_cons, bump]
      by_cases e : g = f
      · subst e; simp [hn1]
      · simp [e]
    rw [this]; exact h2

theorem foldl_pop {K : Nat → Prop} : ∀ (l : List Nat) {fld : Nat → Nat → Nat} {x : Match × Match} {c : Nat → Nat}, SimInv fld x c K →
    (∀ f ∈ l, f ∈ tunFields ∧ c f ≤ 1) →
    ∃ x', l.foldlM simPop x = .ok x' ∧ SimInv (l.foldl (fun y f => popOne f y) fld) x' c K
  | [], _, x, _, h, _ => ⟨x, rfl, h⟩
  | f :: l, fld, x, c, h, hl => by
    obtain ⟨hf, hc⟩ := hl f List.mem_cons_self
    obtain ⟨x1, e1, h1⟩ := simPop_inv h hf hc
    obtain ⟨x2, e2, h2⟩ := foldl_pop l h1 fun g hg => hl g (List.mem_cons_of_mem _ hg)
    exact ⟨x2, by rw [List.foldlM_cons, e1]; exact e2, h2⟩

/-- Pushes of the header with the field `f`. -/
def pushesOf (f : Nat) (l : List Action) : Nat := l.countP fun a => match a.pushes with | some t => t.fields.contains f | none => false

theorem tun_fields : ∀ t : Tun, t.fields.Nodup ∧ ∀ f ∈ t.fields, f ∈ tunFields := by
  intro t; cases t <;> decide

theorem simStep_all {K : Nat → Prop} : ∀ (l : List Action) {p : Pkt} {x : Match × Match} {c : Nat → Nat}, SimInv p.fld x c K →
    (∀ a ∈ l, a.known = true) → (∀ a ∈ l, ∀ t, a.pushes = some t → ∀ f ∈ t.fields, K f) →
    (∀ f ∈ tunFields, c f + pushesOf f l ≤ 2) →
    (∀ a ∈ l, ∀ t, a.pops = some t → ∀ f ∈ t.fields, c f + pushesOf f l ≤ 1) →
    ∃ x' c', l.foldlM simStep x = .ok x' ∧ SimInv (exec l p).1.fld x' c' K ∧ ∀ f ∈ tunFields, c' f ≤ c f + pushesOf f l
  | [], p, x, c, h, _, _, _, _ => ⟨x, c, rfl, h, fun _ _ => Nat.le_add_right _ _⟩
  | a :: l, p, x, c, h, hk, hK, h2, h1 => by
    have rest : ∀ {x1 : Match × Match} {c1 : Nat → Nat}, simStep x a = .ok x1 → SimInv (act a p).fld x1 c1 K →
        (∀ f ∈ tunFields, c1 f + pushesOf f l ≤ c f + pushesOf f (a :: l)) →
        ∃ x' c', (a :: l).foldlM simStep x = .ok x' ∧ SimInv (exec (a :: l) p).1.fld x' c' K ∧
          ∀ f ∈ tunFields, c' f ≤ c f + pushesOf f (a :: l) := by
      intro x1 c1 e1 hs hcc
      obtain ⟨x', c', e, hs', hb⟩ := simStep_all l hs (fun b hb => hk b (List.mem_cons_of_mem _ hb)) (fun b hb => hK b (List.mem_cons_of_mem _ hb))
        (fun f hf => by have := h2 f hf; have := hcc f hf; omega)
        (fun b hb t ht f hf => by
          have := h1 b (List.mem_cons_of_mem _ hb) t ht f hf
          have := hcc f ((tun_fields t).2 f hf)
          omega)
      exact ⟨x', c', by rw [List.foldlM_cons, e1]; exact e, by simp only [exec]; exact hs', fun f hf => Nat.le_trans (hb f hf) (hcc f hf)⟩
    have hle : ∀ f, pushesOf f l ≤ pushesOf f (a :: l) := fun f => by unfold pushesOf; exact List.Sublist.countP_le (List.sublist_cons_self _ _)
    cases hpu : a.pushes with
    | some t =>
      have hbound : ∀ f ∈ t.fields, pushesOf f (a :: l) = pushesOf f l + 1 := by
        intro f hf
        unfold pushesOf
        rw [List.countP_cons_of_pos]
        simp [hpu, hf]
      obtain ⟨x1, e1, hs⟩ := foldl_push t.fields h (tun_fields t).1 fun f hf => by
        refine ⟨(tun_fields t).2 f hf, ?_, hK a List.mem_cons_self t hpu f hf⟩
        have := h2 f ((tun_fields t).2 f hf)
        have := hbound f hf
        omega
      rw [← actPush_fld hpu] at hs
      refine rest ?_ hs fun f hf => ?_
      · cases a <;> simp [Action.pushes] at hpu <;> subst hpu <;> exact e1
      · by_cases hm : f ∈ t.fields
        · have := hbound f hm; simp only [if_pos hm]; omega
        · have := hle f; simp only [if_neg hm]; omega
    | none =>
      cases hpo : a.pops with
      | some t =>
        obtain ⟨x1, e1, hs⟩ := foldl_pop t.fields h fun f hf =>
          ⟨(tun_fields t).2 f hf, by have := h1 a List.mem_cons_self t hpo f hf; omega⟩
        rw [← actPop_fld hpo] at hs
        refine rest ?_ hs fun f hf => by have := hle f; omega
        cases a <;> simp [Action.pops] at hpo <;> subst hpo <;> exact e1
      | none =>
        have hst := simStep_flat hpu hpo x
        have hfl := fun g d => act_flat_fld hpu hpo p g d
        have hle' : ∀ f ∈ tunFields, c f + pushesOf f l ≤ c f + pushesOf f (a :: l) := fun f hf => by have := hle f; omega
        by_cases hsf : ∃ f v, a = .setField f v
        · obtain ⟨f, v, rfl⟩ := hsf
          refine rest rfl (c1 := c) ?_ hle'
          have hf40 : f < 40 := by simpa [Action.known] using hk _ List.mem_cons_self
          exact setField_inv h hf40
        · have e1 : (act a p).fld = p.fld := by
            funext g d; rw [hfl]; split
            · exact absurd ⟨_, _, rfl⟩ hsf
            · rfl
          refine rest (x1 := x) (c1 := c) ?_ (e1 ▸ h) hle'
          rw [hst]; split
          · exact absurd ⟨_, _, rfl⟩ hsf
          · rfl

theorem simMeta_covers {x : Match × Match} {p : Pkt} (h : Agrees x.1 p.fld) (w : MetaW) :
    Agrees (simMeta w x).1 (writeMeta w p).fld := by
  have other : ∀ {m : Match} {v : Nat} {mask : Option Nat} {M : Nat}, Agrees m p.fld →
      (∀ i, i < width 2 → ∀ b, reqItem v mask i = some b → M.testBit i = b) →
      Agrees (m.append fMeta v mask) (fun g d => if g = 2 ∧ d = 0 then M else p.fld g d) := by
    intro m v mask M hm hM g i b hi hb
    have hg := field_lt hi
    rw [req_append (by decide) hi] at hb
    by_cases e : g = fMeta
    · rw [if_pos e] at hb
      subst e
      exact hM i hi b hb
    · rw [if_neg e] at hb
      have : ¬ ((shown g).1 = 2 ∧ (shown g).2 = 0) := by
        rintro ⟨a, b⟩
        have h1 : shown g = shown 2 := by rw [shown_lt (g := 2) (by decide), ← a, ← b]
        exact e (shown_inj g hg 2 (by decide) h1)
      simp only [if_neg this]
      exact hm g i b hi hb
  have plain : ∀ wv wm, Agrees (x.1.append fMeta wv wm) (writeMeta (some (wv, wm)) p).fld := by
    intro wv wm
    cases wm with
    | none => exact other h (fun i hi b hb => by cases hb; rfl)
    | some m =>
      refine other h (fun i hi b hb => ?_)
      simp only [reqItem] at hb
      split at hb
      · next hm => cases hb; rw [Nat.testBit_or, Nat.testBit_and, testBit_andNot]; simp [hm]
      · cases hb
  cases w with
  | none => exact h
  | some w =>
    obtain ⟨wv, wm⟩ := w
    unfold simMeta
    cases hl : x.1.items.lookup fMeta with
    | none => exact plain wv wm
    | some y =>
      obtain ⟨m0, mm⟩ := y
      cases wm with
      | none => exact plain wv none
      | some wmask =>
        simp only
        refine other h (fun i hi b hb => ?_)
        have hbit : ∀ b', reqItem m0 mm i = some b' → (p.fld 2 0).testBit i = b' := fun b' hb' =>
          h 2 i b' hi (by unfold req; rw [show (2 : Nat) = fMeta from rfl, hl]; exact hb')
        rw [Nat.testBit_or, Nat.testBit_and, testBit_andNot]
        cases mm with
        | none =>
          simp only [reqItem, Option.some.injEq] at hb hbit
          rw [Nat.testBit_or, Nat.testBit_and, testBit_andNot] at hb
          rw [hbit _ rfl]; exact hb
        | some m =>
          simp only [reqItem] at hb hbit
          split at hb
          · next hm =>
            rw [Nat.testBit_or] at hm
            simp only [Option.some.injEq] at hb
            rw [Nat.testBit_or, Nat.testBit_and, testBit_andNot] at hb
            cases hwb : wmask.testBit i with
            | true => simpa [hwb] using hb
            | false =>
              have hmb : m.testBit i = true := by simpa [hwb] using hm
              rw [hbit (m0.testBit i) (by rw [if_pos hmb])]
              simpa [hwb] using hb
          · cases hb

end OFE
