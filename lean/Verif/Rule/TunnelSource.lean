import Verif.Rule.MoveLemmas

/-!
# Lemmas: where the headers of a packet come from

The simulated egress knows of each header either the value that was written, or that it is a header of the arriving packet, so many
places further in.
-/

namespace OFE

/-- Header `d` of field `f`: written, or the arriving header `d + po - pu`. -/
def Slot (m0 sim rw : Match) (pu po f d : Nat) : Prop :=
  (∃ v, rw.items.lookup (inAt f d) = some (v, none) ∧ sim.items.lookup (inAt f d) = some (v, none)) ∨
  (rw.items.lookup (inAt f d) = none ∧ pu ≤ d + po ∧
    ∀ i, i < width f → req sim.items (inAt f d) i = if d + po = pu then req m0.items f i else none)

/-- A header that the layout has: the outermost one of any field, or one of the first three of a tunnel field. -/
def HasSlot (g d : Nat) : Prop := (g < 40 ∧ d = 0) ∨ (g ∈ tunFields ∧ d ≤ 2)

structure SrcInv (m0 : Match) (x : Match × Match) (pu po : Nat → Nat) : Prop where
  inv1 : x.1.Inv
  inv2 : x.2.Inv
  keys1 : ∀ y ∈ x.1.items, y.1 < 56
  keys2 : ∀ y ∈ x.2.items, y.1 < 56
  depth1 : DepthOK x.1 pu
  depth2 : DepthOK x.2 pu
  slot : ∀ g d, HasSlot g d → Slot m0 x.1 x.2 (pu g) (po g) g d
  metaSim : x.1.items.lookup 2 = m0.items.lookup 2
  metaRw : x.2.items.lookup 2 = none

/-- The headers of the packet, as far as they are not written. -/
structure SrcPkt (p0 fld : Nat → Nat → Nat) (rw : Match) (pu po : Nat → Nat) : Prop where
  slot : ∀ g d, HasSlot g d → rw.items.lookup (inAt g d) = none → fld g d = p0 g (d + po g - pu g)
  deep : ∀ f ∈ tunFields, ∀ d, 3 ≤ d → fld f d = p0 f (d + po f - pu f)

theorem tun_lt {f : Nat} (hf : f ∈ tunFields) : f < 40 := by
  obtain ⟨-, -, -, -, -, -, -, l0, -⟩ := tun_ids f hf; exact l0

theorem slot_shown {g d : Nat} (h : HasSlot g d) : shown (inAt g d) = (g, d) := by
  rcases h with ⟨h, rfl⟩ | ⟨h, hd⟩
  · exact shown_lt h
  · exact (inAt_ids g h d hd).2.1

theorem inAt_ne {f g d : Nat} (hf : f ∈ tunFields) (h : HasSlot g d) (hne : g ≠ f) : ∀ d', d' ≤ 2 → inAt g d ≠ inAt f d' := by
  intro d' hd' e
  have h1 := slot_shown h
  rw [e, (inAt_ids f hf d' hd').2.1] at h1
  exact hne (Prod.mk.inj h1).1.symm

/-! ### Push -/

structure PushLook (f v : Nat) (m m' : Match) : Prop where
  inv : m.Inv → m'.Inv
  keys : (∀ x ∈ m.items, x.1 < 56) → ∀ x ∈ m'.items, x.1 < 56
  zero : m'.items.lookup (inAt f 0) = some (v, none)
  succ : ∀ d, d + 1 ≤ 2 → m'.items.lookup (inAt f (d + 1)) = (m.items.lookup (inAt f d)).map (moved (inAt f (d + 1)))
  same : ∀ g, (∀ d, d ≤ 2 → g ≠ inAt f d) → m'.items.lookup g = m.items.lookup g

theorem pushLook_of {f v : Nat} {m m1 : Match} (hf : f ∈ tunFields) (h : MovedIn f 1 m m1) : PushLook f v m (m1.append f v none) := by
  have h0 : inAt f 0 = f := rfl
  refine ⟨fun hi => inv_append (h.inv hi) _ _ _, fun hk => keys_append (by have := tun_lt hf; omega) (h.keys hk), ?_, fun d hd => ?_, fun g hg => ?_⟩
  · rw [lookup_append, if_pos h0, normValue_none]
  · rw [lookup_append, if_neg, h.at_ _ hd, if_pos (by omega), Nat.add_sub_cancel]
    intro e
    have := inAt_inj hf hd (by omega) (e.trans h0.symm)
    omega
  · rw [lookup_append, if_neg (show g ≠ f from hg 0 (by omega)), h.same g hg]

theorem fits_one {m : Match} {f : Nat} (h : m.items.lookup (in2 f) = none) : ∀ d, d ≤ 2 → 2 < d + 1 → m.items.lookup (inAt f d) = none := by
  intro d hd hn
  have : d = 2 := by omega
  subst this; exact h

theorem simPush_look {x : Match × Match} {f : Nat} (hf : f ∈ tunFields) (h1 : x.1.items.lookup (in2 f) = none)
    (h2 : x.2.items.lookup (in2 f) = none) : ∃ x' v, simPush x f = .ok x' ∧ PushLook f v x.1 x'.1 ∧ PushLook f v x.2 x'.2 := by
  obtain ⟨sim, e1, m1⟩ := demote_fits hf (Nat.le_refl 1) (fits_one h1)
  obtain ⟨rw', e2, m2⟩ := demote_fits hf (Nat.le_refl 1) (fits_one h2)
  let v := match innerId f 1 with
    | some g => (match sim.items.lookup g with | some y => (if f = fVid then 0x1000 else 0) ||| y.1 | none => if f = fVid then 0x1000 else 0)
    | none => if f = fVid then 0x1000 else 0
  refine ⟨(sim.append f v none, rw'.append f v none), v, ?_, pushLook_of hf m1, pushLook_of hf m2⟩
  unfold simPush
  simp only [e1, e2, bind, Except.bind, pure, Except.pure]
  rfl

theorem slot_push {m0 sim rw sim' rw' : Match} {f v pu po d : Nat} (hf : f ∈ tunFields) (hd : d + 1 ≤ 2) (h1 : PushLook f v sim sim')
    (h2 : PushLook f v rw rw') (h : Slot m0 sim rw pu po f d) : Slot m0 sim' rw' (pu + 1) po f (d + 1) := by
  obtain ⟨-, -, hlt, hw, -⟩ := inAt_ids f hf (d + 1) hd
  rcases h with ⟨y, a, b⟩ | ⟨a, b, c⟩
  · left
    exact ⟨y, by rw [h2.succ d hd, a, Option.map_some, moved_exact], by rw [h1.succ d hd, b, Option.map_some, moved_exact]⟩
  · right
    refine ⟨by rw [h2.succ d hd, a]; rfl, by omega, fun i hi => ?_⟩
    rw [req_moved hlt (by rw [hw]; exact hi) (h1.succ d hd), c i hi]
    by_cases e : d + po = pu
    · rw [if_pos e, if_pos (by omega)]
    · rw [if_neg e, if_neg (by omega)]

theorem slot_same {m0 sim rw sim' rw' : Match} {pu po g d : Nat} (h1 : sim'.items.lookup (inAt g d) = sim.items.lookup (inAt g d))
    (h2 : rw'.items.lookup (inAt g d) = rw.items.lookup (inAt g d)) (h : Slot m0 sim rw pu po g d) : Slot m0 sim' rw' pu po g d := by
  rcases h with ⟨y, a, b⟩ | ⟨a, b, c⟩
  · left; exact ⟨y, by rw [h2, a], by rw [h1, b]⟩
  · right; exact ⟨by rw [h2, a], b, fun i hi => by rw [req_same h1, c i hi]⟩

theorem depth_pushLook {m m' : Match} {c : Nat → Nat} {f v : Nat} (hf : f ∈ tunFields) (h : PushLook f v m m') (hd : DepthOK m c) :
    DepthOK m' (bump c f) := by
  constructor
  · intro g hg hc
    by_cases e : g = f
    · simp [bump, e] at hc
    · have hc' : c g = 0 := by simpa [bump, e] using hc
      have := h.same (inAt g 1) (inAt_ne hf (.inr ⟨hg, by omega⟩) e)
      exact this.trans (hd.one g hg hc')
  · intro g hg hc
    by_cases e : g = f
    · subst e
      have hc' : c g = 0 := by simp [bump] at hc; exact hc
      have := h.succ 1 (by omega)
      rw [show m.items.lookup (inAt g 1) = none from hd.one g hg hc'] at this
      exact this
    · have hc' : c g ≤ 1 := by simpa [bump, e] using hc
      have := h.same (inAt g 2) (inAt_ne hf (.inr ⟨hg, by omega⟩) e)
      exact this.trans (hd.two g hg hc')

theorem not_meta {f : Nat} (hf : f ∈ tunFields) : ∀ d, d ≤ 2 → 2 ≠ inAt f d := by
  have : ∀ f ∈ tunFields, 2 ≠ f := by decide
  exact inAt_ne (g := 2) (d := 0) hf (.inl ⟨by omega, rfl⟩) (this f hf)

theorem simPush_src {m0 : Match} {x : Match × Match} {pu po : Nat → Nat} {f : Nat} (hf : f ∈ tunFields) (hp : pu f ≤ 1) (h : SrcInv m0 x pu po) :
    ∃ x', simPush x f = .ok x' ∧ SrcInv m0 x' (bump pu f) po ∧
      ∀ p0 fld, SrcPkt p0 fld x.2 pu po → SrcPkt p0 (pushOne f fld) x'.2 (bump pu f) po := by
  obtain ⟨x', v, e, l1, l2⟩ := simPush_look hf (h.depth1.two f hf hp) (h.depth2.two f hf hp)
  refine ⟨x', e, ⟨l1.inv h.inv1, l2.inv h.inv2, l1.keys h.keys1, l2.keys h.keys2, depth_pushLook hf l1 h.depth1,
    depth_pushLook hf l2 h.depth2, fun g d hs => ?_, by rw [l1.same 2 (not_meta hf), h.metaSim], by rw [l2.same 2 (not_meta hf), h.metaRw]⟩,
    fun p0 fld hp0 => ⟨fun g d hs hn => ?_, fun g hg d hd => ?_⟩⟩
  · by_cases eg : g = f
    · subst eg
      match d, hs with
      | 0, _ => left; exact ⟨v, l2.zero, l1.zero⟩
      | d + 1, hs =>
        have hd : d + 1 ≤ 2 := by rcases hs with ⟨_, h⟩ | ⟨_, h⟩ <;> omega
        have := slot_push hf hd l1 l2 (h.slot g d (.inr ⟨hf, by omega⟩))
        simpa [bump] using this
    · have := slot_same (l1.same _ (inAt_ne hf hs eg)) (l2.same _ (inAt_ne hf hs eg)) (h.slot g d hs)
      simpa [bump, eg] using this
  · by_cases eg : g = f
    · subst eg
      match d, hs with
      | 0, _ => rw [l2.zero] at hn; cases hn
      | d + 1, hs =>
        have hd : d + 1 ≤ 2 := by rcases hs with ⟨_, h⟩ | ⟨_, h⟩ <;> omega
        rw [l2.succ d hd, Option.map_eq_none_iff] at hn
        have := hp0.slot g d (.inr ⟨hf, by omega⟩) hn
        simp only [pushOne, bump, if_true, Nat.succ_ne_zero, if_false, Nat.add_sub_cancel, this]
        congr 1; omega
    · rw [l2.same _ (inAt_ne hf hs eg)] at hn
      have := hp0.slot g d hs hn
      simpa [pushOne, bump, eg] using this
  · by_cases eg : g = f
    · subst eg
      have hz : d ≠ 0 := by omega
      simp only [pushOne, bump, if_true, if_neg hz]
      by_cases h3 : d = 3
      · subst h3
        have := hp0.slot g 2 (.inr ⟨hf, by omega⟩) (h.depth2.two g hf hp)
        simp only [Nat.add_one_sub_one, this]
        congr 1; omega
      · rw [hp0.deep g hf (d - 1) (by omega)]
        congr 1; omega
    · have := hp0.deep g hg d hd
      simpa [pushOne, bump, eg] using this

/-! ### Pop -/

structure PopLook (f : Nat) (m m' : Match) : Prop where
  at_ : ∀ d, d + 1 ≤ 2 → m'.items.lookup (inAt f d) = (m.items.lookup (inAt f (d + 1))).map (moved (inAt f d))
  two : m'.items.lookup (inAt f 2) = none
  same : ∀ g, (∀ d, d ≤ 2 → g ≠ inAt f d) → m'.items.lookup g = m.items.lookup g

theorem popLook_of {m : Match} {f : Nat} (hf : f ∈ tunFields) (hi : m.Inv) (hk : ∀ x ∈ m.items, x.1 < 56)
    (h2 : m.items.lookup (in2 f) = none) :
    ∃ m1 m', delIf m f = .ok m1 ∧ promote m1 f 1 = .ok m' ∧ m'.Inv ∧ (∀ x ∈ m'.items, x.1 < 56) ∧ PopLook f m m' := by
  obtain ⟨m1, m', e1, e2, i2, k2, hl⟩ := popMatch_ok hf hi hk h2
  obtain ⟨-, -, -, -, -, -, -, l0, l1, l1', l2, l2', ne, -⟩ := tun_ids f hf
  refine ⟨m1, m', e1, e2, i2, k2, fun d hd => ?_, ?_, fun g hg => ?_⟩
  · have : d = 0 ∨ d = 1 := by omega
    rcases this with rfl | rfl
    · show m'.items.lookup f = _
      rw [hl, if_pos rfl]; rfl
    · show m'.items.lookup (in1 f) = (m.items.lookup (in2 f)).map _
      rw [hl, if_neg (by omega), if_pos rfl, h2]; rfl
  · show m'.items.lookup (in2 f) = _
    rw [hl, if_neg (by omega), if_neg (Ne.symm ne), h2]
  · rw [hl, if_neg (show g ≠ f from hg 0 (by omega)), if_neg (show g ≠ in1 f from hg 1 (by omega))]

theorem slot_pop {m0 sim rw sim' rw' : Match} {f pu po d : Nat} (hf : f ∈ tunFields) (hd : d + 1 ≤ 2) (h1 : PopLook f sim sim')
    (h2 : PopLook f rw rw') (h : Slot m0 sim rw pu po f (d + 1)) : Slot m0 sim' rw' pu (po + 1) f d := by
  obtain ⟨-, -, hlt, hw, -⟩ := inAt_ids f hf d (by omega)
  rcases h with ⟨y, a, b⟩ | ⟨a, b, c⟩
  · left
    exact ⟨y, by rw [h2.at_ d hd, a, Option.map_some, moved_exact], by rw [h1.at_ d hd, b, Option.map_some, moved_exact]⟩
  · right
    refine ⟨by rw [h2.at_ d hd, a]; rfl, by omega, fun i hi => ?_⟩
    rw [req_moved hlt (by rw [hw]; exact hi) (h1.at_ d hd), c i hi]
    by_cases e : d + 1 + po = pu
    · rw [if_pos e, if_pos (by omega)]
    · rw [if_neg e, if_neg (by omega)]

theorem depth_popLook {m m' : Match} {c : Nat → Nat} {f : Nat} (hf : f ∈ tunFields) (hc1 : c f ≤ 1) (h : PopLook f m m') (hd : DepthOK m c) :
    DepthOK m' c := by
  constructor
  · intro g hg hc
    by_cases e : g = f
    · subst e
      have := h.at_ 1 (by omega)
      rw [show m.items.lookup (inAt g (1 + 1)) = none from hd.two g hg hc1] at this
      exact this
    · exact (h.same (inAt g 1) (inAt_ne hf (.inr ⟨hg, by omega⟩) e)).trans (hd.one g hg hc)
  · intro g hg hc
    by_cases e : g = f
    · subst e; exact h.two
    · exact (h.same (inAt g 2) (inAt_ne hf (.inr ⟨hg, by omega⟩) e)).trans (hd.two g hg hc)

theorem simPop_src {m0 : Match} {x : Match × Match} {pu po : Nat → Nat} {f : Nat} (hf : f ∈ tunFields) (hp : pu f ≤ 1) (h : SrcInv m0 x pu po) :
    ∃ x', simPop x f = .ok x' ∧ SrcInv m0 x' pu (bump po f) ∧
      ∀ p0 fld, SrcPkt p0 fld x.2 pu po → SrcPkt p0 (popOne f fld) x'.2 pu (bump po f) := by
  obtain ⟨a1, a, e1, e2, ia, ka, l1⟩ := popLook_of hf h.inv1 h.keys1 (h.depth1.two f hf hp)
  obtain ⟨b1, b, e3, e4, ib, kb, l2⟩ := popLook_of hf h.inv2 h.keys2 (h.depth2.two f hf hp)
  refine ⟨(a, b), ?_, ⟨ia, ib, ka, kb, depth_popLook hf hp l1 h.depth1,
    depth_popLook hf hp l2 h.depth2, fun g d hs => ?_, by rw [l1.same 2 (not_meta hf), h.metaSim], by rw [l2.same 2 (not_meta hf), h.metaRw]⟩,
    fun p0 fld hp0 => ⟨fun g d hs hn => ?_, fun g hg d hd => ?_⟩⟩
  · unfold simPop
    simp only [e1, e2, e3, e4, bind, Except.bind, pure, Except.pure]
  · by_cases eg : g = f
    · subst eg
      have hd2 : d ≤ 2 := by rcases hs with ⟨_, h⟩ | ⟨_, h⟩ <;> omega
      by_cases hd : d + 1 ≤ 2
      · have := slot_pop hf hd l1 l2 (h.slot g (d + 1) (.inr ⟨hf, hd⟩))
        simpa [bump] using this
      · have : d = 2 := by omega
        subst this
        right
        refine ⟨l2.two, by simp [bump]; omega, fun i hi => ?_⟩
        rw [if_neg (by simp [bump]; omega)]
        exact req_none l1.two i
    · have := slot_same (l1.same _ (inAt_ne hf hs eg)) (l2.same _ (inAt_ne hf hs eg)) (h.slot g d hs)
      simpa [bump, eg] using this
  · by_cases eg : g = f
    · subst eg
      have hd2 : d ≤ 2 := by rcases hs with ⟨_, h⟩ | ⟨_, h⟩ <;> omega
      simp only [popOne, bump, if_true]
      by_cases hd : d + 1 ≤ 2
      · rw [l2.at_ d hd, Option.map_eq_none_iff] at hn
        rw [hp0.slot g (d + 1) (.inr ⟨hf, hd⟩) hn]
        congr 1; omega
      · rw [hp0.deep g hf (d + 1) (by omega)]
        congr 1; omega
    · rw [l2.same _ (inAt_ne hf hs eg)] at hn
      have := hp0.slot g d hs hn
      simpa [popOne, bump, eg] using this
  · by_cases eg : g = f
    · subst eg
      simp only [popOne, bump, if_true]
      rw [hp0.deep g hf (d + 1) (by omega)]
      congr 1; omega
    · have := hp0.deep g hg d hd
      simpa [popOne, bump, eg] using this

/-! ### Set-field -/

theorem setField_src {m0 : Match} {x : Match × Match} {pu po : Nat → Nat} {f v : Nat} (hf : f < 40) (hf2 : f ≠ 2) (h : SrcInv m0 x pu po) :
    SrcInv m0 (x.1.append f (setValue f v) none, x.2.append f (setValue f v) none) pu po ∧
      ∀ p0 fld, SrcPkt p0 fld x.2 pu po →
        SrcPkt p0 (fun g d => if g = f ∧ d = 0 then wrote f v else fld g d) (x.2.append f (setValue f v) none) pu po := by
  have hlook : ∀ (m : Match) g d, HasSlot g d → (m.append f (setValue f v) none).items.lookup (inAt g d) =
      if g = f ∧ d = 0 then some (setValue f v, none) else m.items.lookup (inAt g d) := by
    intro m g d hs
    rw [lookup_append, normValue_none]
    by_cases e : g = f ∧ d = 0
    · rw [if_pos e, e.1, e.2, if_pos (show inAt f 0 = f from rfl)]
    · rw [if_neg e, if_neg]
      intro h1
      have h2 := slot_shown hs
      rw [h1, shown_lt hf] at h2
      exact e ⟨(Prod.mk.inj h2).1.symm, (Prod.mk.inj h2).2.symm⟩
  have hd : ∀ {m : Match}, DepthOK m pu → DepthOK (m.append f (setValue f v) none) pu := by
    intro m hm
    constructor
    · intro g hg hc
      have := hlook m g 1 (.inr ⟨hg, by omega⟩)
      rw [if_neg (by omega)] at this
      exact this.trans (hm.one g hg hc)
    · intro g hg hc
      have := hlook m g 2 (.inr ⟨hg, by omega⟩)
      rw [if_neg (by omega)] at this
      exact this.trans (hm.two g hg hc)
  refine ⟨⟨inv_append h.inv1 _ _ _, inv_append h.inv2 _ _ _, keys_append (by omega) h.keys1, keys_append (by omega) h.keys2, hd h.depth1, hd h.depth2,
    fun g d hs => ?_, ?_, ?_⟩, fun p0 fld hp0 => ⟨fun g d hs hn => ?_, fun g hg d hd3 => ?_⟩⟩
  · by_cases e : g = f ∧ d = 0
    · left; exact ⟨setValue f v, by rw [hlook _ g d hs, if_pos e], by rw [hlook _ g d hs, if_pos e]⟩
    · exact slot_same (by rw [hlook _ g d hs, if_neg e]) (by rw [hlook _ g d hs, if_neg e]) (h.slot g d hs)
  · rw [lookup_append, if_neg (Ne.symm hf2)]; exact h.metaSim
  · rw [lookup_append, if_neg (Ne.symm hf2)]; exact h.metaRw
  · rw [hlook _ g d hs] at hn
    by_cases e : g = f ∧ d = 0
    · rw [if_pos e] at hn; cases hn
    · rw [if_neg e] at hn
      rw [if_neg e]
      exact hp0.slot g d hs hn
  · rw [if_neg (by omega)]
    exact hp0.deep g hg d hd3

/-! ### All actions -/

/-- Pops of the header with the field `f`. -/
def popsOf (f : Nat) (l : List Action) : Nat := l.countP fun a => match a.pops with | some t => t.fields.contains f | none => false

theorem foldl_push_src {m0 : Match} : ∀ (l : List Nat) {x : Match × Match} {pu po : Nat → Nat}, SrcInv m0 x pu po → l.Nodup →
    (∀ f ∈ l, f ∈ tunFields ∧ pu f ≤ 1) →
    ∃ x', l.foldlM simPush x = .ok x' ∧ SrcInv m0 x' (fun g => if g ∈ l then pu g + 1 else pu g) po ∧
      ∀ p0 fld, SrcPkt p0 fld x.2 pu po → SrcPkt p0 (l.foldl (fun y f => pushOne f y) fld) x'.2 (fun g => if g ∈ l then pu g + 1 else pu g) po
  | [], x, _, _, h, _, _ => ⟨x, rfl, by simpa using h, by simp⟩
  | f :: l, x, pu, po, h, hn, hl => by
    obtain ⟨hf, hc⟩ := hl f List.mem_cons_self
    obtain ⟨x1, e1, h1, p1⟩ := simPush_src hf hc h
    obtain ⟨hn1, hn2⟩ := List.nodup_cons.1 hn
    obtain ⟨x2, e2, h2, p2⟩ := foldl_push_src l h1 hn2 fun g hg => by
      obtain ⟨a, b⟩ := hl g (List.mem_cons_of_mem _ hg)
      refine ⟨a, ?_⟩
      have : g ≠ f := fun e => hn1 (e ▸ hg)
      simp only [bump, if_neg this]; exact b
    have : (fun g => if g ∈ f :: l then pu g + 1 else pu g) = fun g => if g ∈ l then bump pu f g + 1 else bump pu f g := by
      funext g
      simp only [List.mem_cons, bump]
      by_cases e : g = f
      · subst e; simp [hn1]
      · simp [e]
    rw [this]
    exact ⟨x2, by rw [List.foldlM_cons, e1]; exact e2, h2, fun p0 fld hp => p2 p0 _ (p1 p0 fld hp)⟩

theorem foldl_pop_src {m0 : Match} : ∀ (l : List Nat) {x : Match × Match} {pu po : Nat → Nat}, SrcInv m0 x pu po → l.Nodup →
    (∀ f ∈ l, f ∈ tunFields ∧ pu f ≤ 1) →
    ∃ x', l.foldlM simPop x = .ok x' ∧ SrcInv m0 x' pu (fun g => if g ∈ l then po g + 1 else po g) ∧
      ∀ p0 fld, SrcPkt p0 fld x.2 pu po → SrcPkt p0 (l.foldl (fun y f => popOne f y) fld) x'.2 pu (fun g => if g ∈ l then po g + 1 else po g)
  | [], x, _, _, h, _, _ => ⟨x, rfl, by simpa using h, by simp⟩
  | f :: l, x, pu, po, h, hn, hl => by
    obtain ⟨hf, hc⟩ := hl f List.mem_cons_self
    obtain ⟨x1, e1, h1, p1⟩ := simPop_src hf hc h
    obtain ⟨hn1, hn2⟩ := List.nodup_cons.1 hn
    obtain ⟨x2, e2, h2, p2⟩ := foldl_pop_src l h1 hn2 fun g hg => hl g (List.mem_cons_of_mem _ hg)
    have : (fun g => if g ∈ f :: l then po g + 1 else po g) = fun g => if g ∈ l then bump po f g + 1 else bump po f g := by
      funext g
      simp only [List.mem_cons, bump]
      by_cases e : g = f
      · subst e; simp [hn1]
      · simp [e]
    rw [this]
    exact ⟨x2, by rw [List.foldlM_cons, e1]; exact e2, h2, fun p0 fld hp => p2 p0 _ (p1 p0 fld hp)⟩

theorem simStep_src {m0 : Match} : ∀ (l : List Action) {x : Match × Match} {pu po : Nat → Nat}, SrcInv m0 x pu po →
    (∀ a ∈ l, a.known = true) → (∀ v, Action.setField 2 v ∉ l) → (∀ f ∈ tunFields, pu f + pushesOf f l ≤ 2) →
    (∀ a ∈ l, ∀ t, a.pops = some t → ∀ f ∈ t.fields, pu f + pushesOf f l ≤ 1) →
    ∃ x', l.foldlM simStep x = .ok x' ∧ SrcInv m0 x' (fun f => pu f + pushesOf f l) (fun f => po f + popsOf f l) ∧
      ∀ p0 p, SrcPkt p0 (Pkt.fld p) x.2 pu po → SrcPkt p0 (exec l p).1.fld x'.2 (fun f => pu f + pushesOf f l) (fun f => po f + popsOf f l)
  | [], x, pu, po, h, _, _, _, _ => ⟨x, rfl, h, fun _ _ hp => hp⟩
  | a :: l, x, pu, po, h, hk, hm, h2, h1 => by
    have rest : ∀ {x1 : Match × Match} {pu1 po1 : Nat → Nat}, simStep x a = .ok x1 → SrcInv m0 x1 pu1 po1 →
        (∀ p0 p, SrcPkt p0 (Pkt.fld p) x.2 pu po → SrcPkt p0 (act a p).fld x1.2 pu1 po1) →
        (∀ f, pu1 f + pushesOf f l = pu f + pushesOf f (a :: l)) → (∀ f, po1 f + popsOf f l = po f + popsOf f (a :: l)) →
        ∃ x', (a :: l).foldlM simStep x = .ok x' ∧ SrcInv m0 x' (fun f => pu f + pushesOf f (a :: l)) (fun f => po f + popsOf f (a :: l)) ∧
          ∀ p0 p, SrcPkt p0 (Pkt.fld p) x.2 pu po →
            SrcPkt p0 (exec (a :: l) p).1.fld x'.2 (fun f => pu f + pushesOf f (a :: l)) (fun f => po f + popsOf f (a :: l)) := by
      intro x1 pu1 po1 e1 hs hp hcu hco
      obtain ⟨x', e, hs', hp'⟩ := simStep_src l hs (fun b hb => hk b (List.mem_cons_of_mem _ hb)) (fun v hv => hm v (List.mem_cons_of_mem _ hv))
        (fun f hf => by rw [hcu f]; exact h2 f hf)
        (fun b hb t ht f hf => by rw [hcu f]; exact h1 b (List.mem_cons_of_mem _ hb) t ht f hf)
      have e1' : (fun f => pu1 f + pushesOf f l) = fun f => pu f + pushesOf f (a :: l) := funext hcu
      have e2' : (fun f => po1 f + popsOf f l) = fun f => po f + popsOf f (a :: l) := funext hco
      rw [e1', e2'] at hs' hp'
      exact ⟨x', by rw [List.foldlM_cons, e1]; exact e, hs', fun p0 p hp0 => by simp only [exec]; exact hp' p0 _ (hp p0 p hp0)⟩
    have cpu : ∀ f, pushesOf f (a :: l) = pushesOf f l + if (match a.pushes with | some t => t.fields.contains f | none => false) = true then 1 else 0 :=
      fun f => List.countP_cons
    have cpo : ∀ f, popsOf f (a :: l) = popsOf f l + if (match a.pops with | some t => t.fields.contains f | none => false) = true then 1 else 0 :=
      fun f => List.countP_cons
    cases hpu : a.pushes with
    | some t =>
      have hpo : a.pops = none := by cases a <;> simp [Action.pushes] at hpu <;> rfl
      simp only [hpu] at cpu
      simp only [hpo] at cpo
      obtain ⟨x1, e1, hs, hp⟩ := foldl_push_src t.fields h (tun_fields t).1 fun f hf => by
        refine ⟨(tun_fields t).2 f hf, ?_⟩
        have := h2 f ((tun_fields t).2 f hf)
        have := cpu f
        simp only [List.contains_iff_mem, hf, if_true] at this
        omega
      refine rest ?_ hs (fun p0 p hp0 => by rw [actPush_fld hpu]; exact hp p0 _ hp0) (fun f => ?_) (fun f => ?_)
      · cases a <;> simp [Action.pushes] at hpu <;> subst hpu <;> exact e1
      · rw [cpu f]
        by_cases hm : f ∈ t.fields <;> simp [hm]; omega
      · rw [cpo f]; simp
    | none =>
      simp only [hpu] at cpu
      cases hpo : a.pops with
      | some t =>
        simp only [hpo] at cpo
        obtain ⟨x1, e1, hs, hp⟩ := foldl_pop_src t.fields h (tun_fields t).1 fun f hf => by
          refine ⟨(tun_fields t).2 f hf, ?_⟩
          have := h1 a List.mem_cons_self t hpo f hf
          omega
        refine rest ?_ hs (fun p0 p hp0 => by rw [actPop_fld hpo]; exact hp p0 _ hp0) (fun f => ?_) (fun f => ?_)
        · cases a <;> simp [Action.pops] at hpo <;> subst hpo <;> exact e1
        · rw [cpu f]; simp
        · rw [cpo f]
          by_cases hm : f ∈ t.fields <;> simp [hm]; omega
      | none =>
        simp only [hpo] at cpo
        have hfl := fun p g d => act_flat_fld hpu hpo p g d
        by_cases hsf : ∃ f v, a = .setField f v
        · obtain ⟨f, v, rfl⟩ := hsf
          have hf40 : f < 40 := by simpa [Action.known] using hk _ List.mem_cons_self
          have hf2 : f ≠ 2 := fun e => hm v (by rw [e]; exact List.mem_cons_self)
          obtain ⟨hs, hp⟩ := setField_src (v := v) hf40 hf2 h
          exact rest rfl hs (fun p0 p hp0 => hp p0 _ hp0) (fun f => by rw [cpu f]; simp) (fun f => by rw [cpo f]; simp)
        · have e1 : ∀ p, (act a p).fld = p.fld := by
            intro p
            funext g d; rw [hfl]; split
            · exact absurd ⟨_, _, rfl⟩ hsf
            · rfl
          refine rest (x1 := x) ?_ h (fun p0 p hp0 => by rw [e1]; exact hp0) (fun f => by rw [cpu f]; simp) (fun f => by rw [cpo f]; simp)
          rw [simStep_flat hpu hpo x]; split
          · exact absurd ⟨_, _, rfl⟩ hsf
          · rfl

end OFE
