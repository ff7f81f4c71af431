import Verif.Props.Rule

/-!
# Lemmas: the simulated packet under push and pop
-/

namespace OFE

/-- The fields of tunnel headers. -/
def tunFields : List Nat := [6, 7, 34, 35, 36, 3, 4, 37]

/-- Ids of the copies of a tunnel field at depths 1 and 2. -/
def in1 (f : Nat) : Nat := 40 + 2 * (tunFields.idxOf f)
def in2 (f : Nat) : Nat := 41 + 2 * (tunFields.idxOf f)

theorem tun_ids : ∀ f ∈ tunFields, innerId f 0 = some f ∧ innerId f 1 = some (in1 f) ∧ innerId f 2 = some (in2 f) ∧ innerId f 3 = none ∧
    shown f = (f, 0) ∧ shown (in1 f) = (f, 1) ∧ shown (in2 f) = (f, 2) ∧ f < 40 ∧ 40 ≤ in1 f ∧ in1 f < 56 ∧ 40 ≤ in2 f ∧ in2 f < 56 ∧ in1 f ≠ in2 f ∧
    width (in1 f) = width f ∧ width (in2 f) = width f ∧ depthOf f f = some 0 ∧ depthOf f (in1 f) = some 1 ∧ depthOf f (in2 f) = some 2 := by
  decide +kernel

theorem depthOf_some : ∀ f ∈ tunFields, ∀ g, g < 56 → (depthOf f g).isSome = true → g = f ∨ g = in1 f ∨ g = in2 f := by decide +kernel

theorem shown_cases : ∀ f ∈ tunFields, ∀ g, g < 56 → (shown g).1 = f → g = f ∨ g = in1 f ∨ g = in2 f := by decide +kernel

theorem in_inj : ∀ f ∈ tunFields, ∀ f' ∈ tunFields, (in1 f = in1 f' ∨ in2 f = in2 f' → f = f') ∧ in1 f ≠ in2 f' := by decide +kernel

/-- The value stored when a match is moved to another id. -/
def moved (g : Nat) (x : Nat × Option Nat) : Nat × Option Nat := normValue g x.1 x.2

theorem rename_ok {m : Match} {old new : Nat} (hne : new ≠ old) (h : (m.items.lookup old).isSome = true) :
    ∃ m', m.rename old new = .ok m' ∧ (m.Inv → m'.Inv) ∧ (∀ g, m'.items.lookup g =
      if g = old then none else if g = new then (m.items.lookup old).map (moved new) else m.items.lookup g) ∧
      ∀ n, new < n → (∀ x ∈ m.items, x.1 < n) → ∀ x ∈ m'.items, x.1 < n := by
  obtain ⟨x, hx⟩ := Option.isSome_iff_exists.1 h
  have hl : ((m.append new x.1 x.2).items.lookup old).isSome = true := by
    rw [lookup_append, if_neg (Ne.symm hne)]; exact h
  obtain ⟨m', e⟩ := del_ok hl
  refine ⟨m', ?_, fun hi => inv_del (inv_append hi _ _ _) e, fun g => ?_, fun n hn hk => keys_del e (keys_append hn hk)⟩
  · unfold Match.rename Match.get; simp only [hx, bind, Except.bind]; exact e
  · rw [lookup_del e, lookup_append, hx]; rfl

theorem demote_ok {m : Match} {f : Nat} (hf : f ∈ tunFields) (h2 : m.items.lookup (in2 f) = none) :
    ∃ m', demote m f 1 = .ok m' ∧ (m.Inv → m'.Inv) ∧ ((∀ x ∈ m.items, x.1 < 56) → ∀ x ∈ m'.items, x.1 < 56) ∧
      ∀ g, m'.items.lookup g = if g = f then none else if g = in1 f then (m.items.lookup f).map (moved (in1 f))
        else if g = in2 f then (m.items.lookup (in1 f)).map (moved (in2 f)) else m.items.lookup g := by
  obtain ⟨i0, i1, i2, i3, -, -, -, l0, l1, l1', l2, l2', ne, -⟩ := tun_ids f hf
  have step2 : demoteOne f 1 m 2 = .ok m := by
    unfold demoteOne; simp only [i2, h2]; rfl
  have step1 : ∃ m1, demoteOne f 1 m 1 = .ok m1 ∧ (m.Inv → m1.Inv) ∧ ((∀ x ∈ m.items, x.1 < 56) → ∀ x ∈ m1.items, x.1 < 56) ∧
      ∀ g, m1.items.lookup g = if g = in1 f then none else if g = in2 f then (m.items.lookup (in1 f)).map (moved (in2 f)) else m.items.lookup g := by
    unfold demoteOne
    simp only [i1, i2, Nat.reduceAdd]
    cases hl : m.items.lookup (in1 f) with
    | none =>
      refine ⟨m, rfl, id, id, fun g => ?_⟩
      by_cases e1 : g = in1 f
      · rw [if_pos e1, e1, hl]
      · by_cases e2 : g = in2 f
        · rw [if_neg e1, if_pos e2, e2, h2]; rfl
        · rw [if_neg e1, if_neg e2]
    | some x =>
      obtain ⟨m1, e, hi, hlk, hk⟩ := rename_ok (m := m) (old := in1 f) (new := in2 f) (Ne.symm ne) (by rw [hl]; rfl)
      refine ⟨m1, e, hi, hk 56 l2', fun g => ?_⟩
      rw [hlk, hl]
  obtain ⟨m1, e1, hi1, hk1, hl1⟩ := step1
  have step0 : ∃ m', demoteOne f 1 m1 0 = .ok m' ∧ (m1.Inv → m'.Inv) ∧ ((∀ x ∈ m1.items, x.1 < 56) → ∀ x ∈ m'.items, x.1 < 56) ∧
      ∀ g, m'.items.lookup g = if g = f then none else if g = in1 f then (m1.items.lookup f).map (moved (in1 f)) else m1.items.lookup g := by
    unfold demoteOne
    simp only [i0, i1, Nat.reduceAdd]
    cases hl : m1.items.lookup f with
    | none =>
      refine ⟨m1, rfl, id, id, fun g => ?_⟩
      by_cases e1 : g = f
      · rw [if_pos e1, e1, hl]
      · by_cases e2 : g = in1 f
        · rw [if_neg e1, if_pos e2, e2, hl1]; simp
        · rw [if_neg e1, if_neg e2]
    | some x =>
      obtain ⟨m', e, hi, hlk, hk⟩ := rename_ok (m := m1) (old := f) (new := in1 f) (by omega) (by rw [hl]; rfl)
      refine ⟨m', e, hi, hk 56 l1', fun g => ?_⟩
      rw [hlk, hl]
  obtain ⟨m', e0, hi0, hk0, hl0⟩ := step0
  refine ⟨m', ?_, hi0 ∘ hi1, fun h => hk0 (hk1 h), fun g => ?_⟩
  · unfold demote
    simp only [List.foldlM_cons, List.foldlM_nil, step2, e1, e0, bind, Except.bind, pure, Except.pure]
    rfl
  · rw [hl0, hl1, hl1]
    have a1 : f ≠ in1 f := by omega
    have a2 : f ≠ in2 f := by omega
    by_cases g0 : g = f
    · simp [g0]
    · by_cases g1 : g = in1 f
      · simp [g1, g0, a1, a2, Ne.symm a1]
      · simp [g0, g1]

theorem promote_ok {m : Match} {f : Nat} (hf : f ∈ tunFields) (hi : m.Inv) (hk : ∀ x ∈ m.items, x.1 < 56)
    (h0 : m.items.lookup f = none) (h2 : m.items.lookup (in2 f) = none) :
    ∃ m', promote m f 1 = .ok m' ∧ m'.Inv ∧ (∀ x ∈ m'.items, x.1 < 56) ∧
      ∀ g, m'.items.lookup g = if g = f then (m.items.lookup (in1 f)).map (moved f) else if g = in1 f then none else m.items.lookup g := by
  obtain ⟨i0, i1, i2, i3, -, -, -, l0, l1, l1', l2, l2', ne, -, -, d0, d1, d2⟩ := tun_ids f hf
  have hmem : ∀ g ∈ m.items.map (·.1), (m.items.lookup g).isSome = true := by
    intro g hg
    obtain ⟨x, hx, rfl⟩ := List.mem_map.1 hg
    rw [lookup_eq_some_of_mem hi.nodup (show (x.1, x.2) ∈ m.items from hx)]; rfl
  have hfil : ∀ g ∈ (m.items.map (·.1)).filter (fun g => (depthOf f g).isSome), g = in1 f := by
    intro g hg
    obtain ⟨hg1, hg2⟩ := List.mem_filter.1 hg
    have hlt : g < 56 := by obtain ⟨x, hx, rfl⟩ := List.mem_map.1 hg1; exact hk x hx
    have hs := hmem g hg1
    rcases depthOf_some f hf g hlt hg2 with rfl | rfl | rfl
    · rw [h0] at hs; simp at hs
    · rfl
    · rw [h2] at hs; simp at hs
  have hnd : ((m.items.map (·.1)).filter (fun g => (depthOf f g).isSome)).Nodup := hi.nodup.filter _
  unfold promote
  simp only [Nat.one_ne_zero, if_false]
  cases hl : m.items.lookup (in1 f) with
  | none =>
    have : (m.items.map (·.1)).filter (fun g => (depthOf f g).isSome) = [] := by
      rw [List.eq_nil_iff_forall_not_mem]
      intro g hg
      have e := hfil g hg
      have := hmem g (List.mem_of_mem_filter hg)
      rw [e, hl] at this; simp at this
    rw [this]
    refine ⟨m, rfl, hi, hk, fun g => ?_⟩
    by_cases g0 : g = f
    · simp [g0, h0]
    · by_cases g1 : g = in1 f
      · simp [g1, hl]
      · simp [g0, g1]
  | some x =>
    have hin : in1 f ∈ (m.items.map (·.1)).filter (fun g => (depthOf f g).isSome) := by
      refine List.mem_filter.2 ⟨List.mem_map.2 ⟨(in1 f, x), mem_of_lookup_eq_some hl, rfl⟩, by rw [d1]; rfl⟩
    have : (m.items.map (·.1)).filter (fun g => (depthOf f g).isSome) = [in1 f] := by
      generalize (m.items.map (·.1)).filter (fun g => (depthOf f g).isSome) = l at hfil hnd hin
      match l, hfil, hnd, hin with
      | [a], hfil, _, _ => rw [hfil a (by simp)]
      | a :: b :: l, hfil, hnd, _ =>
        have := hfil a (by simp)
        have := hfil b (by simp)
        simp at hnd; omega
    rw [this]
    obtain ⟨m', e, hi', hlk, hk'⟩ := rename_ok (m := m) (old := in1 f) (new := f) (by omega) (by rw [hl]; rfl)
    refine ⟨m', ?_, hi' hi, hk' 56 (by omega) hk, fun g => ?_⟩
    · simp only [List.foldlM_cons, List.foldlM_nil, bind, Except.bind, pure, Except.pure]
      unfold promoteOne
      simp only [d1, i0, Nat.sub_self, e]
      rfl
    · rw [hlk]
      by_cases g0 : g = f
      · have : f ≠ in1 f := by omega
        simp [g0, hl, this]
      · by_cases g1 : g = in1 f
        · simp [g1]; intro h; omega
        · simp [g0, g1]

theorem delIf_ok {m : Match} {f : Nat} (hi : m.Inv) (hk : ∀ x ∈ m.items, x.1 < 56) :
    ∃ m', delIf m f = .ok m' ∧ m'.Inv ∧ (∀ x ∈ m'.items, x.1 < 56) ∧
      ∀ g, m'.items.lookup g = if g = f then none else m.items.lookup g := by
  unfold delIf
  by_cases h : (m.items.lookup f).isSome = true
  · obtain ⟨m', e⟩ := del_ok h
    refine ⟨m', by rw [if_pos h, e], inv_del hi e, keys_del e hk, lookup_del e⟩
  · refine ⟨m, by rw [if_neg h], hi, hk, fun g => ?_⟩
    split
    · next e => rw [e]; exact Option.not_isSome_iff_eq_none.1 h
    · rfl

/-! ### The packet side -/

/-- New value at depth 0 of one field; the others move inwards. -/
def pushOne (f : Nat) (fld : Nat → Nat → Nat) : Nat → Nat → Nat :=
  fun g d => if g = f then (if d = 0 then wrote f (fld f 0) else fld f (d - 1)) else fld g d

def popOne (f : Nat) (fld : Nat → Nat → Nat) : Nat → Nat → Nat := fun g d => if g = f then fld f (d + 1) else fld g d

theorem actPush_fld {a : Action} {t : Tun} (h : a.pushes = some t) (p : Pkt) :
    (act a p).fld = t.fields.foldl (fun x f => pushOne f x) p.fld := by
  cases a <;> simp [Action.pushes] at h <;> subst h <;> funext g d <;>
    simp only [act, pushHdr, vlanF, mplsF, pbbF, Tun.fields, List.foldl_cons, List.foldl_nil, pushOne] <;> grind

theorem actPop_fld {a : Action} {t : Tun} (h : a.pops = some t) (p : Pkt) :
    (act a p).fld = t.fields.foldl (fun x f => popOne f x) p.fld := by
  cases a <;> simp [Action.pops] at h <;> subst h <;> funext g d <;>
    simp only [act, popHdr, vlanF, mplsF, pbbF, Tun.fields, List.foldl_cons, List.foldl_nil, popOne] <;> grind

/-! ### The invariant -/

/-- The bits that a match requires are those of the packet. -/
def Agrees (m : Match) (fld : Nat → Nat → Nat) : Prop :=
  ∀ g i b, i < width g → req m.items g i = some b → (fld (shown g).1 (shown g).2).testBit i = b

theorem agrees_iff {m : Match} (hi : m.Inv) {p : Pkt} : Agrees m p.fld ↔ m.accepts p := by
  unfold Match.accepts Agrees
  rw [matchesAll_iff hi.nodup]
  constructor
  · intro h g i b hib hb
    rw [hdr_bit _ (field_lt hib) hib]; exact h g i b hib hb
  · intro h g i b hib hb
    rw [← hdr_bit _ (field_lt hib) hib]; exact h g i b hib hb

/-- Values of one pushed tunnel field are all known, or absent. -/
structure KnownAt (m : Match) (fld : Nat → Nat → Nat) (f : Nat) : Prop where
  zero : (∃ v, m.items.lookup f = some (v, none)) ∨ (m.items.lookup f = none ∧ fld f 0 = 0)
  one : (∃ v, m.items.lookup (in1 f) = some (v, none)) ∨ (m.items.lookup (in1 f) = none ∧ fld f 1 = 0)
  two : (∃ v, m.items.lookup (in2 f) = some (v, none)) ∨ (m.items.lookup (in2 f) = none ∧ fld f 2 = 0)
  deep : ∀ d, 3 ≤ d → fld f d = 0

/-- No copy of a field deeper than the pushes so far. -/
structure DepthOK (m : Match) (c : Nat → Nat) : Prop where
  one : ∀ f ∈ tunFields, c f = 0 → m.items.lookup (in1 f) = none
  two : ∀ f ∈ tunFields, c f ≤ 1 → m.items.lookup (in2 f) = none

structure SimInv (fld : Nat → Nat → Nat) (x : Match × Match) (c : Nat → Nat) (K : Nat → Prop) : Prop where
  inv1 : x.1.Inv
  inv2 : x.2.Inv
  keys1 : ∀ y ∈ x.1.items, y.1 < 56
  keys2 : ∀ y ∈ x.2.items, y.1 < 56
  cov : Agrees x.1 fld
  depth1 : DepthOK x.1 c
  depth2 : DepthOK x.2 c
  known : ∀ f ∈ tunFields, K f → KnownAt x.1 fld f

theorem req_none {m : Match} {g : Nat} (h : m.items.lookup g = none) (i : Nat) : req m.items g i = none := by
  unfold req; rw [h]

theorem req_moved {m m' : Match} {g g' i : Nat} (hg : g < 56) (hi : i < width g) (h : m'.items.lookup g = (m.items.lookup g').map (moved g)) :
    req m'.items g i = req m.items g' i := by
  unfold req
  rw [h]
  cases m.items.lookup g' with
  | none => rfl
  | some x => exact reqItem_norm hg hi

theorem req_same {m m' : Match} {g : Nat} (h : m'.items.lookup g = m.items.lookup g) (i : Nat) : req m'.items g i = req m.items g i := by
  unfold req; rw [h]

theorem moved_exact {g v : Nat} : moved g (v, none) = (v, none) := normValue_none g v

end OFE
