import Verif.Rule.Spec
import Verif.Props.Match

/-!
# Lemmas: which bits a match requires
-/

namespace OFE

/-- Bit `i` required by a (value, mask). -/
def reqItem (v : Nat) (mask : Option Nat) (i : Nat) : Option Bool :=
  match mask with
  | none => some (v.testBit i)
  | some m => if m.testBit i then some (v.testBit i) else none

/-- Bit `i` of field `g` required by a match. -/
def req (items : MItems) (g i : Nat) : Option Bool :=
  match items.lookup g with
  | none => none
  | some x => reqItem x.1 x.2 i

theorem matchesField_iff {q : Packet} {g v : Nat} {mask : Option Nat} :
    MatchesField q (g, v, mask) ↔ ∀ i b, i < width g → reqItem v mask i = some b → q.bit g i = b := by
  unfold MatchesField reqItem
  constructor
  · intro h i b hi hb
    cases mask with
    | none => cases hb; exact h i hi (by simp)
    | some m =>
      simp only at hb
      split at hb
      · next hm => cases hb; exact h i hi (by simpa using hm)
      · cases hb
  · intro h i hi hm
    cases mask with
    | none => exact h i _ hi rfl
    | some m => exact h i _ hi (by simp only [hm m rfl, if_true])

theorem matchesAll_iff {items : MItems} (hn : (items.map (·.1)).Nodup) {q : Packet} :
    MatchesAll items q ↔ ∀ g i b, i < width g → req items g i = some b → q.bit g i = b := by
  unfold MatchesAll req
  constructor
  · intro h g i b hi hb
    cases hl : items.lookup g with
    | none => simp [hl] at hb
    | some x =>
      obtain ⟨v, mask⟩ := x
      simp only [hl] at hb
      exact matchesField_iff.1 (h _ (mem_of_lookup_eq_some hl)) i b hi hb
  · intro h x hx
    obtain ⟨g, v, mask⟩ := x
    refine matchesField_iff.2 fun i b hi hb => h g i b hi ?_
    rw [lookup_eq_some_of_mem hn hx]
    exact hb

theorem reqItem_norm {f v : Nat} {mask : Option Nat} (hf : f < 56) {i : Nat} (hi : i < width f) :
    reqItem (normValue f v mask).1 (normValue f v mask).2 i = reqItem v mask i := by
  unfold normValue
  rw [fieldBits_eq hf]
  cases mask with
  | none => rfl
  | some m =>
    simp only
    split
    · next h =>
      have hmt : (m &&& 2 ^ width f - 1).testBit i = m.testBit i := by
        rw [Nat.testBit_and, Nat.testBit_two_pow_sub_one]; simp [hi]
      simp only
      split
      · next he =>
        have : m.testBit i = true := by rw [← hmt, he, Nat.testBit_two_pow_sub_one]; simp [hi]
        simp [reqItem, this, hi]
      · simp only [reqItem, hmt, Nat.testBit_and]
        split
        · next hb => simp [hb]
        · rfl
    · rfl

theorem req_append {m : Match} {f v : Nat} {mask : Option Nat} (hf : f < 56) {g i : Nat} (hi : i < width g) :
    req (m.append f v mask).items g i = if g = f then reqItem v mask i else req m.items g i := by
  unfold req Match.append
  simp only [lookup_dictSet]
  by_cases h : g = f
  · subst h; simp only [if_true]; exact reqItem_norm hf hi
  · simp only [if_neg h]

theorem req_del {m m' : Match} {f : Nat} (h : m.del f = .ok m') (g i : Nat) :
    req m'.items g i = if g = f then none else req m.items g i := by
  unfold Match.del at h
  split at h
  · cases h
  · cases h
    unfold req
    simp only [lookup_dictDel]
    by_cases h : g = f
    · simp only [if_pos h]
    · simp only [if_neg h]

theorem lookup_del {m m' : Match} {f : Nat} (h : m.del f = .ok m') (g : Nat) :
    m'.items.lookup g = if g = f then none else m.items.lookup g := by
  unfold Match.del at h
  split at h
  · cases h
  · cases h
    simp only [lookup_dictDel]

theorem lookup_append (m : Match) (f v : Nat) (mask : Option Nat) (g : Nat) :
    (m.append f v mask).items.lookup g = if g = f then some (normValue f v mask) else m.items.lookup g := by
  unfold Match.append
  simp only [lookup_dictSet]

theorem del_ok {m : Match} {f : Nat} (h : (m.items.lookup f).isSome = true) : ∃ m', m.del f = .ok m' := by
  unfold Match.del
  cases hl : m.items.lookup f with
  | none => simp [hl] at h
  | some x => exact ⟨_, rfl⟩

theorem keys_append {m : Match} {f v : Nat} {mask : Option Nat} {n : Nat} (hf : f < n) (h : ∀ x ∈ m.items, x.1 < n) :
    ∀ x ∈ (m.append f v mask).items, x.1 < n := by
  intro x hx
  have : x.1 ∈ (dictSet f (normValue f v mask) m.items).map (·.1) := List.mem_map.2 ⟨x, hx, rfl⟩
  rw [mem_keys_dictSet] at this
  rcases this with e | e
  · omega
  · obtain ⟨y, hy, e⟩ := List.mem_map.1 e
    have := h y hy; omega

theorem keys_del {m m' : Match} {f n : Nat} (h : m.del f = .ok m') (hk : ∀ x ∈ m.items, x.1 < n) : ∀ x ∈ m'.items, x.1 < n := by
  unfold Match.del at h
  split at h
  · cases h
  · cases h
    intro x hx
    exact hk x (List.mem_of_mem_filter hx)

/-! ### Packets with given bits -/

/-- The packet with bit `i` of field `g` given by `f g i`. -/
def Packet.build (f : Nat → Nat → Bool) : Packet := fun k =>
  match (List.range 56).find? fun g => decide (fieldPos g ≤ k ∧ k < fieldPos g + width g) with
  | some g => f g (k - fieldPos g)
  | none => false

theorem find_field {g i : Nat} (hg : g < 56) (hi : i < width g) :
    (List.range 56).find? (fun h => decide (fieldPos h ≤ fieldPos g + i ∧ fieldPos g + i < fieldPos h + width h)) = some g := by
  have hex : ∃ h, (List.range 56).find? (fun h => decide (fieldPos h ≤ fieldPos g + i ∧ fieldPos g + i < fieldPos h + width h)) = some h := by
    rw [← Option.isSome_iff_exists, List.find?_isSome]
    exact ⟨g, by simpa using hg, by simp; omega⟩
  obtain ⟨h, hh⟩ := hex
  have h1 := List.find?_some hh
  have h2 := List.mem_of_find?_eq_some hh
  simp only [List.mem_range] at h2
  simp only [decide_eq_true_eq] at h1
  rw [hh, field_disjoint h2 hg h1.1 h1.2 (by omega) (by omega)]

theorem build_bit {f : Nat → Nat → Bool} {g i : Nat} (hg : g < 56) (hi : i < width g) : (Packet.build f).bit g i = f g i := by
  unfold Packet.bit Packet.build
  rw [find_field hg hi]
  simp

theorem hdr_bit (p : Pkt) {g i : Nat} (hg : g < 56) (hi : i < width g) :
    p.hdr.bit g i = (p.fld (shown g).1 (shown g).2).testBit i := by
  unfold Packet.bit Pkt.hdr
  rw [find_field hg hi]
  simp

theorem width_unknown {g : Nat} (h : 56 ≤ g) : width g = 0 := by
  unfold width
  rw [List.getD_eq_default]
  rw [fieldWidths_length]; exact h

theorem field_lt {g i : Nat} (hi : i < width g) : g < 56 := by
  by_contra h
  rw [width_unknown (by omega)] at hi
  omega

theorem shown_inj : ∀ g, g < 56 → ∀ h, h < 56 → shown g = shown h → g = h := by decide +kernel

/-- A packet with header stacks showing the given header bits. -/
theorem exists_pkt (q : Packet) : ∃ p : Pkt, ∀ g i, i < width g → p.hdr.bit g i = q.bit g i := by
  let val : Nat → Nat := fun g => Nat.ofBits (fun i : Fin (width g) => q.bit g i)
  let fld : Nat → Nat → Nat := fun f d =>
    match (List.range 56).find? fun g => decide (shown g = (f, d)) with
    | some g => val g
    | none => 0
  refine ⟨⟨fld, fun _ => 0, 0, fun _ => 0, 0, 0⟩, fun g i hi => ?_⟩
  have hg := field_lt hi
  rw [hdr_bit _ hg hi]
  have : (List.range 56).find? (fun h => decide (shown h = ((shown g).1, (shown g).2))) = some g := by
    have hex : ∃ h, (List.range 56).find? (fun h => decide (shown h = ((shown g).1, (shown g).2))) = some h := by
      rw [← Option.isSome_iff_exists, List.find?_isSome]
      exact ⟨g, by simpa using hg, by simp⟩
    obtain ⟨h, hh⟩ := hex
    have h1 := List.find?_some hh
    have h2 := List.mem_of_find?_eq_some hh
    simp only [List.mem_range] at h2
    simp only [decide_eq_true_eq] at h1
    rw [hh, shown_inj h h2 g hg h1]
  show (fld (shown g).1 (shown g).2).testBit i = _
  simp only [fld, this, val]
  rw [Nat.testBit_ofBits_lt _ _ hi]

/-- Every match with distinct fields is satisfiable, also with prescribed bits where it requires none. -/
theorem matches_build {items : MItems} (hn : (items.map (·.1)).Nodup) (f : Nat → Nat → Bool) :
    MatchesAll items (Packet.build fun g i => (req items g i).getD (f g i)) := by
  rw [matchesAll_iff hn]
  intro g i b hi hb
  rw [build_bit (field_lt hi) hi, hb]
  rfl

theorem matches_congr {items : MItems} (hn : (items.map (·.1)).Nodup) {q q' : Packet}
    (h : ∀ g i, i < width g → q.bit g i = q'.bit g i) : MatchesAll items q ↔ MatchesAll items q' := by
  rw [matchesAll_iff hn, matchesAll_iff hn]
  constructor
  · intro hq g i b hi hb
    rw [← h g i hi]; exact hq g i b hi hb
  · intro hq g i b hi hb
    rw [h g i hi]; exact hq g i b hi hb

theorem overlaps_iff {a b : Match} (ha : a.Inv) (hb : b.Inv) (hka : ∀ x ∈ a.items, x.1 < 56) (hkb : ∀ x ∈ b.items, x.1 < 56) :
    ∃ r, a.overlaps b = .ok r ∧ (r = true ↔ ∃ q, MatchesAll a.items q ∧ MatchesAll b.items q) := by
  obtain ⟨wa, ea, -⟩ := toWildcard_ok hka
  obtain ⟨wb, eb, -⟩ := toWildcard_ok hkb
  have ga := getWildcard_eq ha
  have gb := getWildcard_eq hb
  rw [ea] at ga
  rw [eb] at gb
  unfold Match.overlaps
  cases hca : a.getWildcard with
  | error e => rw [hca] at ga; cases ga
  | ok x =>
    cases hcb : b.getWildcard with
    | error e => rw [hcb] at gb; cases gb
    | ok y =>
      rw [hca] at ga; rw [hcb] at gb
      have e1 : x.1 = wa := Except.ok.inj ga
      have e2 : y.1 = wb := Except.ok.inj gb
      obtain ⟨x1, x2⟩ := x
      obtain ⟨y1, y2⟩ := y
      simp only at e1 e2
      subst e1 e2
      refine ⟨_, rfl, ?_⟩
      have ca := covers_toWildcard hka ea
      have cb := covers_toWildcard hkb eb
      rw [bytesNeeded_eq, decide_eq_true_eq]
      constructor
      · intro h
        by_contra hno
        exact h ((wcIntersect_eq_zero (by decide) _ _).2 fun ⟨p, hp⟩ => hno ⟨p, (ca p).1 hp.1, (cb p).1 hp.2⟩)
      · rintro ⟨q, h1, h2⟩ hz
        exact (wcIntersect_eq_zero (by decide) _ _).1 hz ⟨q, (ca q).2 h1, (cb q).2 h2⟩

end OFE
