import Verif.Match.Ops
import Verif.Props.Match
import Verif.Rule.ReqLemmas
import Verif.Rule.Spec
import Verif.Props.RyuGroups

/-!
# C103: matches under their operators are sets of packets; empty instructions do nothing
-/

namespace OFE

/-- The wildcards of two matches. -/
theorem wildcards_of {a : Match} (ha : a.Inv) (hka : ∀ x ∈ a.items, x.1 < 56) :
    ∃ w m, a.getWildcard = .ok (w, m) ∧ WcValid totBits w ∧ ∀ p, Covers totBits w p ↔ MatchesAll a.items p := by
  obtain ⟨w, e, -⟩ := toWildcard_ok hka
  have := getWildcard_eq ha
  rw [e] at this
  cases hg : a.getWildcard with
  | error x => rw [hg] at this; cases this
  | ok x =>
    rw [hg] at this
    obtain ⟨w', m⟩ := x
    obtain rfl : w' = w := Except.ok.inj this
    exact ⟨w', m, rfl, toWildcard_valid hka ha.nodup e, covers_toWildcard hka e⟩

/-- **C103** `a.issubset(b)` always answers, and says whether every packet of `a` is a packet of `b`. -/
theorem C103_issubset (a b : Match) (ha : a.Inv) (hb : b.Inv) (hka : ∀ x ∈ a.items, x.1 < 56) (hkb : ∀ x ∈ b.items, x.1 < 56) :
    ∃ r, a.issubset b = .ok r ∧ (r = true ↔ ∀ p, MatchesAll a.items p → MatchesAll b.items p) := by
  obtain ⟨wa, ma, ea, va, ca⟩ := wildcards_of ha hka
  obtain ⟨wb, mb, eb, -, cb⟩ := wildcards_of hb hkb
  refine ⟨wcIsSubset wa wb, by simp only [Match.issubset, ea, eb, bind, Except.bind, pure, Except.pure], ?_⟩
  rw [wcIsSubset_iff va]
  exact forall_congr' fun p => by rw [ca, cb]

/-- **C103** `a.overlaps(b)` always answers, and says whether some packet is in both. -/
theorem C103_overlaps (a b : Match) (ha : a.Inv) (hb : b.Inv) (hka : ∀ x ∈ a.items, x.1 < 56) (hkb : ∀ x ∈ b.items, x.1 < 56) :
    ∃ r, a.overlaps b = .ok r ∧ (r = true ↔ ∃ p, MatchesAll a.items p ∧ MatchesAll b.items p) := overlaps_iff ha hb hka hkb

/-- **C103** (partial: `a` and `b` have a packet in common, see `C103_and_disjoint`) `a & b` has the packets that are in both. -/
theorem C103_and_partial (a b : Match) (ha : a.Inv) (hb : b.Inv) (hka : ∀ x ∈ a.items, x.1 < 56) (hkb : ∀ x ∈ b.items, x.1 < 56)
    (hov : a.overlaps b = .ok true) :
    ∃ m, a.andOp b = .ok m ∧ m.Inv ∧ (∀ x ∈ m.items, x.1 < 56) ∧ ∀ p, MatchesAll m.items p ↔ MatchesAll a.items p ∧ MatchesAll b.items p := by
  obtain ⟨r, e, hr⟩ := overlaps_iff ha hb hka hkb
  rw [hov] at e
  cases e
  obtain ⟨m, h1, h2, h3, h4⟩ := C16_intersection a b ha hb hka hkb (hr.1 rfl)
  exact ⟨m, h1, h2, fun x hx => (h3 x hx).1, h4⟩

/-- **C103**, negation: if they have no packet in common, `a & b` is not an empty match; it raises KeyError. -/
theorem C103_and_disjoint (a b : Match) (ha : a.Inv) (hb : b.Inv) (hka : ∀ x ∈ a.items, x.1 < 56) (hkb : ∀ x ∈ b.items, x.1 < 56)
    (hov : a.overlaps b = .ok false) : a.andOp b = .error .keyError := by
  obtain ⟨r, e, hr⟩ := overlaps_iff ha hb hka hkb
  rw [hov] at e
  cases e
  exact C16_intersection_disjoint a b ha hb hka hkb fun h => absurd (hr.2 h) (by simp)

/-- **C103** The tests agree with each other: a match is a subset of another if it overlaps it and their intersection has all its packets. -/
theorem C103_subset_and (a b : Match) (ha : a.Inv) (hb : b.Inv) (hka : ∀ x ∈ a.items, x.1 < 56) (hkb : ∀ x ∈ b.items, x.1 < 56) :
    a.issubset b = .ok true ↔ ∃ m, a.andOp b = .ok m ∧ ∀ p, MatchesAll m.items p ↔ MatchesAll a.items p := by
  obtain ⟨r, er, hr⟩ := C103_issubset a b ha hb hka hkb
  rw [er]
  constructor
  · intro h
    cases h
    have hs := hr.1 rfl
    obtain ⟨q, hq⟩ : ∃ q, MatchesAll a.items q := ⟨_, matches_build ha.nodup fun _ _ => false⟩
    obtain ⟨o, eo, ho⟩ := C103_overlaps a b ha hb hka hkb
    obtain rfl : o = true := ho.2 ⟨q, hq, hs q hq⟩
    obtain ⟨m, h1, -, -, h2⟩ := C103_and_partial a b ha hb hka hkb eo
    exact ⟨m, h1, fun p => by rw [h2]; exact ⟨fun h => h.1, fun h => ⟨h, hs p h⟩⟩⟩
  · rintro ⟨m, h1, h2⟩
    obtain ⟨o, eo, ho⟩ := C103_overlaps a b ha hb hka hkb
    cases o with
    | false => rw [C103_and_disjoint a b ha hb hka hkb eo] at h1; cases h1
    | true =>
      obtain ⟨m', h1', -, -, h2'⟩ := C103_and_partial a b ha hb hka hkb eo
      rw [h1] at h1'
      cases h1'
      rw [hr.2 fun p hp => ((h2' p).1 ((h2 p).2 hp)).2]

/-- **C103**, negation: `a += b`, documented as an intersection in place, raises NotImplementedError for all matches. -/
theorem C103_iadd (a b : Match) : a.iaddOp b = .error .runtimeError := rfl

/-- **C103** The empty match has all packets; a match that does not, is not empty.  For matches in normal form (as `&` returns them) also the other way. -/
theorem C103_empty (m : Match) : (m.isEmpty = true → ∀ p, MatchesAll m.items p) ∧
    (m.Inv → (∀ x ∈ m.items, NormItem x) → (∀ p, MatchesAll m.items p) → m.isEmpty = true) := by
  unfold Match.isEmpty
  simp only [beq_iff_eq, List.length_eq_zero_iff]
  constructor
  · intro h p
    rw [h]
    intro x hx
    cases hx
  · intro hi hn hall
    cases e : m.items with
    | nil => rfl
    | cons x l =>
      exfalso
      have hx : x ∈ m.items := by rw [e]; exact List.mem_cons_self
      obtain ⟨h1, h2, h3⟩ := hn x hx
      have hw := width_pos x.1 h1
      have key : ∃ i, i < width x.1 ∧ ∀ k, x.2.2 = some k → k.testBit i = true := by
        cases hm : x.2.2 with
        | none => exact ⟨0, hw, fun k hk => by cases hk⟩
        | some k =>
          obtain ⟨k0, k1, -⟩ := h3 k hm
          obtain ⟨i, hi⟩ := Nat.exists_testBit_of_ne_zero k0
          refine ⟨i, ?_, fun k' hk => by cases hk; exact hi⟩
          by_contra hge
          have : k.testBit i = false := Nat.testBit_lt_two_pow (Nat.lt_of_lt_of_le (by omega : k < 2 ^ width x.1) (Nat.pow_le_pow_right (by decide) (by omega)))
          rw [this] at hi
          cases hi
      obtain ⟨i, hi, hm⟩ := key
      have h4 := hall (Packet.build fun _ _ => false) x hx i hi hm
      have h5 := hall (Packet.build fun _ _ => true) x hx i hi hm
      rw [build_bit h1 hi] at h4 h5
      rw [← h4] at h5
      cases h5

/-- **C103**, negation: a match on a field with mask 0 has all packets but is not empty and not equal to the empty match. -/
theorem C103_mask_zero : (Match.empty.append 6 5 (some 0)).isEmpty = false ∧ (Match.empty.append 6 5 (some 0)).ne Match.empty = true ∧
    ∀ p, MatchesAll (Match.empty.append 6 5 (some 0)).items p := by
  refine ⟨by decide +kernel, by decide +kernel, fun p x hx i _ hm => ?_⟩
  have e : (Match.empty.append 6 5 (some 0)).items = [(6, 5, some 0)] := by decide +kernel
  rw [e, List.mem_singleton] at hx
  subst hx
  have := hm 0 rfl
  simp at this

/-- **C103** Instructions built from lists of known actions are empty exactly if they equal new ones; then a packet passes unchanged, nothing is sent, the
action set stays, and there is neither a next table nor a meter. -/
theorem C103_no_instructions (i : Inst) (ha : ∃ s, AllKnown s ∧ ActionList.ofList s = .ok i.apply) (hw : ∃ w, AllKnown w ∧ actionSetOfList w = .ok i.write) :
    (i.isEmpty = true ↔ i.eq Inst.empty = true) ∧
    (i.isEmpty = true → (∀ s : St, i.run s = s) ∧ i.goto = none ∧ i.meter = none) := by
  obtain ⟨l1, l2⟩ := Ryu.lens (r := (⟨0, none, 0, Match.empty, i, []⟩ : Rule Unit)) ha hw
  simp only at l1 l2
  have nil : ∀ {l : ActionList}, l.len = l.iter.length → l.isEmpty = true → l.iter = [] := by
    intro l h1 h2
    unfold ActionList.isEmpty at h2
    rw [h1, beq_iff_eq, List.length_eq_zero_iff] at h2
    exact h2
  have eqE : ∀ {l : ActionList}, l.len = l.iter.length → (l.eq ActionList.empty = true ↔ l.isEmpty = true) := by
    intro l h1
    have e0 : ActionList.empty.iter = [] := rfl
    have e1 : ActionList.empty.len = 0 := rfl
    unfold ActionList.eq ActionList.isEmpty
    rw [e0, e1, h1]
    by_cases h : l.iter = []
    · simp [h]
    · simp [h]
  have none_beq : ∀ {α : Type} [BEq α] [LawfulBEq α] (o : Option α), (o == none) = o.isNone := by
    intro α _ _ o
    cases o <;> rfl
  constructor
  · unfold Inst.isEmpty Inst.eq
    have g1 : Inst.empty.apply = ActionList.empty := rfl
    have g2 : Inst.empty.write = ActionList.empty := rfl
    have g3 : Inst.empty.goto = none ∧ Inst.empty.wmeta = none ∧ Inst.empty.meter = none ∧ Inst.empty.clear = false := ⟨rfl, rfl, rfl, rfl⟩
    simp only [Bool.and_eq_true, g1, g2, g3.1, g3.2.1, g3.2.2.1, g3.2.2.2, eqE l1, eqE l2, Option.isNone_iff_eq_none, beq_iff_eq, Bool.not_eq_true']
    constructor
    · rintro ⟨⟨⟨⟨⟨h1, h2⟩, h3⟩, h4⟩, h5⟩, h6⟩
      exact ⟨⟨⟨⟨⟨h1, h4⟩, h5⟩, h2⟩, h3⟩, h6⟩
    · rintro ⟨⟨⟨⟨⟨h1, h4⟩, h5⟩, h2⟩, h3⟩, h6⟩
      exact ⟨⟨⟨⟨⟨h1, h2⟩, h3⟩, h4⟩, h5⟩, h6⟩
  · intro h
    unfold Inst.isEmpty at h
    simp only [Bool.and_eq_true, Option.isNone_iff_eq_none, Bool.not_eq_true'] at h
    obtain ⟨⟨⟨⟨⟨h1, h2⟩, h3⟩, h4⟩, h5⟩, h6⟩ := h
    refine ⟨fun s => ?_, h1, h6⟩
    have e1 := nil l1 h2
    have e2 := nil l2 h3
    obtain ⟨pkt, sent, writes⟩ := s
    simp only [Inst.run, Inst.forward, e1, e2, h4, h5, exec, writeMeta, List.append_nil, Bool.false_eq_true, if_false]

/-- The tests on VLAN_VID 5 under mask 7, VLAN_VID 13 under mask 15 and VLAN_VID 1 under mask 6. -/
example : (Match.empty.append 6 13 (some 15)).issubset (Match.empty.append 6 5 (some 7)) = .ok true ∧
    (Match.empty.append 6 5 (some 7)).issubset (Match.empty.append 6 13 (some 15)) = .ok false ∧
    (Match.empty.append 6 5 (some 7)).overlaps (Match.empty.append 6 8 (some 8)) = .ok true ∧
    (Match.empty.append 6 5 (some 7)).overlaps (Match.empty.append 6 1 (some 6)) = .ok false ∧
    (Match.empty.append 6 5 (some 7)).Inv := by
  refine ⟨by decide +kernel, by decide +kernel, by decide +kernel, by decide +kernel, inv_append inv_empty _ _ _⟩

/-- The hypotheses of `C103_empty` and `C103_no_instructions` hold for these. -/
example : (∀ x ∈ (Match.empty.append 6 5 (some 7)).items, NormItem x) ∧ Match.empty.isEmpty = true ∧ Inst.empty.isEmpty = true ∧
    ({ Inst.empty with meter := some 3 } : Inst).isEmpty = false ∧ (∃ s, AllKnown s ∧ ActionList.ofList s = .ok Inst.empty.apply) := by
  refine ⟨?_, rfl, rfl, rfl, [], by simp [AllKnown], rfl⟩
  have e : (Match.empty.append 6 5 (some 7)).items = [(6, 5, some 7)] := by decide +kernel
  rw [e]
  intro x hx
  rw [List.mem_singleton] at hx
  subst hx
  refine ⟨by decide, by decide +kernel, fun m hm => ?_⟩
  cases hm
  decide +kernel

end OFE
