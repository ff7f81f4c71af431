import Verif.Props.MatchOps
import Verif.Props.Names

/-!
# Property C108: operations on matches with unknown fields

Matches by number, where numbers from 56 on are unknown fields.
-/

namespace OFE.Names

/-- Specification: the packet agrees with the entries for known fields. -/
def AgreesBelow (m : MItems) (p : Packet) : Prop := ∀ x ∈ m, x.1 < 56 → MatchesField p x

/-- Specification: the match without its unknown fields. -/
def known (m : Match) : Match := ⟨m.items.filter fun x => decide (x.1 < 56), m.required % 2 ^ 56, none⟩

theorem known_inv {m : Match} (h : m.Inv) : (known m).Inv := by
  refine ⟨known_nodup h.nodup, fun f => ?_, fun w hw => by cases hw⟩
  have e : f ∈ (known m).items.map (·.1) ↔ f ∈ m.items.map (·.1) ∧ f < 56 := by
    simp only [known, List.mem_map, List.mem_filter, decide_eq_true_eq]
    constructor
    · rintro ⟨x, ⟨h1, h2⟩, rfl⟩; exact ⟨⟨x, h1, rfl⟩, h2⟩
    · rintro ⟨⟨x, h1, rfl⟩, h2⟩; exact ⟨x, ⟨h1, h2⟩, rfl⟩
  have := h.req f
  simp only [known] at e ⊢
  rw [Nat.testBit_mod_two_pow, this]
  simp only [e]
  by_cases h1 : f < 56 <;> simp [h1]

theorem getWildcard_known {m : Match} (h : m.Inv) : m.getWildcard.map (·.1) = (known m).getWildcard.map (·.1) := by
  rw [getWildcard_eq h, getWildcard_eq (known_inv h), toWildcard_known]
  rfl

theorem intersection_known {a b : Match} (ha : a.Inv) (hb : b.Inv) : a.intersection b = (known a).intersection (known b) := by
  have h1 := getWildcard_known ha
  have h2 := getWildcard_known hb
  unfold Match.intersection
  cases e1 : a.getWildcard <;> cases e2 : (known a).getWildcard <;> rw [e1, e2] at h1 <;> simp only [Except.map, Except.ok.injEq, Except.error.injEq, reduceCtorEq] at h1
  · simp [bind, Except.bind, h1]
  · cases e3 : b.getWildcard <;> cases e4 : (known b).getWildcard <;> rw [e3, e4] at h2 <;>
      simp only [Except.map, Except.ok.injEq, Except.error.injEq, reduceCtorEq] at h2
    · simp [bind, Except.bind, h2]
    · simp [bind, Except.bind, h1, h2]

theorem issubset_known {a b : Match} (ha : a.Inv) (hb : b.Inv) : a.issubset b = (known a).issubset (known b) := by
  have h1 := getWildcard_known ha
  have h2 := getWildcard_known hb
  unfold Match.issubset
  cases e1 : a.getWildcard <;> cases e2 : (known a).getWildcard <;> rw [e1, e2] at h1 <;> simp only [Except.map, Except.ok.injEq, Except.error.injEq, reduceCtorEq] at h1
  · simp [bind, Except.bind, h1]
  · cases e3 : b.getWildcard <;> cases e4 : (known b).getWildcard <;> rw [e3, e4] at h2 <;>
      simp only [Except.map, Except.ok.injEq, Except.error.injEq, reduceCtorEq] at h2
    · simp [bind, Except.bind, h2]
    · simp [bind, Except.bind, h1, h2]

theorem overlaps_known {a b : Match} (ha : a.Inv) (hb : b.Inv) : a.overlaps b = (known a).overlaps (known b) := by
  have h1 := getWildcard_known ha
  have h2 := getWildcard_known hb
  unfold Match.overlaps
  cases e1 : a.getWildcard <;> cases e2 : (known a).getWildcard <;> rw [e1, e2] at h1 <;> simp only [Except.map, Except.ok.injEq, Except.error.injEq, reduceCtorEq] at h1
  · simp [bind, Except.bind, h1]
  · cases e3 : b.getWildcard <;> cases e4 : (known b).getWildcard <;> rw [e3, e4] at h2 <;>
      simp only [Except.map, Except.ok.injEq, Except.error.injEq, reduceCtorEq] at h2
    · simp [bind, Except.bind, h2]
    · simp [bind, Except.bind, h1, h2]

theorem below_iff (m : Match) (p : Packet) : AgreesBelow m.items p ↔ MatchesAll (known m).items p := by
  unfold AgreesBelow MatchesAll known
  simp only [List.mem_filter, decide_eq_true_eq, and_imp]

/-- C108: the intersection of two matches, whatever their fields, has the packets that agree with the known entries of both, and no entry for an unknown field:
these are lost.  If no packet agrees with both, KeyError. -/
theorem C108_intersection (a b : Match) (ha : a.Inv) (hb : b.Inv) :
    ((∃ p, AgreesBelow a.items p ∧ AgreesBelow b.items p) →
      ∃ m, a.intersection b = .ok m ∧ m.Inv ∧ (∀ x ∈ m.items, x.1 < 56) ∧
        ∀ p, MatchesAll m.items p ↔ AgreesBelow a.items p ∧ AgreesBelow b.items p) ∧
    ((¬ ∃ p, AgreesBelow a.items p ∧ AgreesBelow b.items p) → a.intersection b = .error .keyError) := by
  rw [intersection_known ha hb]
  simp only [below_iff]
  constructor
  · intro h
    obtain ⟨m, e, i, n, c⟩ := C16_intersection (known a) (known b) (known_inv ha) (known_inv hb) known_mem known_mem h
    exact ⟨m, e, i, fun x hx => (n x hx).1, c⟩
  · exact C16_intersection_disjoint (known a) (known b) (known_inv ha) (known_inv hb) known_mem known_mem

/-- Different values of an unknown field do not make matches disjoint: a match of TCP_FLAGS (56) 1 and one of TCP_FLAGS 2 with ethertype 0x800. -/
example : (∃ p, AgreesBelow ((Match.empty.append 56 1 none)).items p ∧ AgreesBelow ((Match.empty.append 56 2 none).append 5 0x800 none).items p) ∧
    (Match.empty.append 56 1 none).Inv ∧ ((Match.empty.append 56 2 none).append 5 0x800 none).Inv := by
  refine ⟨⟨fun k => decide (k = fieldPos 5 + 11), ?_, ?_⟩, inv_append inv_empty _ _ _, inv_append (inv_append inv_empty _ _ _) _ _ _⟩
  · intro x hx hlt
    have hx' : x ∈ [(56, 1, (none : Option Nat))] := hx
    simp only [List.mem_singleton] at hx'
    subst hx'; omega
  · intro x hx hlt i hi _
    have hx' : x ∈ [(56, 2, (none : Option Nat)), (5, 0x800, none)] := hx
    simp only [List.mem_cons, List.not_mem_nil, or_false] at hx'
    rcases hx' with rfl | rfl
    · omega
    · have key : ∀ i, i < width 5 → decide (fieldPos 5 + i = fieldPos 5 + 11) = Nat.testBit 0x800 i := by decide +kernel
      exact key i hi

/-- C108: `issubset` and `overlaps` of matches, whatever their fields, compare the packets that agree with the known entries. -/
theorem C108_compare (a b : Match) (ha : a.Inv) (hb : b.Inv) :
    (∃ v, a.issubset b = .ok v ∧ (v = true ↔ ∀ p, AgreesBelow a.items p → AgreesBelow b.items p)) ∧
    ∃ v, a.overlaps b = .ok v ∧ (v = true ↔ ∃ p, AgreesBelow a.items p ∧ AgreesBelow b.items p) := by
  rw [issubset_known ha hb, overlaps_known ha hb]
  simp only [below_iff]
  exact ⟨C103_issubset (known a) (known b) (known_inv ha) (known_inv hb) known_mem known_mem,
    C103_overlaps (known a) (known b) (known_inv ha) (known_inv hb) known_mem known_mem⟩

/-- A match of TCP_FLAGS 1 is said to be a subset of one of TCP_FLAGS 2, and to overlap it. -/
example : (Match.empty.append 56 1 none).issubset (Match.empty.append 56 2 none) = .ok true ∧
    (Match.empty.append 56 1 none).overlaps (Match.empty.append 56 2 none) = .ok true := by
  decide +kernel

end OFE.Names
