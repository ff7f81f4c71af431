import Verif.Wildcard.Lemmas

/-!
# Properties C11-C14: wildcard arithmetic denotes packet set arithmetic
-/

namespace OFE

/-- C11: `wildcard_intersect(a, b)` covers exactly the packets covered by both arguments, and it is `0` exactly when
there is no such packet. -/
theorem C11_wildcard_intersect (n a b : Nat) (hn : 0 < n) :
    (∀ p, Covers n (wcIntersect n a b) p ↔ Covers n a p ∧ Covers n b p) ∧
    (wcIntersect n a b = 0 ↔ ¬ ∃ p, Covers n a p ∧ Covers n b p) :=
  ⟨fun p => covers_wcIntersect hn a b p, wcIntersect_eq_zero hn a b⟩

/-- `1x0` ∩ `x10` = `110`; `10` ∩ `11` is empty. -/
example : wcIntersect 3 0b101101 0b111001 = 0b101001 ∧ wcIntersect 2 0b1001 0b1010 = 0 := by decide

/-- C11: the intersection of two well formed wildcards is again well formed unless it is the empty set. -/
theorem C11_wildcard_intersect_valid (n a b : Nat) (ha : WcValid n a) (hb : WcValid n b)
    (h : ∃ p, Covers n a p ∧ Covers n b p) : WcValid n (wcIntersect n a b) := by
  rcases Nat.eq_zero_or_pos n with rfl | hn
  · have h1 := ha.lt; have h2 := hb.lt
    have : a = 0 := by simpa using h1
    subst this
    simpa [wcIntersect, oddMask, andNot] using ha
  · refine wcValid_wcIntersect ha fun h0 => ?_
    exact (wcIntersect_eq_zero hn a b).1 h0 h

example : WcValid 3 0b101101 ∧ WcValid 3 0b111001 ∧ WcValid 3 (wcIntersect 3 0b101101 0b111001) :=
  ⟨⟨by decide, by decide⟩, ⟨by decide, by decide⟩, ⟨by decide, by decide⟩⟩

/-- C12: `wildcard_is_subset(a, b)` is true exactly when every packet covered by `a` is covered by `b`. -/
theorem C12_wildcard_is_subset (n a b : Nat) (ha : WcValid n a) :
    wcIsSubset a b = true ↔ ∀ p, Covers n a p → Covers n b p :=
  wcIsSubset_iff ha

example : WcValid 2 0b1001 ∧ wcIsSubset 0b1001 0b1101 = true ∧ wcIsSubset 0b1101 0b1001 = false :=
  ⟨⟨by decide, by decide⟩, by decide, by decide⟩

/-- C13: `wildcard_union_cover(a, b)` covers both arguments, is well formed, and lies below every other wildcard that
covers both arguments. -/
theorem C13_wildcard_union_cover (n a b : Nat) (ha : WcValid n a) (hb : WcValid n b) :
    WcValid n (wcUnionCover a b) ∧
    (∀ p, Covers n a p ∨ Covers n b p → Covers n (wcUnionCover a b) p) ∧
    (∀ c, (∀ p, Covers n a p ∨ Covers n b p → Covers n c p) → ∀ p, Covers n (wcUnionCover a b) p → Covers n c p) := by
  refine ⟨wcValid_union ha hb, ?_, ?_⟩
  · intro p h i hi
    simp only [wcUnionCover, Nat.testBit_or, Bool.or_eq_true]
    rcases h with h | h
    · exact Or.inl (h i hi)
    · exact Or.inr (h i hi)
  · intro c hc p hp
    have h1 := (wcIsSubset_iff ha).2 fun q hq => hc q (Or.inl hq)
    have h2 := (wcIsSubset_iff hb).2 fun q hq => hc q (Or.inr hq)
    rw [wcIsSubset_iff_le] at h1 h2
    intro i hi
    have := hp i hi
    simp only [wcUnionCover, Nat.testBit_or, Bool.or_eq_true] at this
    exact this.elim (h1 _) (h2 _)

example : WcValid 2 0b1001 ∧ WcValid 2 0b1010 ∧ wcUnionCover 0b1001 0b1010 = 0b1011 :=
  ⟨⟨by decide, by decide⟩, ⟨by decide, by decide⟩, by decide⟩

/-- C14: compressing a list of wildcards keeps exactly the union of the covered packets. -/
theorem C14_compress_wildcard_list (n : Nat) (l : List Nat) (p : Packet) :
    ((∃ w ∈ compressList l, Covers n w p) ↔ ∃ w ∈ l, Covers n w p) ∧ (∀ w ∈ compressList l, w ∈ l) := by
  refine ⟨⟨?_, ?_⟩, fun w => compressList_subset⟩
  · rintro ⟨w, hw, hc⟩
    exact ⟨w, compressList_subset hw, hc⟩
  · rintro ⟨w, hw, hc⟩
    obtain ⟨k, hk, rfl⟩ := List.getElem_of_mem hw
    obtain ⟨w', hw', hs⟩ := compressList_dominates k hk
    exact ⟨w', hw', covers_mono hs hc⟩

/-- C14: no survivor of the compression lies below another survivor. -/
theorem C14_compress_antichain (l : List Nat) : (compressList l).Pairwise fun a b =>
    wcIsSubset a b = false ∧ wcIsSubset b a = false :=
  compressList_antichain l

/-- duplicates and nested wildcards: only the last copy of the largest one survives. -/
example : compressList [0b1001, 0b1101, 0b0101, 0b1101, 0b1010] = [0b1101, 0b1010] := by decide

end OFE
