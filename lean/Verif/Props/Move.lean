import Verif.Rule.MoveLemmas

/-! # C64: moving matches on tunnel fields inwards and outwards -/

namespace OFE

/-- The depths, in the order of the dict, at which a match constrains the field `f`. -/
def depthsMatched (m : Match) (f : Nat) : List Nat := ((m.items.map (·.1)).filter fun g => (shown g).1 == f).map fun g => (shown g).2

theorem depthsMatched_iff {m : Match} {f : Nat} (hf : f ∈ tunFields) (hi : m.Inv) (hk : ∀ x ∈ m.items, x.1 < 56) (d : Nat) :
    d ∈ depthsMatched m f ↔ d ≤ 2 ∧ (m.items.lookup (inAt f d)).isSome = true := by
  unfold depthsMatched
  simp only [List.mem_map, List.mem_filter, beq_iff_eq]
  constructor
  · rintro ⟨g, ⟨⟨x, hx, rfl⟩, hs⟩, rfl⟩
    have hl : (m.items.lookup x.1).isSome = true := by rw [lookup_eq_some_of_mem hi.nodup (show (x.1, x.2) ∈ m.items from hx)]; rfl
    rcases inAt_cases hf (hk x hx) with ⟨d, hd, he⟩ | ⟨-, h⟩
    · rw [he, (inAt_ids f hf d hd).2.1]; rw [he] at hl; exact ⟨hd, hl⟩
    · exact absurd hs h
  · rintro ⟨hd, h⟩
    obtain ⟨x, hx⟩ := Option.isSome_iff_exists.1 h
    have hs := (inAt_ids f hf d hd).2.1
    exact ⟨inAt f d, ⟨⟨_, mem_of_lookup_eq_some hx, rfl⟩, by rw [hs]⟩, by rw [hs]⟩

theorem copies_depths {m : Match} {f : Nat} (hf : f ∈ tunFields) (hk : ∀ x ∈ m.items, x.1 < 56)
    (h : copiesOf m f = [inAt f 2, inAt f 1]) : depthsMatched m f = [2, 1] := by
  have he : copiesOf m f = (m.items.map (·.1)).filter fun g => (shown g).1 == f := by
    unfold copiesOf
    apply List.filter_congr
    intro g hg
    obtain ⟨x, hx, rfl⟩ := List.mem_map.1 hg
    rcases inAt_cases hf (hk x hx) with ⟨d, hd, he⟩ | ⟨h1, h⟩
    · rw [he, (inAt_ids f hf d hd).2.1, (inAt_ids f hf d hd).2.2.2.2]; simp
    · have : (depthOf f x.1).isSome = false := by
        rw [Bool.eq_false_iff]
        intro hs
        rcases depthOf_some f hf x.1 (hk x hx) hs with e | e | e
        · exact h1 0 (by omega) e
        · exact h1 1 (by omega) e
        · exact h1 2 (by omega) e
      rw [this]; simp [h]
  unfold depthsMatched
  rw [← he, h]
  simp [(inAt_ids f hf 2 (by omega)).2.1, (inAt_ids f hf 1 (by omega)).2.1]

/-- **C64** (inwards) `demote_match(match, field, n)` is refused exactly when the field is matched so deep that it would leave the
`HEADER_DEPTH` (2) headers inside; otherwise the new match accepts exactly the packets that the old one accepts once they lost `n` headers. -/
theorem C64_demote (m : Match) (f n : Nat) (hf : f ∈ tunFields) (hi : m.Inv) (hk : ∀ x ∈ m.items, x.1 < 56) :
    ((∃ d ∈ depthsMatched m f, 2 < d + n) → demote m f n = .error .overflow ∨ demote m f n = .error .nameError) ∧
    ((∀ d ∈ depthsMatched m f, d + n ≤ 2) →
      ∃ m', demote m f n = .ok m' ∧ m'.Inv ∧ (∀ x ∈ m'.items, x.1 < 56) ∧ ∀ p, m'.accepts p ↔ m.accepts (dropHdr f n p)) := by
  simp only [depthsMatched_iff hf hi hk]
  constructor
  · rintro ⟨d, ⟨hd, h⟩, hn⟩
    exact demote_refuses hf hd hn h
  · intro h
    by_cases hz : n = 0
    · subst hz
      refine ⟨m, rfl, hi, hk, fun p => ?_⟩
      have : dropHdr f 0 p = p := by
        unfold dropHdr; simp
      rw [this]
    · have hab : ∀ d, d ≤ 2 → 2 < d + n → m.items.lookup (inAt f d) = none := by
        intro d hd hn
        cases hl : m.items.lookup (inAt f d) with
        | none => rfl
        | some x => have := h d ⟨hd, by rw [hl]; rfl⟩; omega
      obtain ⟨m', e, hm⟩ := demote_fits hf (by omega) hab
      exact ⟨m', e, hm.inv hi, hm.keys hk, movedIn_accepts hf hi hm hab⟩

/-- **C64** (outwards; partial: the third header was not added to the dict before the second) `promote_match(match, field, n)` is refused
exactly when the field is matched in one of the first `n` headers; otherwise the new match accepts a packet that lost `n` headers exactly
when the old one accepts the packet. -/
theorem C64_promote_partial (m : Match) (f n : Nat) (hf : f ∈ tunFields) (hi : m.Inv) (hk : ∀ x ∈ m.items, x.1 < 56) :
    ((∃ d ∈ depthsMatched m f, d < n) → promote m f n = .error .overflow) ∧
    ((∀ d ∈ depthsMatched m f, n ≤ d) → (n = 1 → depthsMatched m f ≠ [2, 1]) →
      ∃ m', promote m f n = .ok m' ∧ m'.Inv ∧ (∀ x ∈ m'.items, x.1 < 56) ∧ ∀ p, m'.accepts (dropHdr f n p) ↔ m.accepts p) := by
  have hiff := depthsMatched_iff hf hi hk
  constructor
  · rintro ⟨d, hd, hn⟩
    obtain ⟨hd, h⟩ := (hiff d).1 hd
    exact promote_refuses hf hi hk hd hn h
  · intro h hord
    by_cases hz : n = 0
    · subst hz
      refine ⟨m, rfl, hi, hk, fun p => ?_⟩
      have : dropHdr f 0 p = p := by
        unfold dropHdr; simp
      rw [this]
    · have hab : ∀ d, d ≤ 2 → d < n → m.items.lookup (inAt f d) = none := by
        intro d hd hn
        cases hl : m.items.lookup (inAt f d) with
        | none => rfl
        | some x => have := h d ((hiff d).2 ⟨hd, by rw [hl]; rfl⟩); omega
      obtain ⟨m', e, hm⟩ := promote_fits hf hi hk (by omega) hab (fun hn hc => hord hn (copies_depths hf hk hc))
      exact ⟨m', e, hm.inv, hm.keys, movedOut_accepts hf hi hm hab⟩

/-! ### Samples -/

/-- VLAN 5 outside, VLAN 6 or 7 inside. -/
def sampleStack : Match := (Match.empty.append 6 0x1005 none).append 40 0x1006 (some 0x1FFE)

/-- The sample meets the hypotheses of both, can be moved inwards once but not twice, and not outwards. -/
example : 6 ∈ tunFields ∧ sampleStack.Inv ∧ (∀ x ∈ sampleStack.items, x.1 < 56) ∧ depthsMatched sampleStack 6 = [0, 1] ∧
    (demote sampleStack 6 1).map (·.items) = .ok [(41, 0x1006, some 0x1FFE), (40, 0x1005, none)] ∧
    (demote sampleStack 6 2).map (·.items) = .error .overflow ∧ (promote sampleStack 6 1).map (·.items) = .error .overflow :=
  ⟨by decide, inv_append (inv_append inv_empty _ _ _) _ _ _, by decide +kernel, by decide +kernel, by decide +kernel, by decide +kernel, by decide +kernel⟩

/-- Both inner headers, the second one added first: moved outwards properly. -/
example : (promote ((Match.empty.append 40 0x1005 none).append 41 0x1006 none) 6 1).map (·.items) = .ok [(6, 0x1005, none), (40, 0x1006, none)] ∧
    depthsMatched ((Match.empty.append 40 0x1005 none).append 41 0x1006 none) 6 = [1, 2] := by decide +kernel

/-! ### Violation -/

/-- Both inner headers, the third one added first. -/
def thirdFirst : Match := (Match.empty.append 41 0x1006 none).append 40 0x1005 none

/-- **C64 is violated** by `promote_match` if the third header was added to the dict before the second: it overwrites the second before that
was moved.  The new match accepts what the old one does not: VLAN 6 in the second header. -/
theorem C64_promote_order : ∃ m' p, thirdFirst.Inv ∧ (∀ d ∈ depthsMatched thirdFirst 6, 1 ≤ d) ∧ promote thirdFirst 6 1 = .ok m' ∧
    m'.accepts (dropHdr 6 1 p) ∧ ¬ thirdFirst.accepts p := by
  have hi : thirdFirst.Inv := inv_append (inv_append inv_empty _ _ _) _ _ _
  have h : (promote thirdFirst 6 1).map (·.items) = .ok [(6, 0x1006, none)] := by decide +kernel
  cases e : promote thirdFirst 6 1 with
  | error x => rw [e] at h; cases h
  | ok m =>
    rw [e] at h
    simp only [Except.map, Except.ok.injEq] at h
    refine ⟨m, ⟨fun _ _ => 0x1006, fun _ => 0, 0, fun _ => 0, 64, 0⟩, hi, by decide +kernel, rfl, ?_, fun hacc => ?_⟩
    · intro x hx i hib _
      rw [h] at hx
      have : x = (6, 0x1006, none) := by simpa using hx
      subst this
      rw [hdr_bit _ (by decide) hib]
      simp [dropHdr]
    · have := hacc (40, 0x1005, none) (by decide +kernel) 0 (by decide) (by simp)
      rw [hdr_bit _ (by decide) (by decide)] at this
      revert this
      decide +kernel

end OFE
