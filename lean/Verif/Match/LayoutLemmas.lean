import Verif.Match.Spec

/-!
# Facts about the layout
-/

namespace OFE

theorem bytesNeeded_eq : bytesNeeded * 8 = totBits := by decide +kernel

theorem bytesNeeded_eq' : bytesNeeded * 16 = 2 * totBits := by decide +kernel

theorem fieldWidths_length : fieldWidths.length = 56 := by decide +kernel

theorem fieldBits_eq {f : Nat} (h : f < 56) : fieldBits f = some (width f) := by
  unfold fieldBits width
  have h' : f < fieldWidths.length := by rw [fieldWidths_length]; exact h
  rw [List.getElem?_eq_getElem h', List.getD_eq_getElem?_getD, List.getElem?_eq_getElem h']
  rfl

theorem fieldBits_none {f : Nat} (h : 56 ≤ f) : fieldBits f = none := by
  unfold fieldBits
  exact List.getElem?_eq_none (by rw [fieldWidths_length]; exact h)

theorem wcFieldOffset_eq : ∀ f, f < 56 → wcFieldOffset.lookup f = some (fieldPos f) := by decide +kernel

theorem width_pos : ∀ f, f < 56 → 0 < width f := by decide +kernel

theorem fieldPos_step : ∀ f, f < 55 → fieldPos f = fieldPos (f + 1) + width (f + 1) := by decide +kernel

theorem fieldPos_last : fieldPos 55 = 3 := by decide +kernel

theorem fieldPos_first : fieldPos 0 + width 0 = totBits := by decide +kernel

/-- Fields with a larger id lie entirely below. -/
theorem fieldPos_lt {f g : Nat} (hg : g < 56) (h : f < g) : fieldPos g + width g ≤ fieldPos f := by
  obtain ⟨k, rfl⟩ : ∃ k, g = f + 1 + k := ⟨g - f - 1, by omega⟩
  induction k generalizing f with
  | zero => have := fieldPos_step f (by omega); simp only [Nat.add_zero]; omega
  | succ k ih =>
    have h1 := fieldPos_step f (by omega)
    have h2 := ih (f := f + 1) (by omega) (by omega)
    have e : f + 1 + (k + 1) = f + 1 + 1 + k := by omega
    rw [e]
    omega

theorem fieldPos_ge {f : Nat} (h : f < 56) : 3 ≤ fieldPos f := by
  by_cases e : f = 55
  · subst e; rw [fieldPos_last]
  · have := fieldPos_lt (f := f) (g := 55) (by omega) (by omega); rw [fieldPos_last] at this; omega

theorem fieldPos_le {f : Nat} (h : f < 56) : fieldPos f + width f ≤ totBits := by
  have h0 := fieldPos_first
  by_cases e : f = 0
  · subst e; omega
  · have := fieldPos_lt (f := 0) (g := f) (by omega) (by omega); omega

theorem field_disjoint {f g k : Nat} (hf : f < 56) (hg : g < 56) (h1 : fieldPos f ≤ k) (h2 : k < fieldPos f + width f)
    (h3 : fieldPos g ≤ k) (h4 : k < fieldPos g + width g) : f = g := by
  rcases Nat.lt_trichotomy f g with h | h | h
  · have := fieldPos_lt hg h; omega
  · exact h
  · have := fieldPos_lt hf h; omega

/-- Every bit above the padding belongs to a field. -/
theorem exists_field {k : Nat} (h1 : 3 ≤ k) (h2 : k < totBits) : ∃ f, f < 56 ∧ fieldPos f ≤ k ∧ k < fieldPos f + width f := by
  have key : ∀ j, j < 56 → fieldPos j ≤ k → ∃ f, f < 56 ∧ fieldPos f ≤ k ∧ k < fieldPos f + width f := by
    intro j
    induction j with
    | zero => intro hj hk; exact ⟨0, hj, hk, by rw [fieldPos_first]; exact h2⟩
    | succ j ih =>
      intro hj hk
      by_cases h : k < fieldPos (j + 1) + width (j + 1)
      · exact ⟨j + 1, hj, hk, h⟩
      · exact ih (by omega) (by rw [fieldPos_step j (by omega)]; omega)
  exact key 55 (by omega) (by rw [fieldPos_last]; exact h1)

theorem bit2field_check : (bit2field.zipIdx.all fun x => match x.1 with
    | none => decide (x.2 < 6)
    | some f => decide (f < 56) && decide (2 * fieldPos f ≤ x.2) && decide (x.2 < 2 * fieldPos f + 2 * width f)) = true := by
  decide +kernel

theorem bit2field_length : bit2field.length = 2 * totBits := by decide +kernel

theorem bit2field_pad : ∀ k, k < 6 → bit2field[k]? = some none := by decide +kernel

theorem bit2field_eq {f k : Nat} (hf : f < 56) (h1 : 2 * fieldPos f ≤ k) (h2 : k < 2 * fieldPos f + 2 * width f) :
    bit2field[k]? = some (some f) := by
  have hk : k < bit2field.length := by
    rw [bit2field_length]; have := fieldPos_le hf; omega
  have hc := List.all_eq_true.1 bit2field_check (bit2field[k], k) (by
    rw [List.mem_zipIdx_iff_getElem?]; exact List.getElem?_eq_getElem hk)
  rw [List.getElem?_eq_getElem hk]
  have hge := fieldPos_ge hf
  cases hx : bit2field[k] with
  | none => rw [hx] at hc; simp at hc; omega
  | some g =>
    rw [hx] at hc
    simp only [Bool.and_eq_true, decide_eq_true_eq] at hc
    have : f = g := field_disjoint (k := k / 2) hf hc.1.1 (by omega) (by omega) (by omega) (by omega)
    rw [this]

end OFE
