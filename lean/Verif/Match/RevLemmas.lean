import Verif.Match.Lemmas
import Verif.DictLemmas

/-!
# Lemmas: wildcard to match
-/

namespace OFE

theorem bitScan0_spec (wc start k : Nat) :
    start ≤ bitScan0 wc start k ∧ bitScan0 wc start k ≤ start + k ∧
    (∀ j, start ≤ j → j < bitScan0 wc start k → wc.testBit j = true) ∧
    (bitScan0 wc start k < start + k → wc.testBit (bitScan0 wc start k) = false) := by
  induction k generalizing start with
  | zero => refine ⟨Nat.le_refl _, Nat.le_refl _, fun j h1 h2 => ?_, fun h => ?_⟩ <;> simp only [bitScan0] at * <;> omega
  | succ k ih =>
    unfold bitScan0
    split
    · next h =>
      obtain ⟨h1, h2, h3, h4⟩ := ih (start + 1)
      refine ⟨by omega, by omega, fun j hj1 hj2 => ?_, fun hlt => h4 (by omega)⟩
      by_cases e : j = start
      · subst e; exact h
      · exact h3 j (by omega) hj2
    · next h => exact ⟨Nat.le_refl _, by omega, fun j h1 h2 => by omega, fun _ => by simpa using h⟩

/-- What the loop records for field `f`. -/
def entryOf (wc f : Nat) : MItems :=
  let ab := rmorton ((wc >>> (fieldPos f * 2)) &&& (1 <<< (width f * 2) - 1))
  if ab.1 ^^^ ab.2 ≠ 0 then
    if ab.1 ^^^ ab.2 = (1 <<< width f) - 1 then [(f, ab.2 &&& (ab.1 ^^^ ab.2), none)]
    else [(f, ab.2 &&& (ab.1 ^^^ ab.2), some (ab.1 ^^^ ab.2))]
  else []

theorem testBit_slice (wc pos w j : Nat) :
    ((wc >>> (pos * 2)) &&& (1 <<< (w * 2) - 1)).testBit j = (wc.testBit (pos * 2 + j) && decide (j < w * 2)) := by
  rw [Nat.testBit_and, Nat.testBit_shiftRight, Nat.shiftLeft_eq, Nat.one_mul, Nat.testBit_two_pow_sub_one]

theorem slice_eq_mask_iff (wc pos w : Nat) :
    ((wc >>> (pos * 2)) &&& (1 <<< (w * 2) - 1)) = 1 <<< (w * 2) - 1 ↔
      ∀ j, pos * 2 ≤ j → j < (pos + w) * 2 → wc.testBit j = true := by
  constructor
  · intro h j h1 h2
    have := congrArg (·.testBit (j - pos * 2)) h
    simp only [testBit_slice] at this
    rw [Nat.shiftLeft_eq, Nat.one_mul, Nat.testBit_two_pow_sub_one, decide_eq_true (by omega : j - pos * 2 < w * 2),
      Bool.and_true] at this
    rw [show pos * 2 + (j - pos * 2) = j by omega] at this
    exact this
  · intro h
    apply Nat.eq_of_testBit_eq
    intro j
    rw [testBit_slice, Nat.shiftLeft_eq, Nat.one_mul, Nat.testBit_two_pow_sub_one]
    by_cases hj : j < w * 2
    · rw [h _ (by omega) (by omega)]; simp
    · simp [hj]

/-- even / odd halves of the slice -/
theorem rmorton_slice (wc pos w i : Nat) :
    (rmorton ((wc >>> (pos * 2)) &&& (1 <<< (w * 2) - 1))).1.testBit i = (wc.testBit (2 * (pos + i)) && decide (i < w)) ∧
    (rmorton ((wc >>> (pos * 2)) &&& (1 <<< (w * 2) - 1))).2.testBit i = (wc.testBit (2 * (pos + i) + 1) && decide (i < w)) := by
  rw [(testBit_rmorton _ _).1, (testBit_rmorton _ _).2, testBit_slice, testBit_slice]
  constructor
  · congr 1
    · congr 1; omega
    · simp only [decide_eq_decide]; omega
  · congr 1
    · congr 1; omega
    · simp only [decide_eq_decide]; omega

theorem entryOf_nil {wc f : Nat} (h : ∀ j, fieldPos f * 2 ≤ j → j < (fieldPos f + width f) * 2 → wc.testBit j = true) :
    entryOf wc f = [] := by
  have : (rmorton ((wc >>> (fieldPos f * 2)) &&& (1 <<< (width f * 2) - 1))).1 ^^^
      (rmorton ((wc >>> (fieldPos f * 2)) &&& (1 <<< (width f * 2) - 1))).2 = 0 := by
    apply Nat.eq_of_testBit_eq
    intro i
    rw [Nat.testBit_xor, (rmorton_slice wc _ _ i).1, (rmorton_slice wc _ _ i).2, Nat.zero_testBit]
    by_cases hi : i < width f
    · rw [h _ (by omega) (by omega), h _ (by omega) (by omega)]; simp
    · simp [hi]
  unfold entryOf
  simp only [this, ne_eq, not_true_eq_false, if_false]

theorem entryOf_key {wc f : Nat} {x : Nat × Nat × Option Nat} (h : x ∈ entryOf wc f) : x.1 = f := by
  unfold entryOf at h
  simp only at h
  split at h
  · split at h
    · rw [List.mem_singleton] at h; rw [h]
    · rw [List.mem_singleton] at h; rw [h]
  · cases h

theorem entryOf_length (wc f : Nat) : (entryOf wc f).length ≤ 1 := by
  unfold entryOf; simp only; split
  · split <;> simp
  · simp

/-- The entry encodes exactly the tbits of its field. -/
theorem entryOf_allows {wc f : Nat} (hz : ∀ k, k < totBits → wc.testBit (2 * k) = true ∨ wc.testBit (2 * k + 1) = true)
    (hf : f < 56) {k : Nat} (h1 : fieldPos f ≤ k) (h2 : k < fieldPos f + width f) (c : Bool) :
    ((entryOf wc f).all fun x => allows x k c) = wc.testBit (2 * k + c.toNat) := by
  obtain ⟨i, rfl⟩ : ∃ i, k = fieldPos f + i := ⟨k - fieldPos f, by omega⟩
  have hi : i < width f := by omega
  have hle := fieldPos_le hf
  have hzk := hz (fieldPos f + i) (by omega)
  obtain ⟨ra, rb⟩ := rmorton_slice wc (fieldPos f) (width f) i
  rw [decide_eq_true hi, Bool.and_true] at ra rb
  generalize hab : rmorton ((wc >>> (fieldPos f * 2)) &&& (1 <<< (width f * 2) - 1)) = ab at ra rb
  have hx : (ab.1 ^^^ ab.2).testBit i = (wc.testBit (2 * (fieldPos f + i)) ^^ wc.testBit (2 * (fieldPos f + i) + 1)) := by
    rw [Nat.testBit_xor, ra, rb]
  have goalbit : wc.testBit (2 * (fieldPos f + i) + c.toNat) =
      if c then wc.testBit (2 * (fieldPos f + i) + 1) else wc.testBit (2 * (fieldPos f + i)) := by cases c <;> simp
  rw [goalbit]
  clear goalbit
  unfold entryOf
  simp only [hab]
  have hcov : (decide (fieldPos f ≤ fieldPos f + i) && decide (fieldPos f + i < fieldPos f + width f)) = true := by
    simp; omega
  split
  · next hne =>
    split
    · next hfull =>
      have hbit : (ab.1 ^^^ ab.2).testBit i = true := by
        rw [hfull, Nat.shiftLeft_eq, Nat.one_mul, Nat.testBit_two_pow_sub_one]; simpa using hi
      rw [List.all_cons, List.all_nil, Bool.and_true]
      unfold allows cares
      simp only [hcov, Bool.not_true, Bool.false_or, if_true, Nat.add_sub_cancel_left, Nat.testBit_and, hbit, Bool.and_true]
      rw [hx] at hbit
      rw [rb]
      revert hbit
      generalize wc.testBit (2 * (fieldPos f + i)) = u
      generalize wc.testBit (2 * (fieldPos f + i) + 1) = v
      revert c; cases u <;> cases v <;> decide
    · rw [List.all_cons, List.all_nil, Bool.and_true]
      unfold allows cares
      simp only [hcov, Bool.not_true, Bool.false_or, Nat.add_sub_cancel_left, Nat.testBit_and]
      rw [hx, rb]
      revert hzk
      generalize wc.testBit (2 * (fieldPos f + i)) = u
      generalize wc.testBit (2 * (fieldPos f + i) + 1) = v
      revert c; cases u <;> cases v <;> decide
  · next h0 =>
    have h0 : ab.1 ^^^ ab.2 = 0 := by simpa using h0
    rw [h0, Nat.zero_testBit] at hx
    rw [List.all_nil]
    revert hx hzk
    generalize wc.testBit (2 * (fieldPos f + i)) = u
    generalize wc.testBit (2 * (fieldPos f + i) + 1) = v
    revert c; cases u <;> cases v <;> decide

theorem allows_outside {x : Nat × Nat × Option Nat} {k : Nat} {c : Bool}
    (h : ¬ (fieldPos x.1 ≤ k ∧ k < fieldPos x.1 + width x.1)) : allows x k c = true := by
  unfold allows
  rw [Decidable.not_and_iff_or_not] at h
  rcases h with h | h <;> simp [h]

/-- Position right above field `k`'s predecessor in the reversed order. -/
def nextPos (k : Nat) : Nat := if k = 0 then totBits else fieldPos (k - 1)

theorem nextPos_eq {f : Nat} (hf : f < 56) : fieldPos f + width f = nextPos f := by
  unfold nextPos
  split
  · next h => subst h; exact fieldPos_first
  · next h =>
    have := fieldPos_step (f - 1) (by omega)
    rw [show f - 1 + 1 = f by omega] at this
    omega

theorem range_flatMap_split {β : Type} (e : Nat → List β) {f k : Nat} (hf : f < k) (h : ∀ j, f < j → j < k → e j = []) :
    (List.range k).reverse.flatMap e = e f ++ (List.range f).reverse.flatMap e := by
  induction k with
  | zero => omega
  | succ k ih =>
    rw [List.range_succ, List.reverse_append, List.reverse_singleton, List.singleton_append, List.flatMap_cons]
    by_cases hk : f = k
    · subst hk; rfl
    · rw [h k (by omega) (by omega), List.nil_append]
      exact ih (by omega) fun j h1 h2 => h j h1 (by omega)

theorem range_flatMap_nil {β : Type} (e : Nat → List β) {k : Nat} (h : ∀ j, j < k → e j = []) :
    (List.range k).reverse.flatMap e = [] := by
  rw [List.flatMap_eq_nil_iff]
  intro j hj
  exact h j (by simpa using hj)

theorem toFieldsLoop_spec {wc : Nat} (k : Nat) (hk : k ≤ 56) (fuel start : Nat) (hfuel : k < fuel)
    (hs : start ≤ 2 * nextPos k) (hones : ∀ j, start ≤ j → j < 2 * nextPos k → wc.testBit j = true) :
    toFieldsLoop wc fuel start = .ok ((List.range k).reverse.flatMap (entryOf wc)) := by
  induction k using Nat.strong_induction_on generalizing fuel start with
  | _ k ih =>
    obtain ⟨fuel, rfl⟩ : ∃ m, fuel = m + 1 := ⟨fuel - 1, by omega⟩
    have hnp : 3 ≤ nextPos k ∧ nextPos k ≤ totBits := by
      unfold nextPos; split
      · simp [totBits]
      · exact ⟨fieldPos_ge (by omega), by have := fieldPos_le (f := k - 1) (by omega); omega⟩
    unfold toFieldsLoop
    simp only [bytesNeeded_eq']
    obtain ⟨s1, s2, s3, s4⟩ := bitScan0_spec wc start (2 * totBits - start)
    generalize hoff : bitScan0 wc start (2 * totBits - start) = off at *
    have hsum : start + (2 * totBits - start) = 2 * totBits := by omega
    rw [hsum] at s2 s4
    by_cases hlt : off < 2 * totBits
    · rw [if_pos hlt]
      have hz := s4 hlt
      have hge : 2 * nextPos k ≤ off := by
        by_contra hlt'
        have := hones off s1 (by omega)
        rw [this] at hz; cases hz
      obtain ⟨f, hf, hf1, hf2⟩ := exists_field (k := off / 2) (by omega) (by omega)
      have hfk : f < k := by
        by_contra hfk
        have e := nextPos_eq hf
        have : nextPos f ≤ nextPos k := by
          by_cases e' : f = k
          · rw [e']
          · by_cases h0 : k = 0
            · subst h0; unfold nextPos; rw [if_pos rfl]; rw [← nextPos, ← e]; exact fieldPos_le hf
            · have hk' : k < 56 := by omega
              have h3 := fieldPos_lt hf (by omega : k < f)
              have h4 := nextPos_eq hk'
              omega
        omega
      rw [bit2field_eq hf (by omega) (by omega)]
      simp only [fieldBits_eq hf, wcFieldOffset_eq f hf]
      have hne : ¬ ((wc >>> (fieldPos f * 2)) &&& (1 <<< (width f * 2) - 1)) = 1 <<< (width f * 2) - 1 := by
        rw [slice_eq_mask_iff]
        intro h
        have := h off (by omega) (by omega)
        rw [this] at hz; cases hz
      rw [if_neg hne]
      have hnf := nextPos_eq hf
      rw [ih f hfk (by omega) fuel (fieldPos f * 2 + width f * 2) (by omega) (by omega) (fun j h1 h2 => by omega)]
      simp only
      have hsplit := range_flatMap_split (entryOf wc) hfk (fun j hj1 hj2 => entryOf_nil fun b hb1 hb2 => by
        have h5 := fieldPos_lt (f := f) (g := j) (by omega) hj1
        have h7 : nextPos k ≤ fieldPos j := by
          unfold nextPos; rw [if_neg (by omega)]
          by_cases e : j = k - 1
          · rw [e]
          · have := fieldPos_lt (f := j) (g := k - 1) (by omega) (by omega); omega
        exact s3 b (by omega) (by omega))
      rw [hsplit]
      rfl
    · rw [if_neg hlt]
      rw [range_flatMap_nil]
      intro j hj
      apply entryOf_nil
      intro b hb1 hb2
      have := fieldPos_le (f := j) (by omega)
      have h7 : nextPos k ≤ fieldPos j := by
        unfold nextPos; rw [if_neg (by omega)]
        by_cases e : j = k - 1
        · rw [e]
        · have := fieldPos_lt (f := j) (g := k - 1) (by omega) (by omega); omega
      exact s3 b (by omega) (by omega)

/-- The fields read back from a wildcard. -/
def fieldsOf (wc : Nat) : MItems := (List.range 56).reverse.flatMap (entryOf wc)

theorem wildcardToFields_eq {wc : Nat} (hp : PadFull wc) : wildcardToFields wc = .ok (fieldsOf wc) := by
  unfold wildcardToFields
  apply toFieldsLoop_spec 56 (by omega) 57 0 (by omega) (by omega)
  intro j _ hj
  apply hp
  have : nextPos 56 = 3 := by unfold nextPos; rw [if_neg (by omega)]; exact fieldPos_last
  omega

theorem mem_fieldsOf {wc : Nat} {x : Nat × Nat × Option Nat} : x ∈ fieldsOf wc ↔ x.1 < 56 ∧ x ∈ entryOf wc x.1 := by
  unfold fieldsOf
  rw [List.mem_flatMap]
  constructor
  · rintro ⟨f, hf, hx⟩
    have := entryOf_key hx
    subst this
    exact ⟨by simpa using hf, hx⟩
  · rintro ⟨hf, hx⟩
    exact ⟨x.1, by simpa using hf, hx⟩

theorem fieldsOf_nodup (wc : Nat) : ((fieldsOf wc).map (·.1)).Nodup := by
  have key : ∀ l : List Nat, l.Nodup → ((l.flatMap (entryOf wc)).map (·.1)).Nodup := by
    intro l
    induction l with
    | nil => simp
    | cons f l ih =>
      intro hl
      rw [List.nodup_cons] at hl
      rw [List.flatMap_cons, List.map_append, List.nodup_append]
      refine ⟨?_, ih hl.2, ?_⟩
      · have := entryOf_length wc f
        match h : entryOf wc f with
        | [] => simp
        | [x] => simp
        | _ :: _ :: _ => rw [h] at this; simp at this
      · rintro a ha b hb rfl
        obtain ⟨x, hx, rfl⟩ := List.mem_map.1 ha
        obtain ⟨y, hy, he⟩ := List.mem_map.1 hb
        obtain ⟨g, hg, hy⟩ := List.mem_flatMap.1 hy
        rw [entryOf_key hx, entryOf_key hy] at he
        exact hl.1 (he ▸ hg)
  exact key _ (List.nodup_reverse.2 List.nodup_range)

theorem toWildcard_fieldsOf {wc : Nat} (hv : WcValid totBits wc) (hp : PadFull wc) : toWildcard (fieldsOf wc) = .ok wc := by
  have hlt : ∀ x ∈ fieldsOf wc, x.1 < 56 := fun x hx => (mem_fieldsOf.1 hx).1
  obtain ⟨w, e, b⟩ := toWildcard_ok hlt
  rw [e]
  congr 1
  apply Nat.eq_of_testBit_eq
  intro j
  obtain ⟨k, c, rfl⟩ := two_mul_add_toNat j
  have hc : c.toNat < 2 := Bool.toNat_lt c
  rw [b]
  by_cases hk : k < totBits
  · rw [decide_eq_true hk, Bool.true_and]
    by_cases h3 : 3 ≤ k
    · obtain ⟨f, hf, h1, h2⟩ := exists_field h3 hk
      rw [← entryOf_allows hv.noZ hf h1 h2 c]
      rw [Bool.eq_iff_iff, List.all_eq_true, List.all_eq_true]
      constructor
      · intro h x hx
        have := entryOf_key hx
        exact h x (mem_fieldsOf.2 ⟨by rw [this]; exact hf, by rw [this]; exact hx⟩)
      · intro h x hx
        obtain ⟨hx1, hx2⟩ := mem_fieldsOf.1 hx
        by_cases hin : fieldPos x.1 ≤ k ∧ k < fieldPos x.1 + width x.1
        · have := field_disjoint hx1 hf hin.1 hin.2 h1 h2
          rw [this] at hx2
          exact h x hx2
        · exact allows_outside hin
    · rw [hp _ (by omega), List.all_eq_true]
      intro x hx
      have := fieldPos_ge (mem_fieldsOf.1 hx).1
      exact allows_outside (by omega)
  · rw [decide_eq_false hk, Bool.false_and, testBit_ge hv.lt (by omega)]

end OFE
