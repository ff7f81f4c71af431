import Verif.Match.Model
import Verif.Match.LayoutLemmas
import Verif.Morton.Lemmas
import Verif.Wildcard.Lemmas
import Mathlib.Data.List.Nodup

/-!
# Lemmas: match to wildcard
-/

namespace OFE

/-- Is bit `i` of the field cared about by the entry? -/
def cares (x : Nat × Nat × Option Nat) (i : Nat) : Bool := match x.2.2 with | none => true | some m => m.testBit i

/-- Does the entry allow value `c` for header bit `k`? -/
def allows (x : Nat × Nat × Option Nat) (k : Nat) (c : Bool) : Bool :=
  !(decide (fieldPos x.1 ≤ k) && decide (k < fieldPos x.1 + width x.1)) ||
    (if cares x (k - fieldPos x.1) then x.2.1.testBit (k - fieldPos x.1) == c else true)

theorem matchStep_ok {x : Nat × Nat × Option Nat} (hx : x.1 < 56) (wc : Nat) :
    ∃ w, matchStep wc x = .ok w ∧
      ∀ k c, w.testBit (2 * k + Bool.toNat c) = (wc.testBit (2 * k + c.toNat) && allows x k c) := by
  unfold matchStep
  rw [fieldBits_eq hx]
  simp only [wcFieldOffset_eq x.1 hx]
  refine ⟨_, rfl, fun k c => ?_⟩
  have hc : c.toNat < 2 := Bool.toNat_lt c
  rw [Nat.testBit_or, Nat.testBit_and, testBit_andNot]
  have e1 : 1 <<< (width x.1 * 2) = 2 ^ (width x.1 * 2) := by rw [Nat.shiftLeft_eq, Nat.one_mul]
  rw [e1, Nat.testBit_shiftLeft, Nat.testBit_shiftLeft, Nat.testBit_two_pow_sub_one, testBit_morton]
  unfold allows
  by_cases h1 : fieldPos x.1 ≤ k
  · have h1' : 2 * k + c.toNat ≥ fieldPos x.1 * 2 := by omega
    simp only [h1, h1', decide_true, Bool.true_and]
    have ei : (2 * k + c.toNat - fieldPos x.1 * 2) / 2 = k - fieldPos x.1 := by omega
    rw [ei]
    generalize hi : k - fieldPos x.1 = i
    by_cases h2 : k < fieldPos x.1 + width x.1
    · have h2' : 2 * k + c.toNat - fieldPos x.1 * 2 < width x.1 * 2 := by omega
      have h2'' : i < width x.1 * 2 := by omega
      simp only [h2, h2', decide_true, Bool.not_true, Bool.false_or, Bool.and_false, Bool.or_false]
      congr 1
      rw [Nat.testBit_or, testBit_andNot, testBit_andNot, Nat.testBit_and, Nat.testBit_and, Nat.testBit_two_pow_sub_one]
      simp only [h2'', decide_true, Bool.true_and, Bool.and_true]
      have hm : (x.2.2.getD (2 ^ (width x.1 * 2) - 1)).testBit i = cares x i := by
        unfold cares
        cases x.2.2 with
        | none => simp [Nat.testBit_two_pow_sub_one, h2'']
        | some m => rfl
      rw [hm]
      cases c with
      | false =>
        have : (2 * k + false.toNat - fieldPos x.1 * 2) % 2 = 0 := by simp only [Bool.toNat_false]; omega
        rw [if_pos this]
        cases cares x i <;> cases x.2.1.testBit i <;> rfl
      | true =>
        have : ¬ (2 * k + true.toNat - fieldPos x.1 * 2) % 2 = 0 := by simp only [Bool.toNat_true]; omega
        rw [if_neg this]
        cases cares x i <;> cases x.2.1.testBit i <;> rfl
    · have h2' : ¬ (2 * k + c.toNat - fieldPos x.1 * 2 < width x.1 * 2) := by omega
      simp only [h2, h2', decide_false, Bool.not_false, Bool.true_or, Bool.and_true]
      cases wc.testBit (2 * k + c.toNat) <;> simp
  · have h1' : ¬ (2 * k + c.toNat ≥ fieldPos x.1 * 2) := by omega
    simp [h1, h1']

theorem foldlM_matchStep {m : MItems} (hm : ∀ x ∈ m, x.1 < 56) (wc : Nat) :
    ∃ w, m.foldlM matchStep wc = .ok w ∧
      ∀ k c, w.testBit (2 * k + Bool.toNat c) = (wc.testBit (2 * k + c.toNat) && m.all fun x => allows x k c) := by
  induction m generalizing wc with
  | nil => exact ⟨wc, rfl, fun k c => by simp⟩
  | cons x m ih =>
    obtain ⟨w1, e1, b1⟩ := matchStep_ok (hm x (by simp)) wc
    obtain ⟨w2, e2, b2⟩ := ih (fun y hy => hm y (List.mem_cons_of_mem _ hy)) w1
    refine ⟨w2, ?_, fun k c => ?_⟩
    · rw [List.foldlM_cons, e1]; exact e2
    · rw [b2, b1, List.all_cons, Bool.and_assoc]

theorem toWildcard_ok {m : MItems} (hm : ∀ x ∈ m, x.1 < 56) :
    ∃ w, toWildcard m = .ok w ∧
      ∀ k c, w.testBit (2 * k + Bool.toNat c) = (decide (k < totBits) && m.all fun x => allows x k c) := by
  obtain ⟨w, e, b⟩ := foldlM_matchStep hm (wcFull (bytesNeeded * 8))
  refine ⟨w, e, fun k c => ?_⟩
  rw [b, bytesNeeded_eq, testBit_wcFull]
  congr 1
  have hc : c.toNat < 2 := Bool.toNat_lt c
  simp only [decide_eq_decide]; omega

/-- Unknown fields are passed over. -/
theorem toWildcard_known (m : MItems) : toWildcard m = toWildcard (m.filter fun x => decide (x.1 < 56)) := by
  unfold toWildcard
  generalize wcFull (bytesNeeded * 8) = wc
  induction m generalizing wc with
  | nil => rfl
  | cons y m ih =>
    by_cases hy : y.1 < 56
    · rw [List.filter_cons_of_pos (by simpa using hy), List.foldlM_cons, List.foldlM_cons]
      cases matchStep wc y with
      | error e => rfl
      | ok w => exact ih w
    · rw [List.filter_cons_of_neg (by simpa using hy), List.foldlM_cons]
      have e : matchStep wc y = .ok wc := by
        unfold matchStep
        rw [fieldBits_none (by omega)]
      rw [e]
      exact ih wc

theorem known_mem {m : MItems} : ∀ x ∈ m.filter (fun x => decide (x.1 < 56)), x.1 < 56 := fun x hx => by
  simpa using (List.mem_filter.1 hx).2

theorem known_nodup {m : MItems} (h : (m.map (·.1)).Nodup) : ((m.filter fun x => decide (x.1 < 56)).map (·.1)).Nodup :=
  h.sublist (List.Sublist.map _ List.filter_sublist)

theorem allows_iff {x : Nat × Nat × Option Nat} (p : Packet) :
    (∀ k, allows x k (p k) = true) ↔ MatchesField p x := by
  unfold MatchesField Packet.bit
  constructor
  · intro h i hi hm
    have := h (fieldPos x.1 + i)
    have h1 : fieldPos x.1 ≤ fieldPos x.1 + i := by omega
    have h2 : fieldPos x.1 + i < fieldPos x.1 + width x.1 := by omega
    have hc : cares x i = true := by
      unfold cares
      cases hx : x.2.2 with
      | none => rfl
      | some m => exact hm m hx
    unfold allows at this
    simp only [h1, h2, decide_true, Bool.and_self, Bool.not_true, Bool.false_or, Nat.add_sub_cancel_left, hc, if_true] at this
    exact (beq_iff_eq.1 this).symm
  · intro h k
    unfold allows
    by_cases h1 : fieldPos x.1 ≤ k
    · by_cases h2 : k < fieldPos x.1 + width x.1
      · simp only [h1, h2, decide_true, Bool.and_self, Bool.not_true, Bool.false_or]
        split
        · next hc =>
          have := h (k - fieldPos x.1) (by omega) (by
            intro m hm; unfold cares at hc; rw [hm] at hc; exact hc)
          rw [beq_iff_eq, ← this]
          congr 1; omega
        · rfl
      · simp [h2]
    · simp [h1]

theorem two_mul_add_toNat (j : Nat) : ∃ k c, j = 2 * k + Bool.toNat c := by
  refine ⟨j / 2, decide (j % 2 = 1), ?_⟩
  by_cases h : j % 2 = 1 <;> simp [h] <;> omega

theorem covers_toWildcard {m : MItems} {w : Nat} (hm : ∀ x ∈ m, x.1 < 56) (h : toWildcard m = .ok w) (p : Packet) :
    Covers totBits w p ↔ MatchesAll m p := by
  obtain ⟨w', e, b⟩ := toWildcard_ok hm
  rw [h] at e; cases e
  unfold Covers MatchesAll
  constructor
  · intro hc x hx
    rw [← allows_iff]
    intro k
    by_cases hk : k < totBits
    · have := hc k hk
      rw [b] at this
      simp only [Bool.and_eq_true] at this
      exact List.all_eq_true.1 this.2 x hx
    · unfold allows
      have := fieldPos_le (hm x hx)
      have : ¬ k < fieldPos x.1 + width x.1 := by omega
      simp [this]
  · intro hm' k hk
    rw [b]
    simp only [hk, decide_true, Bool.true_and, List.all_eq_true]
    intro x hx
    exact (allows_iff p).2 (hm' x hx) k

theorem lt_of_bits {n w : Nat} (h : ∀ j, 2 * n ≤ j → w.testBit j = false) : w < 2 ^ (2 * n) := by
  apply Nat.lt_pow_two_of_testBit
  exact fun i hi => h i hi

theorem toWildcard_lt {m : MItems} {w : Nat} (hm : ∀ x ∈ m, x.1 < 56) (h : toWildcard m = .ok w) :
    w < 2 ^ (2 * totBits) := by
  obtain ⟨w', e, b⟩ := toWildcard_ok hm
  rw [h] at e; cases e
  apply lt_of_bits
  intro j hj
  obtain ⟨k, c, rfl⟩ := two_mul_add_toNat j
  have hc : c.toNat < 2 := Bool.toNat_lt c
  have : ¬ k < totBits := by omega
  rw [b]; simp [this]

theorem toWildcard_valid {m : MItems} {w : Nat} (hm : ∀ x ∈ m, x.1 < 56) (hnd : (m.map (·.1)).Nodup)
    (h : toWildcard m = .ok w) : WcValid totBits w := by
  refine ⟨toWildcard_lt hm h, fun k hk => ?_⟩
  obtain ⟨w', e, b⟩ := toWildcard_ok hm
  rw [h] at e; cases e
  -- a packet satisfying the match at bit k
  have key : ∃ c, ∀ x ∈ m, allows x k c = true := by
    by_cases hex : ∃ x ∈ m, fieldPos x.1 ≤ k ∧ k < fieldPos x.1 + width x.1
    · obtain ⟨x, hx, h1, h2⟩ := hex
      refine ⟨x.2.1.testBit (k - fieldPos x.1), fun y hy => ?_⟩
      by_cases hyk : fieldPos y.1 ≤ k ∧ k < fieldPos y.1 + width y.1
      · have hxy : x.1 = y.1 := field_disjoint (hm x hx) (hm y hy) h1 h2 hyk.1 hyk.2
        have : x = y := List.inj_on_of_nodup_map hnd hx hy hxy
        subst this
        unfold allows
        split <;> simp
      · unfold allows
        rw [Decidable.not_and_iff_or_not] at hyk
        rcases hyk with h | h <;> simp [h]
    · refine ⟨true, fun y hy => ?_⟩
      have hyk : ¬ (fieldPos y.1 ≤ k ∧ k < fieldPos y.1 + width y.1) := fun h => hex ⟨y, hy, h⟩
      unfold allows
      rw [Decidable.not_and_iff_or_not] at hyk
      rcases hyk with h | h <;> simp [h]
  obtain ⟨c, hc⟩ := key
  have := b k c
  rw [decide_eq_true hk, Bool.true_and, List.all_eq_true.2 hc] at this
  cases c with
  | false => left; simpa using this
  | true => right; simpa using this

/-- The padding of a wildcard is unconstrained. -/
def PadFull (w : Nat) : Prop := ∀ j, j < 6 → w.testBit j = true

theorem toWildcard_pad {m : MItems} {w : Nat} (hm : ∀ x ∈ m, x.1 < 56) (h : toWildcard m = .ok w) : PadFull w := by
  intro j hj
  obtain ⟨w', e, b⟩ := toWildcard_ok hm
  rw [h] at e; cases e
  obtain ⟨k, c, rfl⟩ := two_mul_add_toNat j
  have hk : k < 3 := by omega
  rw [b]
  have : k < totBits := by unfold totBits; omega
  simp only [this, decide_true, Bool.true_and, List.all_eq_true]
  intro x hx
  unfold allows
  have := fieldPos_ge (hm x hx)
  have : ¬ fieldPos x.1 ≤ k := by omega
  simp [this]

end OFE
