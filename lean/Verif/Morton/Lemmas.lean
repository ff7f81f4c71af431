import Verif.Morton.Model
import Verif.Wildcard.Lemmas
import Mathlib.Tactic.Ring

namespace OFE

theorem mortonLut_table : ∀ x, x < 256 → ∀ i, i < 16 →
    (mortonLut x).testBit i = (decide (i % 2 = 0) && x.testBit (i / 2)) := by
  decide +kernel

theorem mortonLut_lt : ∀ x, x < 256 → mortonLut x < 2 ^ 16 := by
  decide +kernel

theorem testBit_mortonLut {x : Nat} (h : x < 256) (i : Nat) :
    (mortonLut x).testBit i = (decide (i % 2 = 0) && x.testBit (i / 2)) := by
  by_cases hi : i < 16
  · exact mortonLut_table x h i hi
  · rw [Nat.testBit_lt_two_pow (lt_of_lt_of_le (mortonLut_lt x h) (Nat.pow_le_pow_right (n := 2) (by omega) (by omega : 16 ≤ i))),
      Nat.testBit_lt_two_pow (lt_of_lt_of_le h (Nat.pow_le_pow_right (n := 2) (by omega) (by omega : 8 ≤ i / 2)))]
    simp

/-- Specification of interleaving: bit `2i` is bit `i` of `a`, bit `2i+1` is bit `i` of `b`. -/
theorem testBit_morton (a b i : Nat) :
    (morton a b).testBit i = if i % 2 = 0 then a.testBit (i / 2) else b.testBit (i / 2) := by
  induction a, b using morton.induct generalizing i with
  | case1 a b h ih =>
    rw [morton]
    simp only [h, if_true, Nat.testBit_or, Nat.testBit_shiftLeft, ih]
    have ha : a &&& 0xFF < 256 := by rw [Nat.and_two_pow_sub_one_eq_mod a 8]; omega
    have hb : b &&& 0xFF < 256 := by rw [Nat.and_two_pow_sub_one_eq_mod b 8]; omega
    rw [testBit_mortonLut ha, testBit_mortonLut hb]
    rw [Nat.and_two_pow_sub_one_eq_mod a 8, Nat.and_two_pow_sub_one_eq_mod b 8]
    simp only [Nat.testBit_mod_two_pow, Nat.testBit_shiftRight]
    by_cases h16 : 16 ≤ i
    · have e1 : (i - 16) % 2 = i % 2 := by omega
      have e2 : 8 + (i - 16) / 2 = i / 2 := by omega
      have e3 : ¬ i / 2 < 8 := by omega
      have e4 : ¬ (i - 1) / 2 < 8 ∨ i % 2 = 0 := by omega
      rw [e1, e2]
      rcases e4 with e4 | e4
      · simp [h16, e3, e4]
      · have : (i - 1) % 2 ≠ 0 := by omega
        simp [h16, e3, e4, this]
    · have e3 : i / 2 < 8 := by omega
      rcases Nat.mod_two_eq_zero_or_one i with e | e
      · by_cases h1 : i ≥ 1
        · have : (i - 1) % 2 = 1 := by omega
          simp [h16, e3, e, this]
        · have : i = 0 := by omega
          subst this
          simp
      · have e5 : (i - 1) % 2 = 0 := by omega
        have e6 : (i - 1) / 2 = i / 2 := by omega
        have e7 : 1 ≤ i := by omega
        simp [h16, e3, e, e5, e6, e7]
  | case2 a b h =>
    rw [morton]
    simp only [h, if_false, Nat.testBit_or, Nat.testBit_shiftLeft]
    have ha : a < 256 := by
      have := Nat.left_le_or (n := a) (m := b)
      omega
    have hb : b < 256 := by
      have := Nat.right_le_or (n := a) (m := b)
      omega
    have ha' : a &&& 0xFF = a := by rw [Nat.and_two_pow_sub_one_eq_mod a 8]; omega
    have hb' : b &&& 0xFF = b := by rw [Nat.and_two_pow_sub_one_eq_mod b 8]; omega
    rw [ha', hb', testBit_mortonLut ha, testBit_mortonLut hb]
    rcases Nat.mod_two_eq_zero_or_one i with e | e
    · by_cases h1 : i ≥ 1
      · have : (i - 1) % 2 = 1 := by omega
        simp [e, this]
      · have : i = 0 := by omega
        subst this
        simp
    · have e5 : (i - 1) % 2 = 0 := by omega
      have e6 : (i - 1) / 2 = i / 2 := by omega
      have e7 : 1 ≤ i := by omega
      simp [e, e5, e6, e7]

/-! ### RMorton -/

theorem testBit_rmortonEntry (x : Nat) (i : Nat) :
    (rmortonEntry x).1.testBit i = (decide (i < 8) && x.testBit (2 * i)) ∧
    (rmortonEntry x).2.testBit i = (decide (i < 8) && x.testBit (2 * i + 1)) := by
  have hmask : ∀ i, Nat.testBit 0x00ff i = decide (i < 8) := fun i => by
    rw [show (0x00ff : Nat) = 2 ^ 8 - 1 from rfl, Nat.testBit_two_pow_sub_one]
  by_cases h : i < 8
  · have : i = 0 ∨ i = 1 ∨ i = 2 ∨ i = 3 ∨ i = 4 ∨ i = 5 ∨ i = 6 ∨ i = 7 := by omega
    rcases this with rfl | rfl | rfl | rfl | rfl | rfl | rfl | rfl <;>
    · simp only [rmortonEntry, Nat.testBit_and, Nat.testBit_or, Nat.testBit_shiftRight]
      simp [Nat.testBit, Nat.shiftRight_eq_div_pow]
  · simp [rmortonEntry, hmask, h]

theorem testBit_rmortonLoop (offset a b num : Nat) (i : Nat)
    : (rmortonLoop offset a b num).1.testBit i = (a.testBit i || (decide (offset ≤ i) && num.testBit (2 * (i - offset)))) ∧
      (rmortonLoop offset a b num).2.testBit i = (b.testBit i || (decide (offset ≤ i) && num.testBit (2 * (i - offset) + 1))) := by
  induction offset, a, b, num using rmortonLoop.induct with
  | case1 offset a b => rw [rmortonLoop]; simp
  | case2 offset a b num h e ih =>
    rw [rmortonLoop]
    simp only [h, if_false]
    rw [ih.1, ih.2]
    have hnum : ∀ j, (num &&& 0xFFFF).testBit j = (decide (j < 16) && num.testBit j) := fun j => by
      rw [show (0xFFFF : Nat) = 2 ^ 16 - 1 from rfl, Nat.and_two_pow_sub_one_eq_mod, Nat.testBit_mod_two_pow]
    simp only [e, Nat.testBit_or, Nat.testBit_shiftLeft, (testBit_rmortonEntry _ _).1, (testBit_rmortonEntry _ _).2,
      Nat.testBit_shiftRight, hnum]
    by_cases h1 : offset ≤ i
    · by_cases h2 : offset + 8 ≤ i
      · have e1 : 16 + 2 * (i - (offset + 8)) = 2 * (i - offset) := by omega
        have e2 : 16 + (2 * (i - (offset + 8)) + 1) = 2 * (i - offset) + 1 := by omega
        have e3 : ¬ (i - offset < 8) := by omega
        rw [e1, e2]
        simp [h1, h2, e3]
      · have e3 : i - offset < 8 := by omega
        have e4 : 2 * (i - offset) < 16 := by omega
        have e5 : 2 * (i - offset) + 1 < 16 := by omega
        simp [h1, h2, e3, e4, e5]
    · have h2 : ¬ offset + 8 ≤ i := by omega
      simp [h1, h2]

theorem testBit_rmorton (num i : Nat) :
    (rmorton num).1.testBit i = num.testBit (2 * i) ∧ (rmorton num).2.testBit i = num.testBit (2 * i + 1) := by
  have := testBit_rmortonLoop 0 0 0 num i
  simpa [rmorton] using this

/-! ### C variants -/

theorem testBit_word (w a i j : Nat) : (word w a i).testBit j = (decide (j < w) && a.testBit (w * i + j)) := by
  simp [word, Nat.testBit_mod_two_pow, Nat.testBit_shiftRight]

theorem oddMask_succ (w : Nat) : oddMask (w + 1) = 4 * oddMask w + 1 := by
  rw [oddMask, Nat.shiftLeft_eq, show oddMask w * 2 ^ 2 = 2 ^ 2 * oddMask w from Nat.mul_comm _ _,
    ← Nat.two_pow_add_eq_or_of_lt (i := 2) (by decide : 1 < 2 ^ 2)]

theorem pdep_even_succ (w s : Nat) :
    pdep (2 * (w + 1)) s (oddMask (w + 1)) = s % 2 + 2 * (2 * pdep (2 * w) (s / 2) (oddMask w)) := by
  rw [show 2 * (w + 1) = 2 * w + 1 + 1 by omega, pdep, pdep, oddMask_succ]
  have h1 : (4 * oddMask w + 1) % 2 = 1 := by omega
  have h2 : ¬ (4 * oddMask w + 1) / 2 % 2 = 1 := by omega
  have h3 : (4 * oddMask w + 1) / 2 / 2 = oddMask w := by omega
  rw [if_pos h1, if_neg h2, h3]

theorem pdep_odd_succ (w s : Nat) :
    pdep (2 * (w + 1)) s (2 * oddMask (w + 1)) = 2 * (s % 2 + 2 * pdep (2 * w) (s / 2) (2 * oddMask w)) := by
  rw [show 2 * (w + 1) = 2 * w + 1 + 1 by omega, pdep, oddMask_succ]
  have h1 : ¬ (2 * (4 * oddMask w + 1)) % 2 = 1 := by omega
  have h2 : 2 * (4 * oddMask w + 1) / 2 % 2 = 1 := by omega
  have h3 : 2 * (4 * oddMask w + 1) / 2 / 2 = 2 * oddMask w := by omega
  rw [if_neg h1, pdep, if_pos h2, h3]

theorem testBit_bit_zero (s x : Nat) : (s % 2 + 2 * x).testBit 0 = s.testBit 0 := by
  simp [Nat.testBit_zero, Nat.add_mod]

theorem testBit_bit_succ (s x i : Nat) : (s % 2 + 2 * x).testBit (i + 1) = x.testBit i := by
  rw [Nat.testBit_succ]; congr 1; omega

theorem testBit_two_mul_zero (x : Nat) : (2 * x).testBit 0 = false := by
  simp [Nat.testBit_zero]

theorem testBit_two_mul_succ (x i : Nat) : (2 * x).testBit (i + 1) = x.testBit i := by
  rw [Nat.testBit_succ]; congr 1; omega

theorem testBit_pdep_even (w s i : Nat) :
    (pdep (2 * w) s (oddMask w)).testBit i = (decide (i < 2 * w) && decide (i % 2 = 0) && s.testBit (i / 2)) := by
  induction w generalizing s i with
  | zero => simp [pdep]
  | succ w ih =>
    rw [pdep_even_succ]
    rcases i with _ | _ | i
    · rw [testBit_bit_zero]; simp
    · rw [testBit_bit_succ, testBit_two_mul_zero]; simp
    · rw [testBit_bit_succ, testBit_two_mul_succ, ih, ← Nat.testBit_succ,
        show (i + 1 + 1) / 2 = i / 2 + 1 by omega, show (i + 1 + 1) % 2 = i % 2 by omega,
        show decide (i + 1 + 1 < 2 * (w + 1)) = decide (i < 2 * w) by apply decide_eq_decide.2; omega]

theorem testBit_pdep_odd (w s i : Nat) :
    (pdep (2 * w) s (2 * oddMask w)).testBit i = (decide (i < 2 * w) && decide (i % 2 = 1) && s.testBit (i / 2)) := by
  induction w generalizing s i with
  | zero => simp [pdep]
  | succ w ih =>
    rw [pdep_odd_succ]
    rcases i with _ | _ | i
    · rw [testBit_two_mul_zero]; simp
    · rw [testBit_two_mul_succ, testBit_bit_zero]; simp; omega
    · rw [testBit_two_mul_succ, testBit_bit_succ, ih, ← Nat.testBit_succ,
        show (i + 1 + 1) / 2 = i / 2 + 1 by omega, show (i + 1 + 1) % 2 = i % 2 by omega,
        show decide (i + 1 + 1 < 2 * (w + 1)) = decide (i < 2 * w) by apply decide_eq_decide.2; omega]

/-- A word function that interleaves two `w`-bit words. -/
def IsInterleave (w : Nat) (f : Nat → Nat → Nat) : Prop :=
  ∀ x y, x < 2 ^ w → y < 2 ^ w → ∀ i, (f x y).testBit i =
    (decide (i < 2 * w) && if i % 2 = 0 then x.testBit (i / 2) else y.testBit (i / 2))

theorem isInterleave_pdep (w : Nat) :
    IsInterleave w fun x y => pdep (2 * w) x (oddMask w) ||| pdep (2 * w) y (2 * oddMask w) := by
  intro x y _ _ i
  simp only [Nat.testBit_or, testBit_pdep_even, testBit_pdep_odd]
  rcases Nat.mod_two_eq_zero_or_one i with e | e <;> simp [e]

theorem isInterleave_lut : IsInterleave 8 fun x y =>
    ((mortonLut (y &&& 0xFF) <<< 1) ||| mortonLut (x &&& 0xFF)) % 2 ^ 16 := by
  intro x y hx hy i
  have hx' : x &&& 0xFF = x := by rw [Nat.and_two_pow_sub_one_eq_mod x 8]; omega
  have hy' : y &&& 0xFF = y := by rw [Nat.and_two_pow_sub_one_eq_mod y 8]; omega
  simp only [hx', hy', Nat.testBit_mod_two_pow, Nat.testBit_or, Nat.testBit_shiftLeft,
    testBit_mortonLut (x := x) (by omega), testBit_mortonLut (x := y) (by omega)]
  congr 1
  rcases Nat.mod_two_eq_zero_or_one i with e | e
  · by_cases h1 : i ≥ 1
    · have : (i - 1) % 2 = 1 := by omega
      simp [e, this]
    · have : i = 0 := by omega
      subst this
      simp
  · have e5 : (i - 1) % 2 = 0 := by omega
    have e6 : (i - 1) / 2 = i / 2 := by omega
    have e7 : 1 ≤ i := by omega
    simp [e, e5, e6, e7]

theorem testBit_ofWords {w : Nat} (hw : 0 < w) (f : Nat → Nat) (hf : ∀ k, f k < 2 ^ (2 * w)) (k i : Nat) :
    (ofWords w f k).testBit i = (decide (i < 2 * w * k) && (f (i / (2 * w))).testBit (i % (2 * w))) := by
  induction k with
  | zero => simp [ofWords]
  | succ k ih =>
    simp only [ofWords, Nat.testBit_or, ih, Nat.testBit_shiftLeft]
    have hexp : 2 * w * (k + 1) = 2 * w * k + 2 * w := by ring
    by_cases h1 : i < 2 * w * k
    · have h2 : ¬ (i ≥ 2 * w * k) := by omega
      have h3 : i < 2 * w * (k + 1) := by omega
      simp [h1, h2, h3]
    · by_cases h3 : i < 2 * w * (k + 1)
      · have h2 : i ≥ 2 * w * k := by omega
        have e1 : i / (2 * w) = k := by
          rw [Nat.div_eq_iff (by omega)]
          constructor
          · rw [Nat.mul_comm]; omega
          · rw [Nat.mul_comm]; omega
        have e2 : i % (2 * w) = i - 2 * w * k := by
          have := Nat.div_add_mod i (2 * w)
          rw [e1] at this; omega
        simp [h1, h2, h3, e1, e2]
      · have h2 : i ≥ 2 * w * k := by omega
        have : (f k).testBit (i - 2 * w * k) = false :=
          Nat.testBit_lt_two_pow (lt_of_lt_of_le (hf k) (Nat.pow_le_pow_right (by omega) (by omega)))
        simp [h1, h3, this]

theorem lt_numBits (a : Nat) : a < 2 ^ numBits a := by
  unfold numBits
  split
  · next h => subst h; simp
  · next h => exact Nat.lt_log2_self

theorem mortonC_eq {w : Nat} (hw : 0 < w) {f : Nat → Nat → Nat} (hf : IsInterleave w f) (a b : Nat) :
    mortonC w f a b = morton a b := by
  have hlt : ∀ a k, word w a k < 2 ^ w := fun a k => Nat.mod_lt _ (Nat.two_pow_pos w)
  apply Nat.eq_of_testBit_eq
  intro i
  unfold mortonC
  simp only
  generalize hbits : (if numBits a > numBits b then numBits a else numBits b) = bits
  have ha : a < 2 ^ bits := lt_of_lt_of_le (lt_numBits a) (Nat.pow_le_pow_right (by omega) (by
    subst hbits; split <;> omega))
  have hb : b < 2 ^ bits := lt_of_lt_of_le (lt_numBits b) (Nat.pow_le_pow_right (by omega) (by
    subst hbits; split <;> omega))
  rw [testBit_ofWords hw, testBit_morton]
  · simp only [hf _ _ (hlt _ _) (hlt _ _), testBit_word]
    have hmod : i % (2 * w) < 2 * w := Nat.mod_lt _ (by omega)
    have hdm := Nat.div_add_mod i (2 * w)
    have e1 : i % (2 * w) % 2 = i % 2 := Nat.mod_mul_right_mod i 2 w
    have e2 : w * (i / (2 * w)) + i % (2 * w) / 2 = i / 2 := by
      have : 2 * (w * (i / (2 * w))) = 2 * w * (i / (2 * w)) := by ring
      omega
    have e3 : i % (2 * w) / 2 < w := by omega
    simp only [hmod, e1, e2, e3, decide_true, Bool.true_and]
    by_cases h : i < 2 * w * (bits / w + 1)
    · simp [h]
    · have hb2 : bits ≤ i / 2 := by
        have h1 := Nat.div_add_mod bits w
        have h2 := Nat.mod_lt bits hw
        have h3 : 2 * w * (bits / w + 1) = 2 * (w * (bits / w)) + 2 * w := by ring
        omega
      have ta : a.testBit (i / 2) = false :=
        Nat.testBit_lt_two_pow (lt_of_lt_of_le ha (Nat.pow_le_pow_right (by omega) hb2))
      have tb : b.testBit (i / 2) = false :=
        Nat.testBit_lt_two_pow (lt_of_lt_of_le hb (Nat.pow_le_pow_right (by omega) hb2))
      simp [h, ta, tb]
  · intro k
    apply Nat.lt_pow_two_of_testBit
    intro j hj
    rw [hf _ _ (hlt _ _) (hlt _ _)]
    have : ¬ j < 2 * w := by omega
    simp [this]

end OFE
