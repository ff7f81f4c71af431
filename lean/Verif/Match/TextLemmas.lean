import Verif.Match.Text
import Verif.Match.LayoutLemmas
import Verif.Match.Lemmas

/-!
# The texts of wildcards
-/

namespace OFE

/-- Specification: the character of tbit `i` (headerspace.py:6-11). -/
def tbitChar (w i : Nat) : Char :=
  match w.testBit (2 * i), w.testBit (2 * i + 1) with
  | false, false => 'z'
  | true, false => '0'
  | false, true => '1'
  | true, true => 'x'

/-- Specification: the characters of `n` tbits from position `pos` on, most significant first. -/
def wcText (w pos n : Nat) : List Char := (List.range n).reverse.map fun j => tbitChar w (pos + j)

theorem wcText_succ (w pos n : Nat) : wcText w pos (n + 1) = wcText w (pos + 1) n ++ [tbitChar w pos] := by
  unfold wcText
  rw [List.range_succ_eq_map]
  simp only [List.reverse_cons, List.map_append, List.map_cons, List.map_nil, Nat.add_zero]
  congr 1
  rw [← List.map_reverse, List.map_map]
  apply List.map_congr_left
  intro j _
  simp only [Function.comp_apply]
  congr 1
  omega

theorem tbitChar_shift (w i k : Nat) : tbitChar (w >>> (2 * k)) i = tbitChar w (k + i) := by
  unfold tbitChar
  rw [Nat.testBit_shiftRight, Nat.testBit_shiftRight, show 2 * k + 2 * i = 2 * (k + i) by omega,
    show 2 * k + (2 * i + 1) = 2 * (k + i) + 1 by omega]

theorem wcText_shift (w pos n k : Nat) : wcText (w >>> (2 * k)) pos n = wcText w (k + pos) n := by
  unfold wcText
  apply List.map_congr_left
  intro j _
  rw [tbitChar_shift, Nat.add_assoc]

theorem wcText_mask (w pos n len : Nat) (h : pos + n ≤ len) :
    wcText (((1 <<< (len * 2)) - 1) &&& w) pos n = wcText w pos n := by
  unfold wcText
  apply List.map_congr_left
  intro j hj
  have hj' : j < n := by simpa using hj
  have e : ∀ i, i < 2 * len → (((1 <<< (len * 2)) - 1) &&& w).testBit i = w.testBit i := by
    intro i hi
    rw [Nat.testBit_and, Nat.shiftLeft_eq, Nat.one_mul, Nat.testBit_two_pow_sub_one]
    simp; omega
  unfold tbitChar
  rw [e _ (by omega), e _ (by omega)]

theorem and3 (t : Nat) : t &&& 3 = (t.testBit 0).toNat + 2 * (t.testBit 1).toNat := by
  have e : t &&& 3 = t % 4 := Nat.and_two_pow_sub_one_eq_mod t 2
  have h0 : t.testBit 0 = decide (t % 2 = 1) := Nat.testBit_zero t
  have h1 : t.testBit 1 = decide (t / 2 % 2 = 1) := by
    rw [show (1 : Nat) = 0 + 1 by rfl, Nat.testBit_succ, Nat.testBit_zero]
  rw [e, h0, h1]
  by_cases a : t % 2 = 1 <;> by_cases b : t / 2 % 2 = 1 <;> simp [a, b] <;> omega

theorem WcValid.shift {n k w : Nat} (h : WcValid (k + n) w) : WcValid n (w >>> (2 * k)) := by
  constructor
  · have := h.lt
    rw [Nat.shiftRight_eq_div_pow]
    rw [Nat.div_lt_iff_lt_mul (Nat.two_pow_pos _), ← Nat.pow_add]
    rwa [show 2 * n + 2 * k = 2 * (k + n) by omega]
  · intro i hi
    rw [Nat.testBit_shiftRight, Nat.testBit_shiftRight]
    have := h.noZ (k + i) (by omega)
    rwa [show 2 * k + 2 * i = 2 * (k + i) by omega, show 2 * k + (2 * i + 1) = 2 * (k + i) + 1 by omega]

theorem WcValid.low {n k w : Nat} (h : WcValid (n + k) w) : WcValid n (((1 <<< (n * 2)) - 1) &&& w) := by
  constructor
  · rw [Nat.and_comm, Nat.shiftLeft_eq, Nat.one_mul, Nat.and_two_pow_sub_one_eq_mod, Nat.mul_comm n 2]
    exact Nat.mod_lt _ (Nat.two_pow_pos _)
  · intro i hi
    have e : ∀ j, j < 2 * n → (((1 <<< (n * 2)) - 1) &&& w).testBit j = w.testBit j := by
      intro j hj
      rw [Nat.testBit_and, Nat.shiftLeft_eq, Nat.one_mul, Nat.testBit_two_pow_sub_one]
      simp; omega
    rw [e _ (by omega), e _ (by omega)]
    exact h.noZ i (by omega)

theorem tintLoop_ok {n : Nat} : ∀ {k t : Nat} {acc : List Char}, WcValid n t → t ≤ k → tintLoop k t acc = .ok (wcText t 0 n ++ acc) := by
  induction n with
  | zero =>
    intro k t acc h _
    have : t = 0 := by have := h.lt; simpa using this
    subst this
    cases k <;> simp [tintLoop, wcText]
  | succ n ih =>
    intro k t acc h hk
    have hz := h.noZ 0 (by omega)
    simp only [Nat.mul_zero, Nat.zero_add] at hz
    have ht : t ≠ 0 := by rintro rfl; simp at hz
    have hlt : t >>> 2 < t := by rw [Nat.shiftRight_eq_div_pow]; omega
    obtain ⟨k, rfl⟩ : ∃ k', k = k' + 1 := ⟨k - 1, by omega⟩
    have hv : WcValid n (t >>> 2) := WcValid.shift (k := 1) (by rwa [Nat.add_comm])
    have hp := and3 t
    have hne : t &&& 3 ≠ 0 := by
      rw [hp]; rcases hz with hz | hz <;> simp [hz]
    simp only [tintLoop, if_neg ht, if_neg hne]
    rw [ih hv (by omega), wcText_succ]
    have e : wcText (t >>> 2) 0 n = wcText t (0 + 1) n := wcText_shift t 0 n 1
    rw [e, List.append_assoc]
    congr 2
    simp only [List.cons_append, List.nil_append, List.cons.injEq, and_true]
    rw [hp]
    unfold tbitChar
    simp only [Nat.mul_zero, Nat.zero_add]
    cases h0 : t.testBit 0 <;> cases h1 : t.testBit 1 <;> simp_all

theorem wcIntToString_ok {n t : Nat} (h : WcValid n t) : wcIntToString t = .ok (wcText t 0 n) := by
  unfold wcIntToString
  rw [tintLoop_ok h (Nat.le_refl t), List.append_nil]

/-- Specification: the texts of fields that lie one after another from `pos` on. -/
def fieldTexts (w : Nat) : Nat → List (String × Nat) → List (List Char)
  | _, [] => []
  | pos, (name, n) :: rest => (name.toList ++ '=' :: wcText w pos n) :: fieldTexts w (pos + n) rest

theorem fieldsText_ok (w : Nat) (fs : List (String × Nat)) (pos : Nat) :
    WcValid ((fs.map (·.2)).sum) (w >>> (2 * pos)) →
    fieldsText (w >>> (2 * pos)) fs = .ok (fieldTexts w pos fs, (fs.map (·.2)).sum) := by
  induction fs generalizing pos with
  | nil => intro _; rfl
  | cons x fs ih =>
    obtain ⟨name, n⟩ := x
    intro h
    simp only [List.map_cons, List.sum_cons] at h
    have hl := wcIntToString_ok h.low
    have hs : w >>> (2 * pos) >>> (n * 2) = w >>> (2 * (pos + n)) := by
      rw [← Nat.shiftRight_add]; congr 1; omega
    have h2 : WcValid ((fs.map (·.2)).sum) (w >>> (2 * (pos + n))) := by
      have := h.shift
      rwa [Nat.mul_comm 2 n, hs] at this
    have := ih (pos + n) h2
    simp only [fieldsText, hl, hs, this, bind, Except.bind, pure, Except.pure, fieldTexts, List.map_cons, List.sum_cons]
    rw [wcText_mask _ _ _ _ (by omega), wcText_shift, Nat.add_zero, Nat.add_comm n]

/-- Specification: name of a field. -/
def nameOf (f : Nat) : String := (allFields.getD f ("", 0)).1

/-- Specification: the fields one after another from `pos` on, with position and width. -/
def placed : Nat → List (String × Nat) → List (String × Nat × Nat)
  | _, [] => []
  | pos, (name, n) :: rest => (name, pos, n) :: placed (pos + n) rest

theorem placed_eq : placed 3 allFields.reverse = (List.range 56).reverse.map fun f => (nameOf f, fieldPos f, width f) := by
  decide +kernel

theorem fieldTexts_placed (w pos : Nat) (fs : List (String × Nat)) :
    fieldTexts w pos fs = (placed pos fs).map fun x => x.1.toList ++ '=' :: wcText w x.2.1 x.2.2 := by
  induction fs generalizing pos with
  | nil => rfl
  | cons x fs ih => obtain ⟨name, n⟩ := x; simp only [fieldTexts, placed, List.map_cons, ih]

theorem extraPadding_eq : extraPadding = 3 := by decide +kernel

theorem sum_reverse_widths : (allFields.reverse.map (·.2)).sum = fieldsBitWidth := by decide +kernel

theorem totBits_split : totBits = 3 + fieldsBitWidth := by decide +kernel

theorem dropPadding_ok {w : Nat} (hp : PadFull w) : dropPadding w = .ok (w >>> (2 * 3)) := by
  have e : ((1 <<< (3 * 2)) - 1) &&& w = (1 <<< (3 * 2)) - 1 := by
    apply Nat.eq_of_testBit_eq
    intro i
    rw [Nat.testBit_and, Nat.shiftLeft_eq, Nat.one_mul, Nat.testBit_two_pow_sub_one]
    by_cases hi : i < 6
    · simp [hi, hp i hi]
    · simp [hi]
  simp only [dropPadding, extraPadding_eq, e]
  rfl

theorem dropPadding_fail {w : Nat} (hp : ¬ PadFull w) : dropPadding w = .error .assertion := by
  have e : ((1 <<< (3 * 2)) - 1) &&& w ≠ (1 <<< (3 * 2)) - 1 := by
    intro h
    apply hp
    intro j hj
    have := congrArg (fun x => Nat.testBit x j) h
    simp only [Nat.testBit_and, Nat.shiftLeft_eq, Nat.one_mul, Nat.testBit_two_pow_sub_one] at this
    simpa [hj] using this
  simp only [dropPadding, extraPadding_eq]
  rw [if_pos (by decide), if_neg e]

theorem valid_drop {w : Nat} (hv : WcValid totBits w) : WcValid fieldsBitWidth (w >>> (2 * 3)) := by
  rw [totBits_split] at hv
  exact hv.shift

/-- Specification: the texts `name=bits` of all fields, from the last field to the first. -/
def allTexts (w : Nat) : List (List Char) :=
  (List.range 56).reverse.map fun f => (nameOf f).toList ++ '=' :: wcText w (fieldPos f) (width f)

theorem fieldTexts_all (w : Nat) : fieldTexts w 3 allFields.reverse = allTexts w := by
  rw [fieldTexts_placed, placed_eq, List.map_map]
  rfl

theorem wildcardToString_int {w : Nat} (hv : WcValid totBits w) (hp : PadFull w) :
    wildcardToString (.int w) = .ok ([',', ' '].intercalate (allTexts w)) := by
  have h1 := fieldsText_ok w allFields.reverse 3 (by rw [sum_reverse_widths]; exact valid_drop hv)
  simp only [wildcardToString, wildcardToTint, dropPadding_ok hp, bind, Except.bind, h1, sum_reverse_widths, if_true, fieldTexts_all]
  rfl

theorem joinWords_lt {l : List Nat} (h : ∀ x ∈ l, x < 2 ^ 16) : joinWords l < 2 ^ (16 * l.length) := by
  induction l with
  | nil => simp [joinWords]
  | cons a l ih =>
    have h1 := ih (fun x hx => h x (List.mem_cons_of_mem _ hx))
    have h2 : a < 2 ^ 16 := h a List.mem_cons_self
    have e : joinWords (a :: l) = joinWords l <<< 16 ||| a := rfl
    rw [e]
    have e2 : (16 * (a :: l).length) = 16 * l.length + 16 := by simp; omega
    rw [e2]
    apply Nat.or_lt_two_pow
    · rw [Nat.shiftLeft_eq, Nat.pow_add]
      exact Nat.mul_lt_mul_of_pos_right h1 (Nat.two_pow_pos _)
    · exact Nat.lt_of_lt_of_le h2 (Nat.pow_le_pow_right (by omega) (by omega))

theorem testBit_joinWords {l : List Nat} (h : ∀ x ∈ l, x < 2 ^ 16) (i : Nat) :
    (joinWords l).testBit i = (l.getD (i / 16) 0).testBit (i % 16) := by
  induction l generalizing i with
  | nil => simp [joinWords]
  | cons a l ih =>
    have h1 := fun i => ih (fun x hx => h x (List.mem_cons_of_mem _ hx)) i
    have h2 : a < 2 ^ 16 := h a List.mem_cons_self
    have e : joinWords (a :: l) = joinWords l <<< 16 ||| a := rfl
    rw [e, Nat.testBit_or, Nat.testBit_shiftLeft]
    by_cases hi : i < 16
    · have e1 : i / 16 = 0 := by omega
      have e2 : i % 16 = i := by omega
      have : ¬ (16 ≤ i) := by omega
      simp [e1, e2, this]
    · have e1 : i / 16 = (i - 16) / 16 + 1 := by omega
      have e2 : i % 16 = (i - 16) % 16 := by omega
      have h3 : a.testBit i = false := Nat.testBit_lt_two_pow (Nat.lt_of_lt_of_le h2 (Nat.pow_le_pow_right (by omega) (by omega)))
      rw [h1, h3, e1, e2]
      simp [show 16 ≤ i by omega]

end OFE
