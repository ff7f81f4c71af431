import Verif.Match.TextLemmas

/-!
# C76: wildcards are printed bit by bit
-/

namespace OFE

/-- C76: the text of a wildcard: for each field from the last to the first its name and the characters of its bits, joined by ", ". -/
theorem C76_string {w : Nat} (hv : WcValid totBits w) (hp : PadFull w) :
    wildcardToString (.int w) = .ok ([',', ' '].intercalate
      ((List.range 56).reverse.map fun f => (nameOf f).toList ++ '=' :: wcText w (fieldPos f) (width f))) :=
  wildcardToString_int hv hp

/-- C76: the same text for the sequence of words of the wildcard. -/
theorem C76_words {l : List Nat} (hl : l.length = bytesNeeded) : wildcardToString (.words l) = wildcardToString (.int (joinWords l)) := by
  unfold wildcardToString
  have : wildcardToTint (.words l) = wildcardToTint (.int (joinWords l)) := by
    simp only [wildcardToTint, if_pos hl]
  rw [this]

/-- C76: bit `i` of the joined words is bit `i % 16` of word `i / 16`. -/
theorem C76_words_bits {l : List Nat} (h : ∀ x ∈ l, x < 2 ^ 16) (i : Nat) :
    (joinWords l).testBit i = (l.getD (i / 16) 0).testBit (i % 16) := testBit_joinWords h i

/-- C76: the text of a ternary number without empty bits. -/
theorem C76_int_to_string {n t : Nat} (h : WcValid n t) : wcIntToString t = .ok (wcText t 0 n) := wcIntToString_ok h

theorem wcText_length (w pos n : Nat) : (wcText w pos n).length = n := by simp [wcText]

theorem wcText_get (w pos n j : Nat) (h : j < n) : (wcText w pos n)[n - 1 - j]? = some (tbitChar w (pos + j)) := by
  unfold wcText
  rw [List.getElem?_map, List.getElem?_reverse (by simp; omega)]
  rw [List.length_range, List.getElem?_range (by omega)]
  simp only [Option.map_some]
  congr 3
  omega

theorem tbitChar_allows {n w i : Nat} (hv : WcValid n w) (hi : i < n) (c : Bool) :
    w.testBit (2 * i + c.toNat) = true ↔ tbitChar w i = 'x' ∨ tbitChar w i = if c then '1' else '0' := by
  have := hv.noZ i hi
  unfold tbitChar
  cases h0 : w.testBit (2 * i) <;> cases h1 : w.testBit (2 * i + 1) <;> cases c <;> simp_all

/-- C76: the text tells which packets are covered: at every bit of every field there is an x or the bit of the packet. -/
theorem C76_reads {w : Nat} (hv : WcValid totBits w) (hp : PadFull w) (p : Packet) :
    Covers totBits w p ↔ ∀ f, f < 56 → ∀ j, j < width f →
      (wcText w (fieldPos f) (width f))[width f - 1 - j]? = some 'x' ∨
      (wcText w (fieldPos f) (width f))[width f - 1 - j]? = some (if p.bit f j then '1' else '0') := by
  constructor
  · intro h f hf j hj
    have hle := fieldPos_le hf
    rw [wcText_get _ _ _ _ hj]
    simp only [Option.some.injEq]
    exact (tbitChar_allows hv (by omega) _).mp (h _ (by omega))
  · intro h k hk
    by_cases h3 : 3 ≤ k
    · obtain ⟨f, hf, h1, h2⟩ := exists_field h3 hk
      have := h f hf (k - fieldPos f) (by omega)
      rw [wcText_get _ _ _ _ (by omega)] at this
      simp only [Option.some.injEq, Packet.bit, show fieldPos f + (k - fieldPos f) = k by omega] at this
      exact (tbitChar_allows hv hk _).mpr this
    · apply hp
      cases p k <;> simp <;> omega

theorem intercalate_inj {sep : List Char} : ∀ {a b : List (List Char)}, a.map List.length = b.map List.length →
    sep.intercalate a = sep.intercalate b → a = b := by
  intro a
  induction a with
  | nil => intro b h _; cases b with
    | nil => rfl
    | cons => simp at h
  | cons x a ih =>
    intro b h e
    cases b with
    | nil => simp at h
    | cons y b =>
      simp only [List.map_cons, List.cons.injEq] at h
      cases a with
      | nil =>
        cases b with
        | nil => simpa [List.intercalate] using e
        | cons => simp at h
      | cons x2 a =>
        cases b with
        | nil => simp at h
        | cons y2 b =>
          have ex : sep.intercalate (x :: x2 :: a) = x ++ (sep ++ sep.intercalate (x2 :: a)) := by
            simp [List.intercalate, List.intersperse]
          have ey : sep.intercalate (y :: y2 :: b) = y ++ (sep ++ sep.intercalate (y2 :: b)) := by
            simp [List.intercalate, List.intersperse]
          rw [ex, ey] at e
          obtain ⟨e1, e2⟩ := List.append_inj e h.1
          have e3 := List.append_cancel_left e2
          rw [e1, ih h.2 e3]

/-- C76: different wildcards have different texts. -/
theorem C76_injective {w w' : Nat} {s : List Char} (hv : WcValid totBits w) (hp : PadFull w) (hv' : WcValid totBits w') (hp' : PadFull w')
    (h : wildcardToString (.int w) = .ok s) (h' : wildcardToString (.int w') = .ok s) : w = w' := by
  rw [wildcardToString_int hv hp] at h
  rw [wildcardToString_int hv' hp'] at h'
  cases h
  simp only [Except.ok.injEq] at h'
  have e := intercalate_inj (by
    simp only [allTexts, List.map_map]
    apply List.map_congr_left
    intro f _
    simp [wcText_length]) h'
  apply wc_ext hv hv'
  intro p
  rw [C76_reads hv hp, C76_reads hv' hp']
  have e2 : ∀ f, f < 56 → wcText w' (fieldPos f) (width f) = wcText w (fieldPos f) (width f) := by
    intro f hf
    have := List.map_inj_left.mp e f (by simp; exact hf)
    have := List.append_cancel_left this
    exact (List.cons.inj this).2
  constructor
  · intro h f hf j hj; rw [e2 f hf]; exact h f hf j hj
  · intro h f hf j hj; have := h f hf j hj; rwa [e2 f hf] at this

theorem oddMask_pad (w : Nat) (i : Nat) : (w ||| ((1 <<< (3 * 2)) - 1)).testBit i = (w.testBit i || decide (i < 6)) := by
  rw [Nat.testBit_or, Nat.shiftLeft_eq, Nat.one_mul, Nat.testBit_two_pow_sub_one]

theorem wildcardZero_bit (k : Nat) (c : Bool) (hk : k < totBits) :
    wildcardZero.testBit (2 * k + c.toNat) = (decide (k < 3) || !c) := by
  unfold wildcardZero
  rw [extraPadding_eq, oddMask_pad, bytesNeeded_eq, testBit_oddMask]
  cases c <;> simp <;> omega

theorem wildcardOne_bit (k : Nat) (c : Bool) (hk : k < totBits) :
    wildcardOne.testBit (2 * k + c.toNat) = (decide (k < 3) || c) := by
  unfold wildcardOne
  rw [extraPadding_eq, oddMask_pad, bytesNeeded_eq, Nat.testBit_shiftLeft, testBit_oddMask]
  cases c
  · rw [Bool.eq_iff_iff]
    simp
    omega
  · simp; omega

/-- C76: `flow_wildcard_zero()` covers the packets with every bit of every field 0. -/
theorem C76_zero (p : Packet) : Covers totBits wildcardZero p ↔ ∀ f, f < 56 → ∀ j, j < width f → p.bit f j = false := by
  unfold Covers
  constructor
  · intro h f hf j hj
    have h1 := fieldPos_le hf
    have h2 := fieldPos_ge hf
    have := h (fieldPos f + j) (by omega)
    rw [wildcardZero_bit _ _ (by omega)] at this
    simp only [Bool.or_eq_true, decide_eq_true_eq, Bool.not_eq_true'] at this
    rcases this with h | h
    · omega
    · exact h
  · intro h k hk
    rw [wildcardZero_bit _ _ hk]
    by_cases h3 : 3 ≤ k
    · obtain ⟨f, hf, h1, h2⟩ := exists_field h3 hk
      have := h f hf (k - fieldPos f) (by omega)
      simp only [Packet.bit, show fieldPos f + (k - fieldPos f) = k by omega] at this
      simp [this]
    · simp; omega

/-- C76: `flow_wildcard_one()` covers the packets with every bit of every field 1. -/
theorem C76_one (p : Packet) : Covers totBits wildcardOne p ↔ ∀ f, f < 56 → ∀ j, j < width f → p.bit f j = true := by
  unfold Covers
  constructor
  · intro h f hf j hj
    have h1 := fieldPos_le hf
    have h2 := fieldPos_ge hf
    have := h (fieldPos f + j) (by omega)
    rw [wildcardOne_bit _ _ (by omega)] at this
    simp only [Bool.or_eq_true, decide_eq_true_eq] at this
    rcases this with h | h
    · omega
    · exact h
  · intro h k hk
    rw [wildcardOne_bit _ _ hk]
    by_cases h3 : 3 ≤ k
    · obtain ⟨f, hf, h1, h2⟩ := exists_field h3 hk
      have := h f hf (k - fieldPos f) (by omega)
      simp only [Packet.bit, show fieldPos f + (k - fieldPos f) = k by omega] at this
      simp [this]
    · simp; omega

theorem wcText_x {w pos n i : Nat} (h : i < n) : (wcText w pos n).reverse[i]? = some (tbitChar w (pos + i)) := by
  unfold wcText
  rw [← List.map_reverse, List.reverse_reverse, List.getElem?_map, List.getElem?_range h]
  rfl

/-- Specification: tbit `i` is not x. -/
def IsSet (w i : Nat) : Prop := tbitChar w i = '0' ∨ tbitChar w i = '1'

theorem lastSet_none {w pos n : Nat} (h : lastSet (wcText w pos n) = none) : ∀ i, i < n → ¬ IsSet w (pos + i) := by
  intro i hi hs
  unfold lastSet at h
  dsimp only at h
  split at h
  · cases h
  · rename_i hn
    rw [wcText_length] at hn
    have hlen : (wcText w pos n).reverse.length = n := by rw [List.length_reverse, wcText_length]
    have hx := wcText_x (w := w) (pos := pos) hi
    obtain ⟨hi', hg⟩ := List.getElem?_eq_some_iff.mp hx
    have hm : tbitChar w (pos + i) ∈ (wcText w pos n).reverse := hg ▸ List.getElem_mem hi'
    have := List.findIdx_lt_length_of_exists (p := fun c => c == '0' || c == '1') ⟨_, hm, by
      rcases hs with hs | hs <;> simp [hs]⟩
    omega

theorem lastSet_some {w pos n i : Nat} (h : lastSet (wcText w pos n) = some i) :
    i < n ∧ IsSet w (pos + (n - i - 1)) ∧ ∀ j, j < n - i - 1 → ¬ IsSet w (pos + j) := by
  unfold lastSet at h
  dsimp only at h
  split at h
  · rename_i hn
    simp only [Option.some.injEq] at h
    rw [wcText_length] at hn h
    have hlen : (wcText w pos n).reverse.length = n := by rw [List.length_reverse, wcText_length]
    have e : n - i - 1 = (wcText w pos n).reverse.findIdx fun c => c == '0' || c == '1' := by omega
    refine ⟨by omega, ?_, ?_⟩
    · rw [e]
      have := List.findIdx_getElem (p := fun c => c == '0' || c == '1') (xs := (wcText w pos n).reverse) (w := by omega)
      have hx := wcText_x (w := w) (pos := pos) (i := (wcText w pos n).reverse.findIdx fun c => c == '0' || c == '1') hn
      obtain ⟨hi', hg⟩ := List.getElem?_eq_some_iff.mp hx
      rw [hg] at this
      simpa [IsSet] using this
    · intro j hj hs
      rw [e] at hj
      have := List.not_of_lt_findIdx hj
      have hx := wcText_x (w := w) (pos := pos) (n := n) (i := j) (by omega)
      obtain ⟨hi', hg⟩ := List.getElem?_eq_some_iff.mp hx
      rw [hg] at this
      rcases hs with hs | hs <;> simp [hs] at this
  · cases h

/-- C76, negation: of an int, which is what wildcards are, the text of a field cannot be read. -/
theorem C76_read_fails (w : Nat) (name : String) : readField (.int w) name = .error .typeError := rfl

/-- C76, negation: of an int `find_smallest_set_bit` raises TypeError instead of returning a bit. -/
theorem C76_find_fails {w : Nat} (hv : WcValid totBits w) (hp : PadFull w) : findSmallestSetBit (.int w) = .error .typeError := by
  simp only [findSmallestSetBit, wildcardToTint, dropPadding_ok hp, bind, Except.bind, wcIntToString_ok (valid_drop hv)]
  split <;> rfl

/-- C76 for sequences of words: if `find_smallest_set_bit` returns at all, then the lowest bit of the header that is not x, or -1 if there is none.
Missing: it can raise an exception (`C76_wrong_find`) and it changes its argument. -/
theorem C76_find_partial {l : List Nat} {wc' : WcArg} {r : Option Nat} (hv : WcValid totBits (joinWords l)) (h : findSmallestSetBit (.words l) = .ok (wc', r)) :
    match r with
    | some i => i < fieldsBitWidth ∧ IsSet (joinWords l) (3 + i) ∧ ∀ j, j < i → ¬ IsSet (joinWords l) (3 + j)
    | none => ∀ j, j < fieldsBitWidth → ¬ IsSet (joinWords l) (3 + j) := by
  unfold findSmallestSetBit wildcardToTint at h
  by_cases hl : l.length = bytesNeeded
  · simp only [if_pos hl] at h
    by_cases hp : PadFull (joinWords l)
    · simp only [dropPadding_ok hp, bind, Except.bind, wcIntToString_ok (valid_drop hv), wcText_shift, wcText_length] at h
      cases hs : lastSet (wcText (joinWords l) (3 + 0) fieldsBitWidth) with
      | none =>
        rw [hs] at h
        simp only at h
        split at h
        · cases h
        · cases h
          exact lastSet_none hs
      | some i =>
        rw [hs] at h
        simp only at h
        split at h
        · cases h
        · cases h
          have := lastSet_some hs
          exact ⟨by omega, this.2⟩
    · rw [dropPadding_fail hp] at h; cases h
  · simp only [if_neg hl] at h; cases h

/-- Example: everything x but bits 25 and 26, which are 0 and 1; they lie in the fourth word. -/
def exWords : List Nat := [0xFFFF, 0xFFFF, 0xFFFF, 0xFFF9] ++ List.replicate 194 0xFFFF

theorem findField_eq : ∀ f, f < 56 → findField (nameOf f) 3 allFields.reverse = some (fieldPos f, width f) := by decide +kernel

/-- C76 for sequences of words: `flow_wildcard_read_field` reads as many bits as the field has, but it reads them from the start of the word in which the field
begins plus the number of bits left over in the word in which it ends. -/
theorem C76_read_words {l : List Nat} (hl : l.length = bytesNeeded) (h16 : ∀ x ∈ l, x < 2 ^ 16) (hv : WcValid totBits (joinWords l)) (hp : PadFull (joinWords l))
    {f : Nat} (hf : f < 56) :
    readField (.words l) (nameOf f) = .ok (some (wcText (joinWords l)
      (fieldPos f / 8 * 8 + ((fieldPos f + width f + 7) / 8 * 8 - (fieldPos f + width f))) (width f))) := by
  have hb : bytesNeeded = 198 := by decide +kernel
  have ht : totBits = 1584 := rfl
  have hle := fieldPos_le hf
  have hpad : ((1 <<< (3 * 2)) - 1) &&& (l.headD 0) = (1 <<< (3 * 2)) - 1 := by
    apply Nat.eq_of_testBit_eq
    intro i
    have e : ((1 <<< (3 * 2)) - 1).testBit i = decide (i < 6) := by
      rw [Nat.one_shiftLeft, Nat.testBit_two_pow_sub_one]
    rw [Nat.testBit_and, e]
    by_cases hi : i < 6
    · have := hp i hi
      rw [testBit_joinWords h16, show i / 16 = 0 by omega, show i % 16 = i by omega] at this
      have e2 : l.headD 0 = l.getD 0 0 := by cases l <;> rfl
      rw [e2, this]
      simp
    · simp [hi]
  unfold readField
  simp only [extraPadding_eq, findField_eq f hf]
  rw [if_neg (by omega), if_neg (by omega), if_neg (by rw [hpad]; simp)]
  generalize hs : fieldPos f / 8 = s
  generalize hd : (fieldPos f + width f + 7) / 8 = d
  generalize hr : d * 8 - (fieldPos f + width f) = r
  have hbit : ∀ i, i < 2 * width f →
      ((joinWords ((l.drop s).take (d - s)) >>> (r * 2)) &&& ((1 <<< (width f * 2)) - 1)).testBit i = (joinWords l).testBit (2 * (s * 8 + r) + i) := by
    intro i hi
    have h16' : ∀ x ∈ (l.drop s).take (d - s), x < 2 ^ 16 := fun x hx => h16 x (List.mem_of_mem_drop (List.mem_of_mem_take hx))
    rw [Nat.testBit_and, Nat.testBit_shiftRight, Nat.one_shiftLeft, Nat.testBit_two_pow_sub_one, testBit_joinWords h16', testBit_joinWords h16]
    rw [decide_eq_true (by omega), Bool.and_true]
    have e1 : (r * 2 + i) % 16 = (2 * (s * 8 + r) + i) % 16 := by omega
    have e2 : (2 * (s * 8 + r) + i) / 16 = s + (r * 2 + i) / 16 := by omega
    rw [e1, e2, List.getD_eq_getElem?_getD, List.getElem?_take_of_lt (by omega), List.getElem?_drop, ← List.getD_eq_getElem?_getD]
  have hval : WcValid (width f) ((joinWords ((l.drop s).take (d - s)) >>> (r * 2)) &&& ((1 <<< (width f * 2)) - 1)) := by
    constructor
    · rw [Nat.one_shiftLeft, Nat.and_two_pow_sub_one_eq_mod, Nat.mul_comm 2]
      exact Nat.mod_lt _ (Nat.two_pow_pos _)
    · intro i hi
      rw [hbit _ (by omega), hbit _ (by omega)]
      have := hv.noZ (s * 8 + r + i) (by omega)
      rw [show 2 * (s * 8 + r) + 2 * i = 2 * (s * 8 + r + i) by omega, show 2 * (s * 8 + r) + (2 * i + 1) = 2 * (s * 8 + r + i) + 1 by omega]
      exact this
  rw [wcIntToString_ok hval]
  simp only [Except.map, Except.ok.injEq, Option.some.injEq]
  unfold wcText
  apply List.map_congr_left
  intro j hj
  have hj : j < width f := by simpa using hj
  unfold tbitChar
  rw [Nat.zero_add, hbit _ (by omega), hbit _ (by omega), show 2 * (s * 8 + r) + 2 * j = 2 * (s * 8 + r + j) by omega,
    show 2 * (s * 8 + r) + (2 * j + 1) = 2 * (s * 8 + r + j) + 1 by omega]

/-- C76 for sequences of words: the text of a field is read if as many bits of its first word are left over before it as of its last word after it.
Missing: the other fields (`C76_wrong_read`) and wildcards that are ints (`C76_read_fails`). -/
theorem C76_read_partial {l : List Nat} (hl : l.length = bytesNeeded) (h16 : ∀ x ∈ l, x < 2 ^ 16) (hv : WcValid totBits (joinWords l)) (hp : PadFull (joinWords l))
    {f : Nat} (hf : f < 56) (hword : (2 * fieldPos f + width f) % 8 = 0) :
    readField (.words l) (nameOf f) = .ok (some (wcText (joinWords l) (fieldPos f) (width f))) := by
  rw [C76_read_words hl h16 hv hp hf]
  congr 3
  omega

/-- Example for `C76_read_words` and `C76_read_partial`: TCP_DST begins and ends at a word boundary, VLAN_VID only ends at one. -/
example : exWords.length = bytesNeeded ∧ (∀ x ∈ exWords, x < 2 ^ 16) ∧ WcValid totBits (joinWords exWords) ∧ PadFull (joinWords exWords) ∧
    nameOf 14 = "TCP_DST" ∧ (2 * fieldPos 14 + width 14) % 8 = 0 ∧ nameOf 6 = "VLAN_VID" ∧ (2 * fieldPos 6 + width 6) % 8 = 3 := by
  have h16 : ∀ x ∈ exWords, x < 2 ^ 16 := by decide +kernel
  exact ⟨by decide +kernel, h16, ⟨by decide +kernel, by decide +kernel⟩, by unfold PadFull; decide +kernel, by decide +kernel, by decide +kernel,
    by decide +kernel, by decide +kernel⟩

/-- C76, negation for words: the text of a field that does not end at a word boundary is read from the wrong place: the two bits of PBB_ISID2 that are set
appear two bits too low. -/
theorem C76_wrong_read :
    readField (.words exWords) "PBB_ISID2" = .ok (some "xxx10xxxxxxxxxxxxxxxxxxx".toList) ∧
    wcText (joinWords exWords) (fieldPos 55) (width 55) = "x10xxxxxxxxxxxxxxxxxxxxx".toList := by decide +kernel

/-- C76, negation for words: `find_smallest_set_bit` raises AssertionError on `exWords`, as it looks at another bit than the one it found, and IndexError if
all bits are x. -/
theorem C76_wrong_find : findSmallestSetBit (.words exWords) = .error .assertion ∧
    findSmallestSetBit (.words (List.replicate 198 0xFFFF)) = .error .indexError := by decide +kernel

/-- The zero wildcard is a wildcard with padding. -/
theorem wildcardZero_valid : WcValid totBits wildcardZero ∧ PadFull wildcardZero := by
  refine ⟨⟨?_, fun i hi => Or.inl ?_⟩, fun j hj => ?_⟩
  · decide +kernel
  · have := wildcardZero_bit i false hi
    simpa using this
  · unfold wildcardZero
    rw [extraPadding_eq, oddMask_pad]
    simp [hj]

/-- Example for `C76_string`: the wildcard with all bits 0. -/
example : ∃ s, wildcardToString (.int wildcardZero) = .ok s := ⟨_, C76_string wildcardZero_valid.1 wildcardZero_valid.2⟩

/-- Example for `C76_reads`: packet 0 is covered by it. -/
example : Covers totBits wildcardZero (fun _ => false) ∧ ¬ Covers totBits wildcardZero (fun i => i == 700) := by
  constructor
  · rw [C76_zero]; intros; rfl
  · intro h
    have := h 700 (by decide)
    rw [wildcardZero_bit _ _ (by decide)] at this
    simp at this

example : (joinWords exWords).testBit 48 = true ∧ (joinWords exWords).testBit 49 = false := by
  constructor <;> rw [C76_words_bits (by decide +kernel)] <;> decide +kernel

/-- Example for `C76_int_to_string`: x0100xx. -/
example : WcValid 7 0x369F ∧ wcIntToString 0x369F = .ok "x0110xx".toList := ⟨⟨by decide, by decide⟩, by decide +kernel⟩

/-- Example for `C76_one`. -/
example : Covers totBits wildcardOne (fun _ => true) ∧ ¬ Covers totBits wildcardOne (fun i => i == 3) := by
  constructor
  · rw [C76_one]; intros; rfl
  · intro h
    have := h 4 (by decide)
    rw [wildcardOne_bit _ _ (by decide)] at this
    simp at this

/-- Example: bits 0 and 12 of the header are 0. -/
def exFind : List Nat := [0xFF7F, 0x7FFF] ++ List.replicate 196 0xFFFF

/-- Example for `C76_find_partial`; C76, negation for words: bit 0 is found, and bit 12 of the caller's wildcard is changed to 1. -/
theorem C76_find_changes : findSmallestSetBit (.words exFind) = .ok (.words ([0xFF7F, 0xBFFF] ++ List.replicate 196 0xFFFF), some 0) := by
  decide +kernel

example : WcValid totBits (joinWords exFind) := ⟨by decide +kernel, by decide +kernel⟩

end OFE
