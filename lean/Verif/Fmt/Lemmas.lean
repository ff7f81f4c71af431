import Verif.Fmt.Model
import Mathlib.Data.List.Forall2

/-!
# Lemmas for numbers and addresses as text
-/

namespace OFE.Fmt

theorem digit_facts : ∀ d : Fin 16, digitVal (digitChar d.1) = d.1 ∧ digitChar d.1 ≠ ':' ∧ digitChar d.1 ≠ '.' ∧ digitChar d.1 ≠ 'x' ∧
    digitChar d.1 ≠ 'X' ∧ (digitChar d.1 = '0' → d.1 = 0) := by decide +kernel

theorem digitVal_digitChar {d : Nat} (h : d < 16) : digitVal (digitChar d) = d := (digit_facts ⟨d, h⟩).1

/-- Reading digits, beginning with `x`. -/
def readFrom (b x : Nat) (s : List Char) : Nat := s.foldl (fun x c => x * b + digitVal c) x

theorem readFrom_append (b x : Nat) (s t : List Char) : readFrom b x (s ++ t) = readFrom b (readFrom b x s) t := List.foldl_append ..

theorem digits_read {b : Nat} (hb : 2 ≤ b) (hb' : b ≤ 16) (n : Nat) : readFrom b 0 (digits b n) = n ∧ digits b n ≠ [] ∧ ∀ c ∈ digits b n, ∃ d, d < b ∧ c = digitChar d := by
  fun_induction digits b n with
  | case1 n h =>
    have hn : n < b := by omega
    refine ⟨?_, by simp, fun c hc => ⟨n, hn, by simpa using hc⟩⟩
    simp only [readFrom, List.foldl_cons, List.foldl_nil]
    rw [digitVal_digitChar (by omega)]; omega
  | case2 n h ih =>
    obtain ⟨i1, i2, i3⟩ := ih
    have hm : n % b < b := Nat.mod_lt _ (by omega)
    refine ⟨?_, by simp, fun c hc => ?_⟩
    · rw [readFrom_append, i1]
      simp only [readFrom, List.foldl_cons, List.foldl_nil]
      rw [digitVal_digitChar (by omega), Nat.mul_comm]
      exact Nat.div_add_mod n b
    · rcases List.mem_append.1 hc with hc | hc
      · exact i3 c hc
      · exact ⟨n % b, hm, by simpa using hc⟩

theorem readNum_digits {b : Nat} (hb : 2 ≤ b) (hb' : b ≤ 16) (n : Nat) : readNum b (digits b n) = .ok n := by
  obtain ⟨h1, h2, h3⟩ := digits_read hb hb' n
  have h4 : ∀ c ∈ digits b n, digitVal c < b := by
    intro c hc
    obtain ⟨d, hd, rfl⟩ := h3 c hc
    rw [digitVal_digitChar (by omega)]; exact hd
  unfold readNum
  rw [if_pos ⟨h2, h4⟩]
  exact congrArg _ h1

theorem digits_no {b : Nat} (hb : 2 ≤ b) (hb' : b ≤ 16) (n : Nat) : ':' ∉ digits b n ∧ '.' ∉ digits b n := by
  obtain ⟨-, -, h3⟩ := digits_read hb hb' n
  constructor
  · intro h
    obtain ⟨d, hd, e⟩ := h3 _ h
    exact (digit_facts ⟨d, by omega⟩).2.1 e.symm
  · intro h
    obtain ⟨d, hd, e⟩ := h3 _ h
    exact (digit_facts ⟨d, by omega⟩).2.2.1 e.symm

/-- No leading zero. -/
theorem digits_head {b : Nat} (hb : 2 ≤ b) (hb' : b ≤ 16) (n : Nat) (hn : 0 < n) : ∃ d t, digits b n = digitChar d :: t ∧ 0 < d ∧ d < b := by
  fun_induction digits b n with
  | case1 n h => exact ⟨n, [], rfl, hn, by omega⟩
  | case2 n h ih =>
    obtain ⟨d, t, e, h1, h2⟩ := ih (Nat.div_pos (by omega) (by omega))
    exact ⟨d, t ++ [digitChar (n % b)], by rw [e]; rfl, h1, h2⟩

theorem digits_length_pos (b n : Nat) : 0 < (digits b n).length := by
  rw [digits]; split <;> simp

/-- The last digit of a padded number. -/
theorem padHex_succ {w : Nat} (hw : 0 < w) (n : Nat) : padHex (w + 1) n = padHex w (n / 16) ++ [digitChar (n % 16)] := by
  unfold padHex
  by_cases h : n < 16
  · have e1 : digits 16 n = [digitChar n] := by rw [digits, if_pos (.inl h)]
    have e2 : digits 16 (n / 16) = ['0'] := by rw [show n / 16 = 0 from by omega, digits, if_pos (.inl (by omega))]; decide
    rw [e1, e2, show n % 16 = n from by omega]
    congr 1
    simp only [List.length_singleton]
    rw [← List.replicate_succ', show w - 1 + 1 = w from by omega, show w + 1 - 1 = w from rfl]
  · have e1 : digits 16 n = digits 16 (n / 16) ++ [digitChar (n % 16)] := by rw [digits, if_neg (by omega)]
    rw [e1, List.length_append, List.length_singleton, show w + 1 - ((digits 16 (n / 16)).length + 1) = w - (digits 16 (n / 16)).length from by omega,
      List.append_assoc]

theorem padHex_one {n : Nat} (h : n < 16) : padHex 1 n = [digitChar n] := by
  unfold padHex
  rw [show digits 16 n = [digitChar n] from by rw [digits, if_pos (.inl h)]]
  rfl

/-- Two digits. -/
theorem readNum_pair {a b : Nat} (ha : a < 16) (hb : b < 16) : readNum 16 [digitChar a, digitChar b] = .ok (16 * a + b) := by
  have h4 : ∀ c ∈ [digitChar a, digitChar b], digitVal c < 16 := by
    intro c hc
    simp only [List.mem_cons, List.not_mem_nil, or_false] at hc
    rcases hc with rfl | rfl
    · rw [digitVal_digitChar ha]; exact ha
    · rw [digitVal_digitChar hb]; exact hb
  unfold readNum
  rw [if_pos ⟨by simp, h4⟩]
  simp only [List.foldl_cons, List.foldl_nil, digitVal_digitChar ha, digitVal_digitChar hb]
  congr 1; omega

/-! ### Splitting -/

theorem splitAt_ne_nil (sep : Char) (s : List Char) : splitAt sep s ≠ [] := by
  cases s with
  | nil => simp [splitAt]
  | cons c r =>
    rw [splitAt]
    split
    · simp
    · split <;> simp

theorem splitAt_none {sep : Char} {s : List Char} (h : sep ∉ s) : splitAt sep s = [s] := by
  induction s with
  | nil => rfl
  | cons c r ih =>
    have hc : c ≠ sep := fun e => h (e ▸ List.mem_cons_self)
    rw [splitAt, if_neg hc, ih fun hm => h (List.mem_cons_of_mem _ hm)]

theorem splitAt_part {sep : Char} {s : List Char} (h : sep ∉ s) (r : List Char) : splitAt sep (s ++ sep :: r) = s :: splitAt sep r := by
  induction s with
  | nil => rw [List.nil_append, splitAt, if_pos rfl]
  | cons c s ih =>
    have hc : c ≠ sep := fun e => h (e ▸ List.mem_cons_self)
    rw [List.cons_append, splitAt, if_neg hc, ih fun hm => h (List.mem_cons_of_mem _ hm)]

theorem splitAt_join {sep : Char} {ps : List (List Char)} (hne : ps ≠ []) (h : ∀ p ∈ ps, sep ∉ p) : splitAt sep (joinWith sep ps) = ps := by
  induction ps with
  | nil => exact absurd rfl hne
  | cons p ps ih =>
    cases ps with
    | nil => exact splitAt_none (h p List.mem_cons_self)
    | cons q rest =>
      rw [joinWith, splitAt_part (h p List.mem_cons_self), ih (by simp) fun x hx => h x (List.mem_cons_of_mem _ hx)]

theorem splitAt_join_sep {sep : Char} {ps : List (List Char)} (hne : ps ≠ []) (h : ∀ p ∈ ps, sep ∉ p) (r : List Char) :
    splitAt sep (joinWith sep ps ++ sep :: r) = ps ++ splitAt sep r := by
  induction ps with
  | nil => exact absurd rfl hne
  | cons p ps ih =>
    cases ps with
    | nil => exact splitAt_part (h p List.mem_cons_self) r
    | cons q rest =>
      rw [joinWith, List.append_assoc, List.cons_append, splitAt_part (h p List.mem_cons_self), ih (by simp) fun x hx => h x (List.mem_cons_of_mem _ hx)]
      rfl

theorem splitAt_replicate {sep : Char} (m : Nat) (r : List Char) : splitAt sep (List.replicate m sep ++ r) = List.replicate m [] ++ splitAt sep r := by
  induction m with
  | zero => rfl
  | succ m ih => rw [List.replicate_succ, List.cons_append, splitAt, if_pos rfl, ih]; rfl

theorem mem_join {sep c : Char} {ps : List (List Char)} (h : c ∈ joinWith sep ps) : c = sep ∨ ∃ p ∈ ps, c ∈ p := by
  induction ps with
  | nil => cases h
  | cons p ps ih =>
    cases ps with
    | nil => exact .inr ⟨p, List.mem_cons_self, h⟩
    | cons q rest =>
      rw [joinWith] at h
      rcases List.mem_append.1 h with h | h
      · exact .inr ⟨p, List.mem_cons_self, h⟩
      · rcases List.mem_cons.1 h with h | h
        · exact .inl h
        · rcases ih h with h | ⟨x, hx, h⟩
          · exact .inl h
          · exact .inr ⟨x, List.mem_cons_of_mem _ hx, h⟩

/-! ### Double colons -/

/-- Every colon is followed by something else than a colon. -/
def Clean : List Char → Prop
  | [] => True
  | [c] => c ≠ ':'
  | c :: d :: r => (c = ':' → d ≠ ':') ∧ Clean (d :: r)

theorem clean_part {p : List Char} (h : ':' ∉ p) : Clean p := by
  induction p with
  | nil => trivial
  | cons c p ih =>
    have hc : c ≠ ':' := fun e => h (e ▸ List.mem_cons_self)
    cases p with
    | nil => exact hc
    | cons d r => exact ⟨fun e => absurd e hc, ih fun hm => h (List.mem_cons_of_mem _ hm)⟩

theorem clean_append {p : List Char} (h : ':' ∉ p) {c : Char} (hc : c ≠ ':') {r : List Char} (hr : Clean (c :: r)) : Clean (p ++ ':' :: c :: r) := by
  induction p with
  | nil => exact ⟨fun _ => hc, hr⟩
  | cons d p ih =>
    have hd : d ≠ ':' := fun e => h (e ▸ List.mem_cons_self)
    have ih' := ih fun hm => h (List.mem_cons_of_mem _ hm)
    cases p with
    | nil => exact ⟨fun e => absurd e hd, ih'⟩
    | cons e q => exact ⟨fun e => absurd e hd, ih'⟩

theorem clean_join {ps : List (List Char)} (h : ∀ p ∈ ps, p ≠ [] ∧ ':' ∉ p) : Clean (joinWith ':' ps) := by
  induction ps with
  | nil => trivial
  | cons p ps ih =>
    cases ps with
    | nil => exact clean_part (h p List.mem_cons_self).2
    | cons q rest =>
      rw [joinWith]
      have ih' := ih fun x hx => h x (List.mem_cons_of_mem _ hx)
      have hq := h q (List.mem_cons_of_mem _ List.mem_cons_self)
      have hhead : ∃ c r, joinWith ':' (q :: rest) = c :: r ∧ c ≠ ':' := by
        obtain ⟨hq1, hq2⟩ := hq
        cases q with
        | nil => exact absurd rfl hq1
        | cons c q' =>
          cases rest with
          | nil => exact ⟨c, q', rfl, fun e => hq2 (e ▸ List.mem_cons_self)⟩
          | cons s rest => exact ⟨c, _, rfl, fun e => hq2 (e ▸ List.mem_cons_self)⟩
      obtain ⟨c, r, e, hc⟩ := hhead
      rw [e] at ih' ⊢
      exact clean_append (h p List.mem_cons_self).2 hc ih'

theorem hasDouble_clean {s : List Char} (h : Clean s) : hasDouble s = false := by
  induction s with
  | nil => rfl
  | cons c r ih =>
    cases r with
    | nil => rfl
    | cons d r =>
      obtain ⟨h1, h2⟩ := h
      rw [hasDouble, ih h2, Bool.or_false, Bool.and_eq_false_iff]
      by_cases hc : c = ':'
      · exact .inr (by simpa using h1 hc)
      · exact .inl (by simpa using hc)

theorem hasDouble_append (s r : List Char) : hasDouble (s ++ ':' :: ':' :: r) = true := by
  induction s with
  | nil => rfl
  | cons c s ih =>
    cases s with
    | nil => rw [List.cons_append, List.nil_append, hasDouble]; simp [hasDouble]
    | cons d s => rw [List.cons_append, List.cons_append, hasDouble, ← List.cons_append, ih, Bool.or_true]

theorem replaceDouble_clean {s : List Char} (h : Clean s) (r : List Char) : replaceDouble (s ++ ':' :: ':' :: r) = s ++ ':' :: ':' :: ':' :: r := by
  induction s with
  | nil => rfl
  | cons c s ih =>
    cases s with
    | nil =>
      have hc : c ≠ ':' := h
      rw [List.cons_append, List.nil_append, replaceDouble]
      · rfl
      · rintro rest rfl; exact absurd rfl hc
    | cons d s =>
      obtain ⟨h1, h2⟩ := h
      have := ih h2
      rw [List.cons_append] at this
      rw [List.cons_append, List.cons_append, replaceDouble, this]
      · rfl
      · rintro rest e1 e2
        cases e2
        exact h1 e1 rfl

/-! ### Groups -/

theorem groupsLoop_spec (ps : List (List Char)) (ns : List Nat)
    (h : List.Forall₂ (fun p n => readNum 16 (if p = [] then ['0'] else p) = .ok n ∧ n ≤ 0xFFFF) ps ns) :
    ∀ R, groupsLoop ps (R * 2 ^ (16 * ps.length)) = .ok (ns.foldl (fun x g => x * 65536 + g) R) := by
  induction h with
  | nil => intro R; simp [groupsLoop]
  | @cons p n ps ns hpn hrest ih =>
    intro R
    obtain ⟨e, hn⟩ := hpn
    rw [groupsLoop, e]
    simp only [bind, Except.bind]
    rw [if_pos hn, List.foldl_cons, ← ih]
    congr 1
    rw [List.length_cons, Nat.shiftLeft_eq, show 16 * (ps.length + 1) = 16 + 16 * ps.length from by omega, Nat.pow_add]
    have h1 : R * (2 ^ 16 * 2 ^ (16 * ps.length)) = (R * 2 ^ 16) <<< (16 * ps.length) := by rw [Nat.shiftLeft_eq, Nat.mul_assoc]
    have h2 : n * 2 ^ (16 * ps.length) = n <<< (16 * ps.length) := (Nat.shiftLeft_eq ..).symm
    rw [h1, h2, ← Nat.shiftLeft_or_distrib, ← Nat.shiftLeft_eq R 16,
      ← Nat.shiftLeft_add_eq_or_of_lt (show n < 2 ^ 16 by omega), Nat.shiftLeft_eq, Nat.shiftLeft_eq]

end OFE.Fmt
