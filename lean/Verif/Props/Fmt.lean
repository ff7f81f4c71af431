import Verif.Fmt.Lemmas

/-!
# Properties of the conversions between numbers and text (C50, C60)
-/

namespace OFE.Fmt

theorem readAuto_sep {s : List Char} {c : Char} (hc : c = '.' ∨ c = ':' ∨ c = '-') (h : c ∈ s) : readAuto s = .error .valueError := by
  have hv : digitVal c = 99 := by rcases hc with rfl | rfl | rfl <;> decide
  have hb : ∀ {b : Nat} {t : List Char}, b ≤ 16 → c ∈ t → readNum b t = .error .valueError := by
    intro b t hb ht
    unfold readNum
    rw [if_neg]
    rintro ⟨-, h⟩
    have := h c ht
    omega
  have h0 : c ≠ '0' ∧ c ≠ 'x' ∧ c ≠ 'X' := by rcases hc with rfl | rfl | rfl <;> decide
  unfold readAuto
  split
  · exact hb (by omega) (by simpa [h0] using h)
  · exact hb (by omega) (by simpa [h0] using h)
  · rename_i rest _ _
    have hr : c ∈ rest := by simpa [h0] using h
    rw [if_neg fun hall => h0.1 (hall c hr)]
  · exact hb (by omega) h

/-! ### C50 -/

/-- The four parts of an IPv4 address. -/
theorem formatIpv4_eq {v : Nat} (hv : v < 2 ^ 32) :
    formatIpv4 v = joinWith '.' [digits 10 (v / 2 ^ 24), digits 10 (v / 2 ^ 16 % 256), digits 10 (v / 2 ^ 8 % 256), digits 10 (v % 256)] := by
  unfold formatIpv4
  rw [padHex_succ (by omega), padHex_succ (by omega), padHex_succ (by omega), padHex_succ (by omega), padHex_succ (by omega),
    padHex_succ (by omega), padHex_succ (by omega), padHex_one (by omega)]
  simp only [List.cons_append, List.nil_append, pairs, List.map_cons, List.map_nil]
  rw [readNum_pair (by omega) (by omega), readNum_pair (by omega) (by omega), readNum_pair (by omega) (by omega), readNum_pair (by omega) (by omega)]
  have e1 : 16 * (v / 16 / 16 / 16 / 16 / 16 / 16 / 16) + v / 16 / 16 / 16 / 16 / 16 / 16 % 16 = v / 2 ^ 24 := by omega
  have e2 : 16 * (v / 16 / 16 / 16 / 16 / 16 % 16) + v / 16 / 16 / 16 / 16 % 16 = v / 2 ^ 16 % 256 := by omega
  have e3 : 16 * (v / 16 / 16 / 16 % 16) + v / 16 / 16 % 16 = v / 2 ^ 8 % 256 := by omega
  have e4 : 16 * (v / 16 % 16) + v % 16 = v % 256 := by omega
  simp only [e1, e2, e3, e4]

/-- C50 for IPv4. -/
theorem C50_ipv4 (v : Nat) (hv : v < 2 ^ 32) : normaliseBytes (formatIpv4 v) = .ok v ∧ normaliseString (formatIpv4 v) = .ok v := by
  have hb : normaliseBytes (formatIpv4 v) = .ok v := by
    rw [formatIpv4_eq hv]
    have hn := fun n => digits_no (b := 10) (by omega) (by omega) n
    have hcolon : ':' ∉ joinWith '.' [digits 10 (v / 2 ^ 24), digits 10 (v / 2 ^ 16 % 256), digits 10 (v / 2 ^ 8 % 256), digits 10 (v % 256)] := by
      intro h
      rcases mem_join h with h | ⟨p, hp, h⟩
      · exact absurd h (by decide)
      · simp only [List.mem_cons, List.not_mem_nil, or_false] at hp
        rcases hp with rfl | rfl | rfl | rfl <;> exact (hn _).1 h
    have hsplit := splitAt_join (sep := '.') (ps := [digits 10 (v / 2 ^ 24), digits 10 (v / 2 ^ 16 % 256), digits 10 (v / 2 ^ 8 % 256), digits 10 (v % 256)])
      (by simp) (by
        intro p hp
        simp only [List.mem_cons, List.not_mem_nil, or_false] at hp
        rcases hp with rfl | rfl | rfl | rfl <;> exact (hn _).2)
    unfold normaliseBytes
    rw [splitAt_none hcolon]
    simp only [List.length_singleton]
    rw [if_neg (by omega), hsplit]
    simp only [List.length_cons, List.length_nil, if_true, readNum_digits (b := 10) (by omega) (by omega), bind, Except.bind]
    have hor : ∀ {a b : Nat}, a < 256 → b < 256 → a ||| b < 256 := fun ha hb => Nat.or_lt_two_pow (n := 8) ha hb
    have h1 : v / 2 ^ 24 ||| v / 2 ^ 16 % 256 ||| v / 2 ^ 8 % 256 ||| v % 256 ≤ 0xFF :=
      Nat.le_of_lt_succ (hor (hor (hor (by omega) (by omega)) (by omega)) (by omega))
    rw [if_pos h1]
    simp only [pure, Except.pure]
    congr 1
    have e3 : (v / 2 ^ 24) <<< 24 ||| (v / 2 ^ 16 % 256) <<< 16 = (v / 2 ^ 16) <<< 16 := by
      rw [← Nat.shiftLeft_add_eq_or_of_lt (by rw [Nat.shiftLeft_eq]; omega)]
      simp only [Nat.shiftLeft_eq]; omega
    have e2 : (v / 2 ^ 16) <<< 16 ||| (v / 2 ^ 8 % 256) <<< 8 = (v / 2 ^ 8) <<< 8 := by
      rw [← Nat.shiftLeft_add_eq_or_of_lt (by rw [Nat.shiftLeft_eq]; omega)]
      simp only [Nat.shiftLeft_eq]; omega
    have e1 : (v / 2 ^ 8) <<< 8 ||| v % 256 = v := by
      rw [← Nat.shiftLeft_add_eq_or_of_lt (by omega)]
      simp only [Nat.shiftLeft_eq]; omega
    rw [e3, e2, e1]
  refine ⟨hb, ?_⟩
  unfold normaliseString
  have : '.' ∈ formatIpv4 v := by
    rw [formatIpv4_eq hv]
    simp [joinWith]
  rw [readAuto_sep (.inl rfl) this]
  exact hb

/-- The six parts of an ethernet address. -/
theorem formatEthernet_eq {v : Nat} (hv : v < 2 ^ 48) : ∃ ps : List (List Char), formatEthernet v = joinWith ':' ps ∧ ps.length = 6 ∧
    ps.flatten = padHex 12 v ∧ ∀ p ∈ ps, p ≠ [] ∧ ':' ∉ p ∧ '.' ∉ p := by
  have h : padHex 12 v = padHex 12 v := rfl
  conv at h => rhs; rw [padHex_succ (by omega)]
  conv at h => rhs; rw [padHex_succ (by omega), padHex_succ (by omega), padHex_succ (by omega), padHex_succ (by omega), padHex_succ (by omega), padHex_succ (by omega),
    padHex_succ (by omega), padHex_succ (by omega), padHex_succ (by omega), padHex_succ (by omega), padHex_one (by omega)]
  simp only [List.cons_append, List.nil_append] at h
  have hd : ∀ {d : Nat}, d < 16 → digitChar d ≠ ':' ∧ digitChar d ≠ '.' := fun {d} hd => ⟨(digit_facts ⟨d, hd⟩).2.1, (digit_facts ⟨d, hd⟩).2.2.1⟩
  have hp : ∀ {a b : Nat}, a < 16 → b < 16 → [digitChar a, digitChar b] ≠ [] ∧ ':' ∉ [digitChar a, digitChar b] ∧ '.' ∉ [digitChar a, digitChar b] := by
    intro a b ha hb
    obtain ⟨a1, a2⟩ := hd ha
    obtain ⟨b1, b2⟩ := hd hb
    refine ⟨by simp, ?_, ?_⟩ <;> simp only [List.mem_cons, List.not_mem_nil, or_false, not_or]
    · exact ⟨fun e => a1 e.symm, fun e => b1 e.symm⟩
    · exact ⟨fun e => a2 e.symm, fun e => b2 e.symm⟩
  refine ⟨pairs (padHex 12 v), rfl, ?_⟩
  rw [h]
  simp only [pairs]
  refine ⟨rfl, rfl, fun p hpm => ?_⟩
  simp only [List.mem_cons, List.not_mem_nil, or_false] at hpm
  rcases hpm with rfl | rfl | rfl | rfl | rfl | rfl <;> exact hp (by omega) (by omega)

theorem padHex_read {w : Nat} (hw : 0 < w) (n : Nat) (hn : n < 16 ^ w) : readNum 16 (padHex w n) = .ok n := by
  have h : ∀ w, 0 < w → ∀ n, n < 16 ^ w → readFrom 16 0 (padHex w n) = n ∧ padHex w n ≠ [] ∧ ∀ c ∈ padHex w n, digitVal c < 16 := by
    intro w hw
    induction w with
    | zero => omega
    | succ w ih =>
      intro n hn
      by_cases h0 : w = 0
      · subst h0
        rw [padHex_one (by omega)]
        refine ⟨?_, by simp, fun c hc => ?_⟩
        · simp [readFrom, digitVal_digitChar (show n < 16 by omega)]
        · simp only [List.mem_cons, List.not_mem_nil, or_false] at hc
          subst hc
          rw [digitVal_digitChar (by omega)]; omega
      · rw [padHex_succ (by omega)]
        obtain ⟨i1, i2, i3⟩ := ih (by omega) (n / 16) (by rw [Nat.pow_succ] at hn; omega)
        refine ⟨?_, by simp, fun c hc => ?_⟩
        · rw [readFrom_append, i1]
          simp only [readFrom, List.foldl_cons, List.foldl_nil]
          rw [digitVal_digitChar (by omega)]; omega
        · rcases List.mem_append.1 hc with hc | hc
          · exact i3 c hc
          · simp only [List.mem_cons, List.not_mem_nil, or_false] at hc
            subst hc
            rw [digitVal_digitChar (by omega)]; omega
  obtain ⟨h1, h2, h3⟩ := h w hw n hn
  unfold readNum
  rw [if_pos ⟨h2, h3⟩]
  exact congrArg _ h1

/-- C50 for ethernet addresses. -/
theorem C50_ethernet (v : Nat) (hv : v < 2 ^ 48) : normaliseBytes (formatEthernet v) = .ok v ∧ normaliseString (formatEthernet v) = .ok v := by
  obtain ⟨ps, e, hl, hf, hp⟩ := formatEthernet_eq hv
  have hne : ps ≠ [] := by intro h; subst h; cases hl
  have hb : normaliseBytes (formatEthernet v) = .ok v := by
    rw [e]
    have hdot : '.' ∉ joinWith ':' ps := by
      intro h
      rcases mem_join h with h | ⟨p, h1, h2⟩
      · exact absurd h (by decide)
      · exact (hp p h1).2.2 h2
    unfold normaliseBytes
    simp only
    rw [splitAt_join hne fun p h => (hp p h).2.1, hasDouble_clean (clean_join fun p h => ⟨(hp p h).1, (hp p h).2.1⟩), splitAt_none hdot, hl, hf]
    rw [if_neg (by simp), if_neg (by simp), if_pos rfl, padHex_read (by omega) v (by omega)]
  refine ⟨hb, ?_⟩
  unfold normaliseString
  have : ':' ∈ formatEthernet v := by
    rw [e]
    obtain ⟨p, q, rest, rfl⟩ : ∃ p q rest, ps = p :: q :: rest := by
      match ps, hl with
      | p :: q :: rest, _ => exact ⟨p, q, rest, rfl⟩
    simp [joinWith]
  rw [readAuto_sep (.inr (.inl rfl)) this]
  exact hb

theorem join_map {sep sep' : Char} {ps : List (List Char)} (h : ∀ p ∈ ps, sep ∉ p) :
    (joinWith sep ps).map (fun c => if c = sep then sep' else c) = joinWith sep' ps := by
  have hm : ∀ p : List Char, sep ∉ p → p.map (fun c => if c = sep then sep' else c) = p := by
    intro p hp
    have : p.map (fun c => if c = sep then sep' else c) = p.map id := List.map_congr_left fun c hc => if_neg (by rintro rfl; exact hp hc)
    rw [this, List.map_id]
  induction ps with
  | nil => rfl
  | cons p ps ih =>
    cases ps with
    | nil => exact hm p (h p List.mem_cons_self)
    | cons q rest =>
      have := ih fun r hr => h r (List.mem_cons_of_mem _ hr)
      rw [joinWith, List.map_append, List.map_cons, this, hm p (h p List.mem_cons_self), joinWith, if_pos rfl]

/-- C50: the same address with dashes instead of colons. -/
theorem C50_ethernet_dashes (v : Nat) (hv : v < 2 ^ 48) :
    normaliseBytes ((formatEthernet v).map fun c => if c = ':' then '-' else c) = .ok v ∧
      normaliseString ((formatEthernet v).map fun c => if c = ':' then '-' else c) = .ok v := by
  obtain ⟨ps, e, hl, hf, hp⟩ := formatEthernet_eq hv
  have hne : ps ≠ [] := by intro h; subst h; cases hl
  rw [e, join_map fun p h => (hp p h).2.1]
  have hd : ∀ p ∈ ps, '-' ∉ p := by
    intro p h hm
    have hm' : '-' ∈ padHex 12 v := hf ▸ List.mem_flatten.2 ⟨p, h, hm⟩
    have hr := padHex_read (w := 12) (by omega) v (by omega)
    unfold readNum at hr
    by_cases hc : padHex 12 v ≠ [] ∧ ∀ c ∈ padHex 12 v, digitVal c < 16
    · exact absurd (hc.2 _ hm') (by decide)
    · rw [if_neg hc] at hr; cases hr
  have hno : ∀ c, (c = ':' ∨ c = '.') → c ∉ joinWith '-' ps := by
    intro c hc h
    rcases mem_join h with h | ⟨p, h1, h2⟩
    · subst h; revert hc; decide
    · rcases hc with rfl | rfl
      · exact (hp p h1).2.1 h2
      · exact (hp p h1).2.2 h2
  have hb : normaliseBytes (joinWith '-' ps) = .ok v := by
    unfold normaliseBytes
    simp only
    rw [splitAt_none (hno ':' (.inl rfl)), splitAt_none (hno '.' (.inr rfl)), splitAt_join hne hd, hl, hf]
    rw [if_neg (by simp), if_neg (by simp), if_neg (by simp), if_pos rfl, padHex_read (by omega) v (by omega)]
  refine ⟨hb, ?_⟩
  unfold normaliseString
  have : '-' ∈ joinWith '-' ps := by
    obtain ⟨p, q, rest, rfl⟩ : ∃ p q rest, ps = p :: q :: rest := by
      match ps, hl with
      | p :: q :: rest, _ => exact ⟨p, q, rest, rfl⟩
    simp [joinWith]
  rw [readAuto_sep (.inr (.inr rfl)) this]
  exact hb

example : normaliseString ((formatEthernet 0x02005e100001).map fun c => if c = ':' then '-' else c) = .ok 0x02005e100001 :=
  (C50_ethernet_dashes _ (by decide)).2

/-- C50, byte strings: bytes that are none of the texts are a number in network byte order. -/
theorem C50_raw_bytes (s : List Char) (hs : ∀ c ∈ s, c ≠ ':' ∧ c ≠ '.' ∧ c ≠ '-' ∧ c.toNat < 256) :
    ∃ v, normaliseBytes s = .ok v ∧ v < 256 ^ s.length ∧ ∀ i (h : i < s.length), v / 256 ^ (s.length - 1 - i) % 256 = (s[i]).toNat := by
  have hno : ∀ c, (c = ':' ∨ c = '.' ∨ c = '-') → c ∉ s := by
    intro c hc h
    obtain ⟨h1, h2, h3, -⟩ := hs c h
    rcases hc with rfl | rfl | rfl
    · exact h1 rfl
    · exact h2 rfl
    · exact h3 rfl
  refine ⟨s.foldl (fun x c => x * 256 + c.toNat) 0, ?_, ?_⟩
  · unfold normaliseBytes
    simp only
    rw [splitAt_none (hno ':' (by simp)), splitAt_none (hno '.' (by simp)), splitAt_none (hno '-' (by simp)), if_neg (by simp), if_neg (by simp),
      if_neg (by simp), if_neg (by simp)]
    rfl
  · have key : ∀ n, ∀ t : List Char, t.length = n → (∀ c ∈ t, c.toNat < 256) → t.foldl (fun x c => x * 256 + c.toNat) 0 < 256 ^ t.length ∧
        ∀ i (h : i < t.length), t.foldl (fun x c => x * 256 + c.toNat) 0 / 256 ^ (t.length - 1 - i) % 256 = (t[i]).toNat := by
      intro n
      induction n with
      | zero =>
        intro t ht _
        cases t with
        | nil => exact ⟨by simp, fun i h => absurd h (by simp)⟩
        | cons => cases ht
      | succ n ih =>
        intro t ht hc
        obtain ⟨u, c, rfl⟩ : ∃ u c, t = u ++ [c] := ⟨t.dropLast, t.getLast (by rintro rfl; cases ht), (List.dropLast_append_getLast _).symm⟩
        have hul : u.length = n := by simpa using ht
        obtain ⟨i1, i2⟩ := ih u hul fun d hd => hc d (List.mem_append_left _ hd)
        have hcc := hc c (by simp)
        rw [List.foldl_append, List.foldl_cons, List.foldl_nil]
        simp only [List.length_append, List.length_singleton]
        generalize List.foldl (fun x c => x * 256 + c.toNat) 0 u = x at *
        refine ⟨by rw [Nat.pow_succ]; omega, fun i hi => ?_⟩
        rw [Nat.add_sub_cancel]
        by_cases he : i = u.length
        · subst he
          rw [Nat.sub_self, List.getElem_append_right (Nat.le_refl _)]
          simp only [Nat.sub_self, List.getElem_cons_zero, Nat.pow_zero, Nat.div_one]
          omega
        · have hi' : i < u.length := by omega
          rw [List.getElem_append_left hi', ← i2 i hi', show u.length - i = (u.length - 1 - i) + 1 from by omega, Nat.pow_succ,
            Nat.mul_comm (256 ^ _), ← Nat.div_div_eq_div_mul, show (x * 256 + c.toNat) / 256 = x from by omega]
    exact key _ s rfl fun c hc => (hs c hc).2.2.2

/-- The text "ab" as bytes. -/
example : normaliseBytes "ab".toList = .ok 0x6162 := by decide +kernel

/-- C50 for decimal and hexadecimal numbers. -/
theorem C50_numbers (v : Nat) : normaliseString (formatDecimal v) = .ok v ∧ normaliseString (formatHex v) = .ok v := by
  constructor
  · unfold normaliseString formatDecimal
    have h : readAuto (digits 10 v) = .ok v := by
      by_cases hv : v = 0
      · subst hv
        rw [digits, if_pos (.inl (by omega))]
        decide
      · obtain ⟨d, t, e, h1, h2⟩ := digits_head (b := 10) (by omega) (by omega) v (by omega)
        have hd : digitChar d ≠ '0' := fun h => by
          have := (digit_facts ⟨d, by omega⟩).2.2.2.2.2 h
          simp only at this; omega
        have hr := readNum_digits (b := 10) (by omega) (by omega) v
        rw [e] at hr ⊢
        unfold readAuto
        split
        · rename_i h; exact absurd (List.cons.inj h).1 hd
        · rename_i h; exact absurd (List.cons.inj h).1 hd
        · rename_i h; exact absurd (List.cons.inj h).1 hd
        · exact hr
    rw [h]
  · unfold normaliseString formatHex
    rw [show readAuto ('0' :: 'x' :: digits 16 v) = readNum 16 (digits 16 v) from rfl, readNum_digits (by omega) (by omega)]

/-- C50: what holds of it; missing are IPv6 addresses, for which it is false (`C50_ipv6_fails`). -/
theorem C50_round_trip_partial (v : Nat) :
    (v < 2 ^ 32 → normaliseBytes (formatIpv4 v) = .ok v ∧ normaliseString (formatIpv4 v) = .ok v) ∧
    (v < 2 ^ 48 → normaliseBytes (formatEthernet v) = .ok v ∧ normaliseString (formatEthernet v) = .ok v) ∧
    normaliseString (formatDecimal v) = .ok v ∧ normaliseString (formatHex v) = .ok v :=
  ⟨C50_ipv4 v, C50_ethernet v, C50_numbers v⟩

/-- The IPv6 text is not read back: it has sixteen parts of two digits, and its characters are taken as one big number. -/
theorem C50_ipv6_fails : ∃ v, v < 2 ^ 128 ∧ normaliseBytes (formatIpv6 v) ≠ .ok v ∧ normaliseString (formatIpv6 v) ≠ .ok v := by
  refine ⟨1, by decide, ?_, ?_⟩
  · have e : formatIpv6 1 = "00:00:00:00:00:00:00:00:00:00:00:00:00:00:00:01".toList := by
      simp only [formatIpv6, padHex]
      rw [digits, if_pos (.inl (by omega))]
      decide
    rw [e]
    decide +kernel
  · have e : formatIpv6 1 = "00:00:00:00:00:00:00:00:00:00:00:00:00:00:00:01".toList := by
      simp only [formatIpv6, padHex]
      rw [digits, if_pos (.inl (by omega))]
      decide
    rw [e]
    decide +kernel

/-- 192.0.2.1 and 02:00:5e:10:00:01 -/
example : normaliseString (formatIpv4 0xC0000201) = .ok 0xC0000201 ∧ normaliseBytes (formatEthernet 0x02005e100001) = .ok 0x02005e100001 :=
  ⟨(C50_ipv4 _ (by decide)).2, (C50_ethernet _ (by decide)).1⟩

example : formatIpv4 0xC0000201 = "192.0.2.1".toList := by
  rw [formatIpv4_eq (by decide)]
  simp [digits, joinWith, digitChar]

/-! ### C60 -/

/-- Specification: the character is the hexadecimal digit `d`, in lower or upper case. -/
def IsHex (c : Char) (d : Nat) : Prop := "0123456789abcdef".toList[d]? = some c ∨ "0123456789ABCDEF".toList[d]? = some c

/-- Specification: a group of an IPv6 text is up to four hexadecimal digits, with its value. -/
def IsGroup (p : List Char) (n : Nat) : Prop := p ≠ [] ∧ p.length ≤ 4 ∧ ∃ ds, List.Forall₂ IsHex p ds ∧ n = ds.foldl (fun x d => x * 16 + d) 0

theorem isHex_val {c : Char} {d : Nat} (h : IsHex c d) : digitVal c = d ∧ d < 16 := by
  have hlow : ∀ d : Fin 16, digitVal ("0123456789abcdef".toList[d.1]'d.2) = d.1 := by decide
  have hup : ∀ d : Fin 16, digitVal ("0123456789ABCDEF".toList[d.1]'d.2) = d.1 := by decide
  rcases h with h | h
  · obtain ⟨hl, rfl⟩ := List.getElem?_eq_some_iff.1 h
    exact ⟨hlow ⟨d, hl⟩, hl⟩
  · obtain ⟨hl, rfl⟩ := List.getElem?_eq_some_iff.1 h
    exact ⟨hup ⟨d, hl⟩, hl⟩

theorem hexes_val {p : List Char} {ds : List Nat} (h : List.Forall₂ IsHex p ds) :
    (∀ c ∈ p, digitVal c < 16) ∧ ∀ x, p.foldl (fun x c => x * 16 + digitVal c) x = ds.foldl (fun x d => x * 16 + d) x := by
  induction h with
  | nil => exact ⟨by simp, fun _ => rfl⟩
  | @cons c d p ds hc _ ih =>
    obtain ⟨h1, h2⟩ := isHex_val hc
    refine ⟨fun c' hc' => ?_, fun x => ?_⟩
    · rcases List.mem_cons.1 hc' with rfl | hc'
      · rw [h1]; exact h2
      · exact ih.1 c' hc'
    · rw [List.foldl_cons, List.foldl_cons, h1]
      exact ih.2 _

/-- Specification: the address with the given eight groups. -/
def groupsValue (ns : List Nat) : Nat := ns.foldl (fun x g => x * 65536 + g) 0

theorem readFrom_lt (s : List Char) (h : ∀ c ∈ s, digitVal c < 16) : ∀ x, readFrom 16 x s < (x + 1) * 16 ^ s.length := by
  induction s with
  | nil => intro x; simp [readFrom]
  | cons c s ih =>
    intro x
    have h1 := ih (fun d hd => h d (List.mem_cons_of_mem _ hd)) (x * 16 + digitVal c)
    have h2 := h c List.mem_cons_self
    have h3 : (x * 16 + digitVal c + 1) * 16 ^ s.length ≤ ((x + 1) * 16) * 16 ^ s.length := Nat.mul_le_mul_right _ (by omega)
    rw [List.length_cons, Nat.pow_succ, Nat.mul_comm (16 ^ s.length), ← Nat.mul_assoc]
    exact Nat.lt_of_lt_of_le h1 h3

theorem group_read {p : List Char} {n : Nat} (h : IsGroup p n) : (readNum 16 (if p = [] then ['0'] else p) = .ok n ∧ n ≤ 0xFFFF) ∧ ':' ∉ p := by
  obtain ⟨h1, h2, ds, hd, rfl⟩ := h
  obtain ⟨h3, h6⟩ := hexes_val hd
  rw [← h6 0]
  refine ⟨⟨?_, ?_⟩, fun hm => absurd (h3 _ hm) (by decide)⟩
  · rw [if_neg h1]
    unfold readNum
    rw [if_pos ⟨h1, h3⟩]
  · have h4 := readFrom_lt p h3 0
    have h5 : 16 ^ p.length ≤ 16 ^ 4 := Nat.pow_le_pow_right (by omega) h2
    simp only [readFrom] at h4
    omega

theorem group_no_colon {a : List (List Char)} {as : List Nat} (h : List.Forall₂ IsGroup a as) : ∀ p ∈ a, p ≠ [] ∧ ':' ∉ p := by
  induction h with
  | nil => simp
  | @cons p n ps ns hpn hrest ih =>
    intro q hq
    rcases List.mem_cons.1 hq with rfl | hq
    · exact ⟨hpn.1, (group_read hpn).2⟩
    · exact ih q hq

theorem groups_read {a : List (List Char)} {as : List Nat} (h : List.Forall₂ IsGroup a as) :
    List.Forall₂ (fun p n => readNum 16 (if p = [] then ['0'] else p) = .ok n ∧ n ≤ 0xFFFF) a as := by
  induction h with
  | nil => exact .nil
  | cons hpn _ ih => exact .cons (group_read hpn).1 ih

theorem groupsLoop_eq {ps : List (List Char)} {ns : List Nat}
    (h : List.Forall₂ (fun p n => readNum 16 (if p = [] then ['0'] else p) = .ok n ∧ n ≤ 0xFFFF) ps ns) : groupsLoop ps 0 = .ok (groupsValue ns) := by
  have := groupsLoop_spec ps ns h 0
  rw [Nat.zero_mul] at this
  exact this

/-- C60: eight groups with colons between them. -/
theorem C60_ipv6_full (a : List (List Char)) (as : List Nat) (h : List.Forall₂ IsGroup a as) (hl : a.length = 8) :
    normaliseBytes (joinWith ':' a) = .ok (groupsValue as) := by
  have hs := splitAt_join (sep := ':') (ps := a) (by rintro rfl; cases hl) fun p hp => (group_no_colon h p hp).2
  unfold normaliseBytes
  rw [hs, if_pos (.inl hl)]
  have he : expandDouble 9 (joinWith ':' a) = .ok (joinWith ':' a) := by rw [expandDouble, hs, if_neg (by omega)]
  rw [he]
  simp only [bind, Except.bind]
  rw [hs, if_pos hl]
  exact groupsLoop_eq (groups_read h)

/-- The parts of a text with colons in the middle. -/
theorem split_double {a b : List (List Char)} (ha : ∀ p ∈ a, p ≠ [] ∧ ':' ∉ p) (hb : ∀ p ∈ b, p ≠ [] ∧ ':' ∉ p) (m : Nat) :
    splitAt ':' (joinWith ':' a ++ List.replicate (m + 2) ':' ++ joinWith ':' b) =
      a ++ List.replicate (m + 1 + (if a = [] then 1 else 0) + (if b = [] then 1 else 0)) [] ++ b := by
  have hbj : splitAt ':' (joinWith ':' b) = List.replicate (if b = [] then 1 else 0) [] ++ b := by
    by_cases h : b = []
    · subst h; rfl
    · rw [if_neg h]; exact splitAt_join h fun p hp => (hb p hp).2
  by_cases h : a = []
  · subst h
    rw [show joinWith ':' [] = [] from rfl, List.nil_append, splitAt_replicate, hbj, if_pos rfl, List.nil_append, ← List.append_assoc,
      List.replicate_append_replicate]
  · rw [if_neg h, List.replicate_succ, List.append_assoc, List.cons_append, splitAt_join_sep h fun p hp => (ha p hp).2, splitAt_replicate, hbj,
      List.append_assoc, ← List.append_assoc (List.replicate _ _), List.replicate_append_replicate]

/-- C60: a text with a double colon stands for the address with the missing groups 0, whenever at least two groups are missing, or one in the middle. -/
theorem C60_ipv6_double_partial (a b : List (List Char)) (as bs : List Nat) (ha : List.Forall₂ IsGroup a as) (hb : List.Forall₂ IsGroup b bs)
    (hl : a.length + b.length ≤ 6 ∨ (a.length + b.length = 7 ∧ a ≠ [] ∧ b ≠ [])) :
    normaliseBytes (joinWith ':' a ++ [':', ':'] ++ joinWith ':' b) = .ok (groupsValue (as ++ List.replicate (8 - (a.length + b.length)) 0 ++ bs)) := by
  have ga := group_no_colon ha
  have gb := group_no_colon hb
  have hsp := fun m => split_double ga gb m
  have hlen : ∀ m, (splitAt ':' (joinWith ':' a ++ List.replicate (m + 2) ':' ++ joinWith ':' b)).length =
      a.length + b.length + (m + 1 + (if a = [] then 1 else 0) + (if b = [] then 1 else 0)) := by
    intro m; rw [hsp m]; simp only [List.length_append, List.length_replicate]; omega
  have he : ∃ e, e = (if a = [] then 1 else 0) + (if b = [] then 1 else 0) ∧ a.length + b.length + 1 + e ≤ 8 ∧ 2 ≤ a.length + b.length + e := by
    refine ⟨_, rfl, ?_⟩
    have pa : a ≠ [] → 0 < a.length := List.length_pos_iff.2
    have pb : b ≠ [] → 0 < b.length := List.length_pos_iff.2
    by_cases h1 : a = [] <;> by_cases h2 : b = []
    · subst h1; subst h2; simp
    · subst h1; have := pb h2; simp only [List.length_nil, if_pos, if_neg h2] at *; simp only [ne_eq, not_true, false_and, and_false, or_false] at hl; omega
    · subst h2; have := pa h1; simp only [List.length_nil, if_pos, if_neg h1] at *; simp only [ne_eq, not_true, and_false, or_false] at hl; omega
    · have := pa h1; have := pb h2; simp only [if_neg h1, if_neg h2]; omega
  obtain ⟨e, he, he1, he2⟩ := he
  have hlen' : ∀ m, (splitAt ':' (joinWith ':' a ++ List.replicate (m + 2) ':' ++ joinWith ':' b)).length = a.length + b.length + 1 + e + m := by
    intro m; rw [hlen m, he]; omega
  -- the loop
  have hexp : ∀ k fuel m, a.length + b.length + 1 + e + m + k = 8 → k < fuel →
      expandDouble fuel (joinWith ':' a ++ List.replicate (m + 2) ':' ++ joinWith ':' b) =
        .ok (joinWith ':' a ++ List.replicate (m + k + 2) ':' ++ joinWith ':' b) := by
    intro k
    induction k with
    | zero =>
      intro fuel m hm hf
      obtain ⟨fuel, rfl⟩ : ∃ f, fuel = f + 1 := ⟨fuel - 1, by omega⟩
      rw [expandDouble, hlen' m, if_neg (by omega)]
    | succ k ih =>
      intro fuel m hm hf
      obtain ⟨fuel, rfl⟩ : ∃ f, fuel = f + 1 := ⟨fuel - 1, by omega⟩
      rw [expandDouble, hlen' m, if_pos (by omega)]
      have hr : replaceDouble (joinWith ':' a ++ List.replicate (m + 2) ':' ++ joinWith ':' b) =
          joinWith ':' a ++ List.replicate (m + 1 + 2) ':' ++ joinWith ':' b := by
        have := replaceDouble_clean (clean_join ga) (List.replicate m ':' ++ joinWith ':' b)
        simp only [List.replicate_succ, List.append_assoc, List.cons_append] at this ⊢
        exact this
      rw [hr, ih fuel (m + 1) (by omega) (by omega), show m + 1 + k = m + (k + 1) from by omega]
  have hdbl : hasDouble (joinWith ':' a ++ List.replicate (0 + 2) ':' ++ joinWith ':' b) = true := by
    have := hasDouble_append (joinWith ':' a) (joinWith ':' b)
    simpa [List.replicate_succ] using this
  rw [show [':', ':'] = List.replicate (0 + 2) ':' from rfl]
  unfold normaliseBytes
  rw [if_pos (.inr ⟨by rw [hlen' 0]; omega, hdbl⟩), hexp (8 - (a.length + b.length + 1 + e)) 9 0 (by omega) (by omega)]
  simp only [bind, Except.bind]
  rw [if_pos (by rw [hlen']; omega), hsp]
  apply groupsLoop_eq
  rw [show 0 + (8 - (a.length + b.length + 1 + e)) + 1 + (if a = [] then 1 else 0) + (if b = [] then 1 else 0) = 8 - (a.length + b.length) from by
    rw [Nat.add_assoc _ (if a = [] then 1 else 0), ← he]; omega]
  have happ : ∀ {R : List Char → Nat → Prop} {l l' : List (List Char)} {m m' : List Nat}, List.Forall₂ R l m → List.Forall₂ R l' m' →
      List.Forall₂ R (l ++ l') (m ++ m') := by
    intro R l l' m m' h h'
    induction h with
    | nil => exact h'
    | cons x _ ih => exact .cons x ih
  refine happ (happ (groups_read ha) ?_) (groups_read hb)
  generalize 8 - (a.length + b.length) = n
  induction n with
  | zero => exact .nil
  | succ n ih => exact .cons ⟨by decide, by omega⟩ ih

/-- One missing group at the end or at the beginning: the text is a valid IPv6 address, but the assertion on the number of parts fails. -/
theorem C60_seven_groups (a : List (List Char)) (as : List Nat) (ha : List.Forall₂ IsGroup a as) (hl : a.length = 7) :
    normaliseBytes (joinWith ':' a ++ [':', ':']) = .error .assertion ∧ normaliseBytes ([':', ':'] ++ joinWith ':' a) = .error .assertion := by
  have ga := group_no_colon ha
  have hne : a ≠ [] := by rintro rfl; cases hl
  have key : ∀ v : List Char, (splitAt ':' v).length = 9 → hasDouble v = true → normaliseBytes v = .error .assertion := by
    intro v h1 h2
    unfold normaliseBytes
    rw [if_pos (.inr ⟨by omega, h2⟩), expandDouble, if_neg (by omega)]
    simp only [bind, Except.bind]
    rw [if_neg (by omega)]
  constructor
  · refine key _ ?_ (hasDouble_append _ [])
    have := split_double ga (b := []) (by simp) 0
    rw [show joinWith ':' [] = [] from rfl, List.append_nil] at this
    rw [show [':', ':'] = List.replicate (0 + 2) ':' from rfl, this]
    simp [hne, hl]
  · refine key _ ?_ (hasDouble_append [] _)
    have := split_double (a := []) (by simp) ga 0
    rw [show joinWith ':' [] = [] from rfl, List.nil_append] at this
    rw [show [':', ':'] = List.replicate (0 + 2) ':' from rfl, this]
    simp [hne, hl]

/-- 2001:dB8::1 -/
example : normaliseBytes "2001:dB8::1".toList = .ok 0x20010db8000000000000000000000001 := by
  have hx : ∀ {c d}, ("0123456789abcdef".toList[d]? = some c ∨ "0123456789ABCDEF".toList[d]? = some c) → IsHex c d := id
  have := C60_ipv6_double_partial ["2001".toList, "dB8".toList] ["1".toList] [0x2001, 0xdb8] [1]
    (.cons ⟨by decide, by decide, [2, 0, 0, 1], .cons (hx (by decide)) (.cons (hx (by decide)) (.cons (hx (by decide)) (.cons (hx (by decide)) .nil))), rfl⟩
      (.cons ⟨by decide, by decide, [13, 11, 8], .cons (hx (by decide)) (.cons (hx (by decide)) (.cons (hx (by decide)) .nil)), rfl⟩ .nil))
    (.cons ⟨by decide, by decide, [1], .cons (hx (by decide)) .nil, rfl⟩ .nil) (.inl (by decide))
  exact this

/-- 1:2:3:4:5:6:7:: is refused. -/
example : normaliseBytes "1:2:3:4:5:6:7::".toList = .error .assertion := by decide +kernel

end OFE.Fmt
