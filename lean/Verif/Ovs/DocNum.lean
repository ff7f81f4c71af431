import Verif.Ovs.Doc
import Verif.Ovs.RuleLemmas

/-!
# Numbers and addresses as documented are read
-/

namespace OFE.Ovs
open Fmt

/-- The characters of numbers and addresses, with upper case digits. -/
def docChars : List Char := "0123456789abcdefABCDEF.:x".toList

theorem docChar_facts : ∀ c ∈ docChars, isVal c = true ∧ isArg c = true ∧ isSpace c = false ∧ c ≠ '=' ∧ c ≠ '/' ∧ c ≠ ',' ∧
    c ≠ '(' ∧ c ≠ ')' := by decide

theorem isHex_char {c : Char} {d : Nat} (h : IsHex c d) : c ∈ "0123456789abcdefABCDEF".toList := by
  have hlow : ∀ d : Fin 16, ("0123456789abcdef".toList[d.1]'d.2) ∈ "0123456789abcdefABCDEF".toList := by decide
  have hup : ∀ d : Fin 16, ("0123456789ABCDEF".toList[d.1]'d.2) ∈ "0123456789abcdefABCDEF".toList := by decide
  rcases h with h | h
  · obtain ⟨hl, rfl⟩ := List.getElem?_eq_some_iff.1 h
    exact hlow ⟨d, hl⟩
  · obtain ⟨hl, rfl⟩ := List.getElem?_eq_some_iff.1 h
    exact hup ⟨d, hl⟩

theorem isDec_hex {c : Char} {d : Nat} (h : IsDec c d) : IsHex c d ∧ d < 10 := by
  obtain ⟨hl, rfl⟩ := List.getElem?_eq_some_iff.1 h
  have : ∀ d : Fin 10, "0123456789abcdef".toList[d.1]? = some ("0123456789".toList[d.1]'d.2) := by decide
  exact ⟨.inl (this ⟨d, hl⟩), hl⟩

theorem hex_doc {c : Char} (h : c ∈ "0123456789abcdefABCDEF".toList) : c ∈ docChars ∧ c ≠ '.' ∧ c ≠ ':' :=
  (show ∀ c ∈ "0123456789abcdefABCDEF".toList, c ∈ docChars ∧ c ≠ '.' ∧ c ≠ ':' by decide) c h

theorem hexes_char {p : List Char} {ds : List Nat} (h : List.Forall₂ IsHex p ds) : ∀ c ∈ p, c ∈ "0123456789abcdefABCDEF".toList := by
  induction h with
  | nil => simp
  | cons hc _ ih =>
    intro c h
    rcases List.mem_cons.1 h with rfl | h
    · exact isHex_char hc
    · exact ih c h

theorem decs_hexes {p : List Char} {ds : List Nat} (h : List.Forall₂ IsDec p ds) : List.Forall₂ IsHex p ds := by
  induction h with
  | nil => exact .nil
  | cons hc _ ih => exact .cons (isDec_hex hc).1 ih

theorem decs_val {p : List Char} {ds : List Nat} (h : List.Forall₂ IsDec p ds) :
    (∀ c ∈ p, digitVal c < 10) ∧ ∀ x, p.foldl (fun x c => x * 10 + digitVal c) x = ds.foldl (fun x d => x * 10 + d) x := by
  induction h with
  | nil => exact ⟨by simp, fun _ => rfl⟩
  | @cons c d p ds hc _ ih =>
    obtain ⟨h1, h2⟩ := isDec_hex hc
    have h3 := (isHex_val h1).1
    refine ⟨fun c' hc' => ?_, fun x => ?_⟩
    · rcases List.mem_cons.1 hc' with rfl | hc'
      · rw [h3]; exact h2
      · exact ih.1 c' hc'
    · rw [List.foldl_cons, List.foldl_cons, h3]
      exact ih.2 _

theorem readNum_decs {p : List Char} {ds : List Nat} (hp : p ≠ []) (h : List.Forall₂ IsDec p ds) :
    readNum 10 p = .ok (ds.foldl (fun x d => x * 10 + d) 0) := by
  unfold readNum
  rw [if_pos ⟨hp, (decs_val h).1⟩, (decs_val h).2]

theorem readNum_hexes {p : List Char} {ds : List Nat} (hp : p ≠ []) (h : List.Forall₂ IsHex p ds) :
    readNum 16 p = .ok (ds.foldl (fun x d => x * 16 + d) 0) := by
  unfold readNum
  rw [if_pos ⟨hp, (hexes_val h).1⟩, (hexes_val h).2]

theorem auto_num {t : List Char} {v : Nat} (h : Denotes .num t v) : readAuto t = .ok v := by
  cases h with
  | @dec _ ds hne hd hz =>
    have hr := readNum_decs hne hd
    rcases hz with hz | rfl
    · cases hd with
      | nil => exact absurd rfl hne
      | @cons c d p ds hc hrest =>
        have hc0 : c ≠ '0' := by
          rintro rfl
          have : digitVal '0' = d := (isHex_val (isDec_hex hc).1).1
          exact hz (by rw [← this]; rfl)
        unfold readAuto
        split
        · rename_i h; exact absurd (List.cons.inj h).1 hc0
        · rename_i h; exact absurd (List.cons.inj h).1 hc0
        · rename_i h; exact absurd (List.cons.inj h).1 hc0
        · exact hr
    · cases hd with
      | @cons c d p ds hc hrest =>
        cases hrest
        have : c = '0' := by
          unfold IsDec at hc
          rw [show "0123456789".toList[0]? = some '0' from by decide] at hc
          exact (Option.some.inj hc).symm
        subst this
        decide
  | hex hne hd => exact readNum_hexes hne hd

/-- What holds of the text of a value. -/
structure ValText (t : List Char) (v : Nat) : Prop where
  ne : t ≠ []
  chars : ∀ c ∈ t, c ∈ docChars
  read : normaliseString t = .ok v

theorem join_ne {sep : Char} {p q : List Char} {rest : List (List Char)} : joinWith sep (p :: q :: rest) ≠ [] ∧ sep ∈ joinWith sep (p :: q :: rest) := by
  simp [joinWith]

theorem val_join {sep : Char} {ps : List (List Char)} (hs : sep ∈ docChars) (h : ∀ p ∈ ps, ∀ c ∈ p, c ∈ "0123456789abcdefABCDEF".toList) :
    ∀ c ∈ joinWith sep ps, c ∈ docChars ∧ (c = sep ∨ c ≠ '.' ∧ c ≠ ':') := by
  intro c hc
  rcases mem_join hc with rfl | ⟨p, hp, hc⟩
  · exact ⟨hs, .inl rfl⟩
  · exact ⟨(hex_doc (h p hp c hc)).1, .inr (hex_doc (h p hp c hc)).2⟩

/-- The number of separators. -/
theorem join_count {sep : Char} {ps : List (List Char)} (hne : ps ≠ []) (h : ∀ p ∈ ps, sep ∉ p) : (joinWith sep ps).count sep + 1 = ps.length := by
  induction ps with
  | nil => exact absurd rfl hne
  | cons p ps ih =>
    have hp := List.count_eq_zero.2 (h p List.mem_cons_self)
    cases ps with
    | nil => simp only [joinWith, hp, List.length_singleton]
    | cons q rest =>
      have := ih (by simp) fun r hr => h r (List.mem_cons_of_mem _ hr)
      rw [joinWith, List.count_append, List.count_cons, if_pos (by simp), hp, List.length_cons, ← this]
      omega

/-- The colons and dots of a text. -/
def Marks : Kind → List Char → Prop
  | .num, t => '.' ∉ t ∧ ':' ∉ t
  | .v4, t => t.count '.' = 3 ∧ ':' ∉ t
  | .mac, t => '.' ∉ t ∧ ':' ∈ t
  | .v6, t => '.' ∉ t ∧ ':' ∈ t

theorem forall_mem {α β : Type} {R : α → β → Prop} {a : List α} {b : List β} (h : List.Forall₂ R a b) : ∀ x ∈ a, ∃ y, R x y := by
  induction h with
  | nil => simp
  | cons hr _ ih =>
    intro x hx
    rcases List.mem_cons.1 hx with rfl | hx
    · exact ⟨_, hr⟩
    · exact ih x hx

theorem or_shift {a b k : Nat} (h : b < 2 ^ k) : a <<< k ||| b = a * 2 ^ k + b := by
  rw [← Nat.shiftLeft_add_eq_or_of_lt h, Nat.shiftLeft_eq]

theorem pairs_flat {ps : List (List Char)} {ns : List Nat} (h : List.Forall₂ IsPair ps ns) :
    (∀ c ∈ ps.flatten, digitVal c < 16) ∧ ∀ x, ps.flatten.foldl (fun x c => x * 16 + digitVal c) x = ns.foldl (fun x n => x * 256 + n) x := by
  induction h with
  | nil => exact ⟨by simp, fun _ => rfl⟩
  | @cons p n ps ns hp _ ih =>
    obtain ⟨a, b, i, j, rfl, ha, hb, rfl⟩ := hp
    obtain ⟨a1, a2⟩ := isHex_val ha
    obtain ⟨b1, b2⟩ := isHex_val hb
    refine ⟨fun c hc => ?_, fun x => ?_⟩
    · simp only [List.flatten_cons, List.cons_append, List.nil_append, List.mem_cons] at hc
      rcases hc with rfl | rfl | hc
      · rw [a1]; exact a2
      · rw [b1]; exact b2
      · exact ih.1 c hc
    · simp only [List.flatten_cons, List.cons_append, List.nil_append, List.foldl_cons, a1, b1]
      rw [ih.2]
      congr 1; omega

theorem denotes_facts {k : Kind} {t : List Char} {v : Nat} (h : Denotes k t v) : ValText t v ∧ Marks k t := by
  have hexno : ∀ {p : List Char}, (∀ c ∈ p, c ∈ "0123456789abcdefABCDEF".toList) → '.' ∉ p ∧ ':' ∉ p := fun hp =>
    ⟨fun hm => (hex_doc (hp _ hm)).2.1 rfl, fun hm => (hex_doc (hp _ hm)).2.2 rfl⟩
  cases h with
  | @dec _ ds hne hd hz =>
    have hc := hexes_char (decs_hexes hd)
    refine ⟨⟨hne, fun c h => (hex_doc (hc c h)).1, ?_⟩, hexno hc⟩
    unfold normaliseString
    rw [auto_num (.dec hne hd hz)]
  | @hex p ds hne hd =>
    have hc := hexes_char hd
    refine ⟨⟨by simp, fun c h => ?_, ?_⟩, ?_⟩
    · rcases List.mem_cons.1 h with rfl | h
      · decide
      · rcases List.mem_cons.1 h with rfl | h
        · decide
        · exact (hex_doc (hc c h)).1
    · unfold normaliseString
      rw [auto_num (.hex hne hd)]
    · obtain ⟨h1, h2⟩ := hexno hc
      simp only [Marks, List.mem_cons, not_or]
      exact ⟨⟨by decide, by decide, h1⟩, by decide, by decide, h2⟩
  | @ipv4 ps ns hl hb =>
    have hps : ∀ p ∈ ps, ∀ c ∈ p, c ∈ "0123456789abcdefABCDEF".toList := by
      intro p hp
      obtain ⟨n, -, -, ds, hd, -⟩ := forall_mem hb p hp
      exact hexes_char (decs_hexes hd)
    have hch := val_join (sep := '.') (by decide) hps
    have hcolon : ':' ∉ joinWith '.' ps := fun hm => by
      rcases (hch _ hm).2 with h | h
      · exact absurd h (by decide)
      · exact h.2 rfl
    have hdot : ∀ p ∈ ps, '.' ∉ p := fun p hp => (hexno (hps p hp)).1
    have hne0 : ps ≠ [] := by rintro rfl; cases hl
    have hcount := join_count hne0 hdot
    have hmem : '.' ∈ joinWith '.' ps := by
      rw [← List.count_pos_iff]; omega
    refine ⟨⟨List.ne_nil_of_mem hmem, fun c h => (hch c h).1, ?_⟩, by omega, hcolon⟩
    unfold normaliseString
    rw [readAuto_sep (.inl rfl) hmem]
    simp only
    unfold normaliseBytes
    rw [splitAt_none hcolon, splitAt_join hne0 hdot]
    simp only [List.length_singleton]
    rw [if_neg (by omega), if_pos hl]
    match ps, ns, hl, hb with
    | [p0, p1, p2, p3], [n0, n1, n2, n3], _, .cons h0 (.cons h1 (.cons h2 (.cons h3 .nil))) =>
      have rd : ∀ {p : List Char} {n : Nat}, IsByte p n → readNum 10 p = .ok n ∧ n < 256 := by
        rintro p n ⟨hp, hn, ds, hd, rfl⟩
        exact ⟨readNum_decs hp hd, hn⟩
      simp only [(rd h0).1, (rd h1).1, (rd h2).1, (rd h3).1, bind, Except.bind]
      have b0 := (rd h0).2
      have b1 := (rd h1).2
      have b2 := (rd h2).2
      have b3 := (rd h3).2
      have hor : ∀ {a b : Nat}, a < 256 → b < 256 → a ||| b < 256 := fun ha hb => Nat.or_lt_two_pow (n := 8) ha hb
      rw [if_pos (Nat.le_of_lt_succ (hor (hor (hor b0 b1) b2) b3))]
      simp only [pure, Except.pure, List.foldl_cons, List.foldl_nil]
      congr 1
      rw [Nat.or_assoc, Nat.or_assoc, or_shift (k := 8) (by omega), or_shift (a := n1) (k := 16) (by omega), or_shift (k := 24) (by omega)]
      omega
  | @mac ps ns hl hb =>
    have hps : ∀ p ∈ ps, p ≠ [] ∧ ∀ c ∈ p, c ∈ "0123456789abcdefABCDEF".toList := by
      intro p hp
      obtain ⟨n, a, b, i, j, rfl, ha, hb, -⟩ := forall_mem hb p hp
      refine ⟨by simp, fun c hc => ?_⟩
      simp only [List.mem_cons, List.not_mem_nil, or_false] at hc
      rcases hc with rfl | rfl
      · exact isHex_char ha
      · exact isHex_char hb
    have hch := val_join (sep := ':') (by decide) fun p hp => (hps p hp).2
    have hdot : '.' ∉ joinWith ':' ps := fun hm => by
      rcases (hch _ hm).2 with h | h
      · exact absurd h (by decide)
      · exact h.1 rfl
    have hcol : ∀ p ∈ ps, p ≠ [] ∧ ':' ∉ p := fun p hp => ⟨(hps p hp).1, (hexno (hps p hp).2).2⟩
    have hne0 : ps ≠ [] := by rintro rfl; cases hl
    have hcount := join_count hne0 fun p hp => (hcol p hp).2
    have hmem : ':' ∈ joinWith ':' ps := by
      rw [← List.count_pos_iff]; omega
    refine ⟨⟨List.ne_nil_of_mem hmem, fun c h => (hch c h).1, ?_⟩, hdot, hmem⟩
    unfold normaliseString
    rw [readAuto_sep (.inr (.inl rfl)) hmem]
    simp only
    unfold normaliseBytes
    rw [splitAt_join hne0 fun p hp => (hcol p hp).2, hasDouble_clean (clean_join hcol), splitAt_none hdot, if_neg (by simp [hl]), if_neg (by simp), if_pos hl]
    obtain ⟨f1, f2⟩ := pairs_flat hb
    have hfl : ps.flatten ≠ [] := by
      match ps, hl, hb with
      | p :: _, _, .cons ⟨a, b, _, _, e', _⟩ _ => rw [e']; simp
    unfold readNum
    rw [if_pos ⟨hfl, f1⟩, f2]
  | @ipv6 ps ns hl hb =>
    have hps : ∀ p ∈ ps, ∀ c ∈ p, c ∈ "0123456789abcdefABCDEF".toList := by
      intro p hp
      obtain ⟨n, -, -, ds, hd, -⟩ := forall_mem hb p hp
      exact hexes_char hd
    have hch := val_join (sep := ':') (by decide) hps
    have hne0 : ps ≠ [] := by rintro rfl; cases hl
    have hcount := join_count hne0 fun p hp => (hexno (hps p hp)).2
    have hmem : ':' ∈ joinWith ':' ps := by
      rw [← List.count_pos_iff]; omega
    refine ⟨⟨List.ne_nil_of_mem hmem, fun c h => (hch c h).1, ?_⟩, ?_, hmem⟩
    · unfold normaliseString
      rw [readAuto_sep (.inr (.inl rfl)) hmem]
      exact C60_ipv6_full ps ns hb hl
    · intro hm
      rcases (hch _ hm).2 with h | h
      · exact absurd h (by decide)
      · exact h.1 rfl
  | @ipv6Short a b as bs ha hb hl =>
    have hps : ∀ {q : List (List Char)} {n : List Nat}, List.Forall₂ IsGroup q n → ∀ p ∈ q, ∀ c ∈ p, c ∈ "0123456789abcdefABCDEF".toList := by
      intro q n hq p hp
      obtain ⟨n, -, -, ds, hd, -⟩ := forall_mem hq p hp
      exact hexes_char hd
    have hch : ∀ c ∈ joinWith ':' a ++ [':', ':'] ++ joinWith ':' b, c ∈ docChars ∧ (c = ':' ∨ c ≠ '.' ∧ c ≠ ':') := by
      intro c hc
      rcases List.mem_append.1 hc with hc | hc
      · rcases List.mem_append.1 hc with hc | hc
        · exact val_join (sep := ':') (by decide) (hps ha) c hc
        · simp only [List.mem_cons, List.not_mem_nil, or_false, or_self] at hc
          subst hc; exact ⟨by decide, .inl rfl⟩
      · exact val_join (sep := ':') (by decide) (hps hb) c hc
    have hmem : ':' ∈ joinWith ':' a ++ [':', ':'] ++ joinWith ':' b := by simp
    refine ⟨⟨List.ne_nil_of_mem hmem, fun c h => (hch c h).1, ?_⟩, ?_, hmem⟩
    · unfold normaliseString
      rw [readAuto_sep (.inr (.inl rfl)) hmem]
      exact C60_ipv6_double_partial a b as bs ha hb (.inl hl)
    · intro hm
      rcases (hch _ hm).2 with h | h
      · exact absurd h (by decide)
      · exact h.1 rfl

end OFE.Ovs
