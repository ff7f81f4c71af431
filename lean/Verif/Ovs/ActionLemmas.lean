import Verif.Ovs.Lemmas

/-!
# Open vSwitch text: one action written and read
-/

namespace OFE.Ovs
open Fmt

/-- Specification: the actions with an Open vSwitch notation that is read back.  VLAN ids are written with the present bit, which the reader
takes off again, so that they are without it. -/
def Writable : Action → Prop
  | .output _ | .setMplsTtl _ | .decMplsTtl | .pushVlan _ | .popVlan | .pushMpls _ | .popMpls _ | .setQueue _ | .setNwTtl _ | .decNwTtl => True
  | .setField f v => f ∈ okFields ∧ InRange f v ∧ (f = fVid → v < 0x1000)
  | _ => False

/-- What a text has to satisfy to be read as action `a`, as an action and within instructions. -/
structure Reads (groups : List (Nat × Nat)) (t : List Char) (a : Action) : Prop where
  ne : t ≠ []
  low : ∀ c ∈ t, Char.toLower c = c ∧ c ≠ '=' ∧ c ≠ '(' ∧ c ≠ ')'
  act : ∀ rest out, Tail rest out → parseNextAction groups (t ++ rest) = .ok (some ([a], out))
  inst : ∀ rest out, Tail rest out → ∀ i, parseNextInst groups (t ++ rest) i = .ok none

theorem parse_kv {groups : List (Nat × Nat)} {s lit v out : List Char} {sh : Shape} {f : List Char → Except PyErr Action} (n : Nat)
    (h1 : (keyMap.findSome? fun e => (tokLit e.1 s).map fun rest => (e.2, rest)) = none) (h2 : tokController s = none) (h3 : tokOutputMax s = none)
    (h4 : (((keyValueMap groups).take n).all fun e => (tryEntry s e).isNone) = true) (h5 : (keyValueMap groups)[n]? = some (lit, sh, f))
    (h6 : tryEntry s (lit, sh, f) = some (f, v, out)) : parseNextAction groups s = (f v).map fun a => some ([a], out) := by
  have h7 : (keyValueMap groups).findSome? (tryEntry s) = some (f, v, out) := by
    obtain ⟨hn, e⟩ := List.getElem?_eq_some_iff.1 h5
    refine List.findSome?_eq_some_iff.2 ⟨(keyValueMap groups).take n, (lit, sh, f), (keyValueMap groups).drop (n + 1), ?_, h6, fun x hx => ?_⟩
    · rw [← e, ← List.drop_eq_getElem_cons hn, List.take_append_drop]
    · exact Option.isNone_iff_eq_none.1 (List.all_eq_true.1 h4 x hx)
  unfold parseNextAction
  rw [h1, h2, h3, h7]
  simp only [bind, Except.bind]
  cases f v <;> rfl

theorem numText_arg {t : List Char} {v : Nat} (h : NumText t v) : t ≠ [] ∧ ∀ c ∈ t, isArg c = true :=
  ⟨h.ne, fun c hc => (numChar_facts c (h.chars c hc)).2.1⟩

theorem star_hit {lit t rest out : List Char} {v : Nat} {f : List Char → Except PyErr Action}
    (hlit : (lit ++ (t ++ rest)).dropWhile isSpace = lit ++ (t ++ rest)) (ht : NumText t v) (h : Tail rest out) :
    tryEntry (lit ++ (t ++ rest)) (lit, .star, f) = some (f, t, out) := by
  unfold tryEntry
  simp only [tokArg_hit (ne := false) hlit (numText_arg ht) rfl h, Option.map_some]

theorem plus_hit {lit t rest out : List Char} {v : Nat} {f : List Char → Except PyErr Action}
    (hlit : (lit ++ (t ++ rest)).dropWhile isSpace = lit ++ (t ++ rest)) (ht : NumText t v) (h : Tail rest out) :
    tryEntry (lit ++ (t ++ rest)) (lit, .plus, f) = some (f, t, out) := by
  unfold tryEntry
  simp only [tokArg_hit (ne := true) hlit (numText_arg ht) rfl h, Option.map_some]

theorem num_low {lit t : List Char} {v : Nat} (hl : ∀ c ∈ lit, Char.toLower c = c ∧ c ≠ '=' ∧ c ≠ '(' ∧ c ≠ ')') (ht : NumText t v) :
    ∀ c ∈ lit ++ t, Char.toLower c = c ∧ c ≠ '=' ∧ c ≠ '(' ∧ c ≠ ')' := by
  intro c hc
  rcases List.mem_append.1 hc with h | h
  · exact hl c h
  · obtain ⟨-, -, -, h1, h2, -, -, h3, h4, -⟩ := numChar_facts c (ht.chars c h)
    exact ⟨h1, h2, h3, h4⟩

theorem numText_auto {t : List Char} {v : Nat} (h : t = digits 10 v ∨ t = formatHex v) : readAuto t = .ok v := by
  rcases h with rfl | rfl
  · have := (C50_numbers v).1
    unfold normaliseString formatDecimal at this
    by_cases hv : v = 0
    · subst hv
      rw [digits, if_pos (.inl (by omega))]
      decide
    · obtain ⟨d, t, e, h1, h2⟩ := digits_head (b := 10) (by omega) (by omega) v (by omega)
      have hd : digitChar d ≠ '0' := fun h => by
        have := (digit_facts ⟨d, by omega⟩).2.2.2.2.2 h
        simp only at this; omega
      have hr := readNum_digits (b := 10) (by omega) (by omega) v
      rw [e] at hr ⊢
      unfold readAuto
      split
      · rename_i h; exact absurd (List.cons.inj h).1 hd
      · rename_i h; exact absurd (List.cons.inj h).1 hd
      · rename_i h; exact absurd (List.cons.inj h).1 hd
      · exact hr
  · exact readNum_digits (by omega) (by omega) v

/-- The names of ports are no numbers. -/
theorem parsePort_digits (v : Nat) : parsePort (digits 10 v) = .ok v := by
  have h : ofpPortNo.lookup ((digits 10 v).map Char.toUpper) = none := by
    obtain ⟨-, h2, h3⟩ := digits_read (b := 10) (by omega) (by omega) v
    obtain ⟨c, t, e⟩ := List.exists_cons_of_ne_nil h2
    obtain ⟨d, hd, hc⟩ := h3 c (e ▸ List.mem_cons_self)
    rw [e, hc, List.map_cons]
    have hup : ∀ d : Fin 10, (digitChar d.1).toUpper ∉ ['M', 'I', 'T', 'N', 'F', 'A', 'C', 'L'] := by decide
    have := hup ⟨d, hd⟩
    generalize (digitChar d).toUpper = u at this
    generalize List.map Char.toUpper t = w
    simp only [List.mem_cons, List.not_mem_nil, or_false, not_or] at this
    obtain ⟨h1, h2, h3, h4, h5, h6, h7, h8⟩ := this
    have hne : ∀ (a : Char) (s : List Char), u ≠ a → ((u :: w) == (a :: s)) = false := by
      intro a s hh
      rw [beq_eq_false_iff_ne]
      intro e; exact hh (List.cons.inj e).1
    simp only [ofpPortNo, List.lookup]
    rw [show "MAX".toList = 'M' :: "AX".toList from rfl, show "IN_PORT".toList = 'I' :: "N_PORT".toList from rfl,
      show "TABLE".toList = 'T' :: "ABLE".toList from rfl, show "NORMAL".toList = 'N' :: "ORMAL".toList from rfl,
      show "FLOOD".toList = 'F' :: "LOOD".toList from rfl, show "ALL".toList = 'A' :: "LL".toList from rfl,
      show "CONTROLLER".toList = 'C' :: "ONTROLLER".toList from rfl, show "LOCAL".toList = 'L' :: "OCAL".toList from rfl,
      show "ANY".toList = 'A' :: "NY".toList from rfl]
    simp only [hne _ _ h1, hne _ _ h2, hne _ _ h3, hne _ _ h4, hne _ _ h5, hne _ _ h6, hne _ _ h7, hne _ _ h8]
  unfold parsePort
  rw [h]
  exact numText_auto (.inl rfl)

theorem numText_read {t : List Char} {v : Nat} (h : NumText t v) (f : Nat → Action) : (normaliseString t).map f = .ok (f v) := by
  rw [h.read]; rfl

/-- An action with an argument behind a colon. -/
theorem reads_kv {groups : List (Nat × Nat)} {lit t : List Char} {v : Nat} {sh : Shape} {f : List Char → Except PyErr Action} {a : Action} (n : Nat)
    (ht : NumText t v) (hl : lit ≠ [] ∧ ∀ c ∈ lit, Char.toLower c = c ∧ c ≠ '=' ∧ c ≠ '(' ∧ c ≠ ')')
    (h1 : ∀ x, (keyMap.findSome? fun e => (tokLit e.1 (lit ++ x)).map fun rest => (e.2, rest)) = none) (h2 : ∀ x, tokController (lit ++ x) = none)
    (h3 : ∀ x, tokOutputMax (lit ++ x) = none) (h4 : ∀ x, (((keyValueMap groups).take n).all fun e => (tryEntry (lit ++ x) e).isNone) = true)
    (h5 : (keyValueMap groups)[n]? = some (lit, sh, f)) (hsh : sh = .star ∨ sh = .plus) (hsp : ∀ x, (lit ++ x).dropWhile isSpace = lit ++ x)
    (hf : f t = .ok a) (hi : ∀ x i, parseNextInst groups (lit ++ x) i = .ok none) : Reads groups (lit ++ t) a := by
  refine ⟨by simp [hl.1], num_low hl.2 ht, fun rest out h => ?_, fun rest out _ i => ?_⟩
  · rw [List.append_assoc, parse_kv n (h1 _) (h2 _) (h3 _) (h4 _) h5 (v := t) (out := out), hf]
    · rfl
    · rcases hsh with rfl | rfl
      · exact star_hit (hsp _) ht h
      · exact plus_hit (hsp _) ht h
  · rw [List.append_assoc]; exact hi _ i

theorem reads_output (groups : List (Nat × Nat)) (p : Nat) : Reads groups ("output:".toList ++ digits 10 p) (.output p) :=
  reads_kv 0 (decimal_text p) (by decide) (fun _ => rfl) (fun _ => rfl) (fun _ => rfl) (fun _ => rfl) rfl (.inl rfl) (fun _ => rfl)
    (by rw [parsePort_digits]; rfl) (fun _ _ => rfl)

theorem reads_pushVlan (groups : List (Nat × Nat)) (e : Nat) : Reads groups ("push_vlan:".toList ++ formatHex e) (.pushVlan e) :=
  reads_kv 2 (hex_text e) (by decide) (fun _ => rfl) (fun _ => rfl) (fun _ => rfl) (fun _ => rfl) rfl (.inl rfl) (fun _ => rfl)
    (by rw [numText_auto (.inr rfl)]; rfl) (fun _ _ => rfl)

theorem reads_pushMpls (groups : List (Nat × Nat)) (e : Nat) : Reads groups ("push_mpls:".toList ++ formatHex e) (.pushMpls e) :=
  reads_kv 3 (hex_text e) (by decide) (fun _ => rfl) (fun _ => rfl) (fun _ => rfl) (fun _ => rfl) rfl (.inl rfl) (fun _ => rfl)
    (by rw [numText_auto (.inr rfl)]; rfl) (fun _ _ => rfl)

theorem reads_popMpls (groups : List (Nat × Nat)) (e : Nat) : Reads groups ("pop_mpls:".toList ++ formatHex e) (.popMpls e) :=
  reads_kv 4 (hex_text e) (by decide) (fun _ => rfl) (fun _ => rfl) (fun _ => rfl) (fun _ => rfl) rfl (.inl rfl) (fun _ => rfl)
    (by rw [numText_auto (.inr rfl)]; rfl) (fun _ _ => rfl)

theorem reads_setQueue (groups : List (Nat × Nat)) (q : Nat) : Reads groups ("set_queue:".toList ++ digits 10 q) (.setQueue q) :=
  reads_kv 5 (decimal_text q) (by decide) (fun _ => rfl) (fun _ => rfl) (fun _ => rfl) (fun _ => rfl) rfl (.inr rfl) (fun _ => rfl)
    (by rw [numText_auto (.inl rfl)]; rfl) (fun _ _ => rfl)

theorem reads_setNwTtl (groups : List (Nat × Nat)) (v : Nat) : Reads groups ("set_nw_ttl:".toList ++ digits 10 v) (.setNwTtl v) :=
  reads_kv 14 (decimal_text v) (by decide) (fun _ => rfl) (fun _ => rfl) (fun _ => rfl) (fun _ => rfl) rfl (.inr rfl) (fun _ => rfl)
    (numText_read (decimal_text v) _) (fun _ _ => rfl)

theorem reads_setMplsTtl (groups : List (Nat × Nat)) (v : Nat) : Reads groups ("set_mpls_ttl:".toList ++ digits 10 v) (.setMplsTtl v) :=
  reads_kv 16 (decimal_text v) (by decide) (fun _ => rfl) (fun _ => rfl) (fun _ => rfl) (fun _ => rfl) rfl (.inr rfl) (fun _ => rfl)
    (numText_read (decimal_text v) _) (fun _ _ => rfl)

theorem tokLit_hit {lit rest out : List Char} (hsp : (lit ++ rest).dropWhile isSpace = lit ++ rest) (h : Tail rest out) :
    tokLit lit (lit ++ rest) = some out := by
  unfold tokLit
  rw [hsp, dropLit_append]
  exact endTok_tail h

theorem parse_lit {groups : List (Nat × Nat)} {s lit out : List Char} {as : List Action} (n : Nat)
    (h4 : ((keyMap.take n).all fun e => (tokLit e.1 s).isNone) = true) (h5 : keyMap[n]? = some (lit, as)) (h6 : tokLit lit s = some out) :
    parseNextAction groups s = .ok (some (as, out)) := by
  have h7 : (keyMap.findSome? fun e => (tokLit e.1 s).map fun rest => (e.2, rest)) = some (as, out) := by
    obtain ⟨hn, e⟩ := List.getElem?_eq_some_iff.1 h5
    refine List.findSome?_eq_some_iff.2 ⟨keyMap.take n, (lit, as), keyMap.drop (n + 1), ?_, ?_, fun x hx => ?_⟩
    · rw [← e, ← List.drop_eq_getElem_cons hn, List.take_append_drop]
    · simp only [h6, Option.map_some]
    · rw [Option.isNone_iff_eq_none.1 (List.all_eq_true.1 h4 x hx)]; rfl
  unfold parseNextAction
  rw [h7]

/-- An action without arguments. -/
theorem reads_lit {groups : List (Nat × Nat)} {lit : List Char} {a : Action} (n : Nat)
    (hl : lit ≠ [] ∧ ∀ c ∈ lit, Char.toLower c = c ∧ c ≠ '=' ∧ c ≠ '(' ∧ c ≠ ')') (h4 : ∀ x, ((keyMap.take n).all fun e => (tokLit e.1 (lit ++ x)).isNone) = true)
    (h5 : keyMap[n]? = some (lit, [a])) (hsp : ∀ x, (lit ++ x).dropWhile isSpace = lit ++ x) (hi : ∀ x i, parseNextInst groups (lit ++ x) i = .ok none) :
    Reads groups lit a :=
  ⟨hl.1, hl.2, fun rest _ h => parse_lit n (h4 rest) h5 (tokLit_hit (hsp rest) h), fun rest _ _ i => hi rest i⟩

theorem reads_popVlan (groups : List (Nat × Nat)) : Reads groups "pop_vlan".toList .popVlan :=
  reads_lit 1 (by decide) (fun _ => rfl) rfl (fun _ => rfl) (fun _ _ => rfl)

theorem reads_decNwTtl (groups : List (Nat × Nat)) : Reads groups "dec_ttl".toList .decNwTtl :=
  reads_lit 3 (by decide) (fun _ => rfl) rfl (fun _ => rfl) (fun _ _ => rfl)

theorem reads_decMplsTtl (groups : List (Nat × Nat)) : Reads groups "dec_mpls_ttl".toList .decMplsTtl :=
  reads_lit 4 (by decide) (fun _ => rfl) rfl (fun _ => rfl) (fun _ _ => rfl)

theorem splitArrow_eq {t name : List Char} (ht : t ≠ []) (hn : name ≠ []) (hc : ∀ c ∈ name, isName c = true) :
    splitArrow (t ++ ("->".toList ++ name)) = some (t, name) := by
  have hr : (t ++ ("->".toList ++ name)).reverse = name.reverse ++ '>' :: '-' :: t.reverse := by
    simp [show "->".toList = ['-', '>'] from rfl]
  obtain ⟨h1, h2⟩ := while_stop (p := isName) (t := name.reverse) (rest := '>' :: '-' :: t.reverse) (fun c h => hc c (List.mem_reverse.1 h))
    (fun c h => by simp only [List.head?_cons, Option.mem_def, Option.some.injEq] at h; subst h; decide)
  unfold splitArrow
  rw [hr, h1, h2]
  simp [ht, hn]

theorem reads_setField (groups : List (Nat × Nat)) {f v : Nat} (hf : f ∈ okFields) (hv : InRange f v) (hvid : f = fVid → v < 0x1000) {name : List Char}
    (hname : fieldToOvs.lookup f = some name) :
    Reads groups ("set_field:".toList ++ ((fieldForm f).text (if f = fVid then v ||| 0x1000 else v) ++ ("->".toList ++ name))) (.setField f v) := by
  obtain ⟨name', e, n1, n2, n3, n4, -, -, -, -, n5, n6, -⟩ := fieldToOvs_facts f hf
  rw [hname] at e
  cases e
  generalize hw : (if f = fVid then v ||| 0x1000 else v) = w
  have hwr : InRange f w := by
    intro b hb
    by_cases h : f = fVid
    · rw [if_pos h] at hw
      subst hw
      have hb' : b = 13 := by
        subst h
        have : fieldBits fVid = some 13 := by decide
        rw [this] at hb; cases hb; rfl
      subst hb'
      have := hvid h
      exact Nat.or_lt_two_pow (n := 13) (by omega) (by omega)
    · rw [if_neg h] at hw
      subst hw; exact hv b hb
  have ht := form_text hf hwr
  have hset : setAction ((fieldForm f).text w) name = .ok (.setField f v) := by
    unfold setAction
    rw [ht.read]
    simp only [bind, Except.bind, n1]
    rw [if_neg n2, if_neg n3]
    simp only [pure, Except.pure]
    congr 2
    by_cases h : f = fVid
    · rw [if_pos (n4.2 h), ← hw, if_pos h]
      have hlt := hvid h
      apply Nat.eq_of_testBit_eq
      intro i
      rw [Nat.testBit_and, Nat.testBit_or, show (0xfff : Nat) = 2 ^ 12 - 1 from rfl, Nat.testBit_two_pow_sub_one, show (0x1000 : Nat) = 2 ^ 12 from rfl,
        Nat.testBit_two_pow]
      by_cases hi : i < 12
      · simp [hi, show ¬ 12 = i from by omega]
      · have : v.testBit i = false := Nat.testBit_lt_two_pow (Nat.lt_of_lt_of_le hlt (Nat.pow_le_pow_right (n := 2) (i := 12) (by omega) (by omega)))
        simp [hi, this]
    · rw [if_neg fun e => h (n4.1 e), ← hw, if_neg h]
  have hval : ∀ c ∈ (fieldForm f).text w ++ ("->".toList ++ name), isVal c = true := by
    intro c hc
    rcases List.mem_append.1 hc with h | h
    · exact (numChar_facts c (ht.chars c h)).1
    · rcases List.mem_append.1 h with h | h
      · exact (show ∀ c ∈ "->".toList, isVal c = true by decide) c h
      · exact (n6 c h).2.1
  refine ⟨by simp, fun c hc => ?_, fun rest out h => ?_, fun rest out _ i => ?_⟩
  · rcases List.mem_append.1 hc with h | h
    · exact (show ∀ c ∈ "set_field:".toList, Char.toLower c = c ∧ c ≠ '=' ∧ c ≠ '(' ∧ c ≠ ')' by decide) c h
    · rcases List.mem_append.1 h with h | h
      · obtain ⟨-, -, -, h1, h2, -, -, h3, h4, -⟩ := numChar_facts c (ht.chars c h)
        exact ⟨h1, h2, h3, h4⟩
      · rcases List.mem_append.1 h with h | h
        · exact (show ∀ c ∈ "->".toList, Char.toLower c = c ∧ c ≠ '=' ∧ c ≠ '(' ∧ c ≠ ')' by decide) c h
        · obtain ⟨h1, h2, h3, h4, -, -⟩ := n6 c h
          refine ⟨h3, h4, ?_, ?_⟩ <;> rintro rfl <;> exact absurd h1 (by decide)
  · obtain ⟨h1, h2⟩ := while_stop hval (rest := rest) fun c hc => by rw [tail_head h c hc]; rfl
    have htok : tokSet ("set_field:".toList ++ (((fieldForm f).text w ++ ("->".toList ++ name)) ++ rest)) =
        .ok (some ((fieldForm f).text w, name, out)) := by
      unfold tokSet
      rw [show ("set_field:".toList ++ (((fieldForm f).text w ++ ("->".toList ++ name)) ++ rest)).dropWhile isSpace =
        "set_field:".toList ++ (((fieldForm f).text w ++ ("->".toList ++ name)) ++ rest) from rfl, dropLit_append]
      simp only [h1, h2]
      rw [if_neg]
      · rw [splitArrow_eq ht.ne n5 fun c hc => (n6 c hc).1, endTok_tail h]; rfl
      · cases h <;> simp
    rw [List.append_assoc]
    generalize hr : ((fieldForm f).text w ++ ("->".toList ++ name)) ++ rest = r at htok
    unfold parseNextAction
    rw [show (keyMap.findSome? fun e => (tokLit e.1 ("set_field:".toList ++ r)).map fun rest => (e.2, rest)) = none from rfl,
      show tokController ("set_field:".toList ++ r) = none from rfl, show tokOutputMax ("set_field:".toList ++ r) = none from rfl,
      show (keyValueMap groups).findSome? (tryEntry ("set_field:".toList ++ r)) = none from rfl]
    simp only [htok, bind, Except.bind, hset]; rfl
  · rw [List.append_assoc]; rfl

/-- Every writable action has a text that is read back. -/
theorem action_text (groups : List (Nat × Nat)) {a : Action} (h : Writable a) : ∃ t, actionToOvs a = .ok t ∧ Reads groups t a := by
  cases a with
  | copyTtlIn => exact h.elim
  | popVlan => exact ⟨_, rfl, reads_popVlan groups⟩
  | popPbb => exact h.elim
  | popMpls e => exact ⟨_, rfl, reads_popMpls groups e⟩
  | pushMpls e => exact ⟨_, rfl, reads_pushMpls groups e⟩
  | pushPbb e => exact h.elim
  | pushVlan e => exact ⟨_, rfl, reads_pushVlan groups e⟩
  | copyTtlOut => exact h.elim
  | decMplsTtl => exact ⟨_, rfl, reads_decMplsTtl groups⟩
  | decNwTtl => exact ⟨_, rfl, reads_decNwTtl groups⟩
  | setField f v =>
    obtain ⟨name, e, -⟩ := fieldToOvs_facts f h.1
    refine ⟨_, ?_, reads_setField groups h.1 h.2.1 h.2.2 e⟩
    simp only [actionToOvs, e]
  | setMplsTtl v => exact ⟨_, rfl, reads_setMplsTtl groups v⟩
  | setNwTtl v => exact ⟨_, rfl, reads_setNwTtl groups v⟩
  | setQueue q => exact ⟨_, rfl, reads_setQueue groups q⟩
  | group g => exact h.elim
  | output p => exact ⟨_, rfl, reads_output groups p⟩

end OFE.Ovs
