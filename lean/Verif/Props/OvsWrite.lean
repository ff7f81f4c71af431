import Verif.Props.Ovs
import Verif.Ovs.Doc
import Verif.Ovs.FileWrite
import Verif.Ovs.DocActs

/-!
# Properties of the Open vSwitch format: what is written means the rule (C104)
-/

namespace OFE.Ovs
open Fmt

/-! ### Numbers and addresses -/

theorem forall₂_map {α β : Type} {R : α → β → Prop} {f : α → β} {l : List α} (h : ∀ a ∈ l, R a (f a)) : List.Forall₂ R l (l.map f) := by
  induction l with
  | nil => exact .nil
  | cons a l ih => exact .cons (h a List.mem_cons_self) (ih fun b hb => h b (List.mem_cons_of_mem _ hb))

theorem isDec_digit : ∀ d : Fin 10, IsDec (digitChar d.1) (digitVal (digitChar d.1)) := by
  unfold IsDec; decide

theorem isHex_digit : ∀ d : Fin 16, IsHex (digitChar d.1) (digitVal (digitChar d.1)) := by
  unfold IsHex; decide

theorem digits_dec (v : Nat) : List.Forall₂ IsDec (digits 10 v) ((digits 10 v).map digitVal) ∧
    ((digits 10 v).map digitVal).foldl (fun x d => x * 10 + d) 0 = v := by
  obtain ⟨h1, -, h3⟩ := digits_read (b := 10) (by omega) (by omega) v
  refine ⟨forall₂_map fun c hc => ?_, ?_⟩
  · obtain ⟨d, hd, rfl⟩ := h3 c hc
    exact isDec_digit ⟨d, hd⟩
  · rw [List.foldl_map]; exact h1

theorem denotes_decimal (v : Nat) : Denotes .num (digits 10 v) v := by
  obtain ⟨h1, h2⟩ := digits_dec v
  have := Denotes.dec (digits_read (b := 10) (by omega) (by omega) v).2.1 h1 ?_
  · rwa [h2] at this
  · by_cases hv : v = 0
    · subst hv; right; decide +kernel
    · left
      obtain ⟨d, t, e, hd, hd'⟩ := digits_head (b := 10) (by omega) (by omega) v (by omega)
      rw [e, List.map_cons, List.head?_cons, digitVal_digitChar (by omega)]
      simp only [ne_eq, Option.some.injEq]
      omega

theorem denotes_hex (v : Nat) : Denotes .num (formatHex v) v := by
  obtain ⟨h1, h2, h3⟩ := digits_read (b := 16) (by omega) (by omega) v
  have := Denotes.hex h2 (ds := (digits 16 v).map digitVal) (forall₂_map fun c hc => ?_)
  · rw [List.foldl_map] at this
    rw [show (digits 16 v).foldl (fun x c => x * 16 + digitVal c) 0 = v from h1] at this
    exact this
  · obtain ⟨d, hd, rfl⟩ := h3 c hc
    exact isHex_digit ⟨d, hd⟩

theorem isByte_digits {v : Nat} (h : v < 256) : IsByte (digits 10 v) v :=
  ⟨(digits_read (b := 10) (by omega) (by omega) v).2.1, h, _, (digits_dec v).1, (digits_dec v).2.symm⟩

theorem denotes_ipv4 {v : Nat} (hv : v < 2 ^ 32) : Denotes .v4 (formatIpv4 v) v := by
  rw [formatIpv4_eq hv]
  have := Denotes.ipv4 (ps := [digits 10 (v / 2 ^ 24), digits 10 (v / 2 ^ 16 % 256), digits 10 (v / 2 ^ 8 % 256), digits 10 (v % 256)])
    (ns := [v / 2 ^ 24, v / 2 ^ 16 % 256, v / 2 ^ 8 % 256, v % 256]) rfl
    (.cons (isByte_digits (by omega)) (.cons (isByte_digits (by omega)) (.cons (isByte_digits (by omega)) (.cons (isByte_digits (by omega)) .nil))))
  rwa [show [v / 2 ^ 24, v / 2 ^ 16 % 256, v / 2 ^ 8 % 256, v % 256].foldl (fun x n => x * 256 + n) 0 = v from by
    simp only [List.foldl_cons, List.foldl_nil]; omega] at this

theorem isPair_digits {a b : Nat} (ha : a < 16) (hb : b < 16) : IsPair [digitChar a, digitChar b] (a * 16 + b) := by
  refine ⟨_, _, a, b, rfl, ?_, ?_, rfl⟩
  · have := isHex_digit ⟨a, ha⟩; rwa [digitVal_digitChar ha] at this
  · have := isHex_digit ⟨b, hb⟩; rwa [digitVal_digitChar hb] at this

theorem isPair_byte {q a b n : Nat} (ha : a = q / 16 % 16) (hb : b = q % 16) (hn : n = q % 256) : IsPair [digitChar a, digitChar b] n := by
  have := isPair_digits (a := a) (b := b) (by omega) (by omega)
  rwa [show a * 16 + b = n from by omega] at this

theorem byte_step {a b : Nat} (h : b = a / 256) : b * 256 + a % 256 = a := by omega

theorem bytes_value {v q1 q2 q3 q4 q5 : Nat} (h1 : q1 = v / 256) (h2 : q2 = q1 / 256) (h3 : q3 = q2 / 256) (h4 : q4 = q3 / 256) (h5 : q5 = q4 / 256)
    (h : q5 < 256) : [q5 % 256, q4 % 256, q3 % 256, q2 % 256, q1 % 256, v % 256].foldl (fun x n => x * 256 + n) 0 = v := by
  simp only [List.foldl_cons, List.foldl_nil]
  have e5 : 0 * 256 + q5 % 256 = q5 := by rw [Nat.mod_eq_of_lt h]; simp
  have e4 := byte_step h5
  have e3 := byte_step h4
  have e2 := byte_step h3
  have e1 := byte_step h2
  rw [e5, e4, e3, e2, e1, byte_step h1]

theorem denotes_ethernet {v : Nat} (hv : v < 2 ^ 48) : Denotes .mac (formatEthernet v) v := by
  unfold formatEthernet
  rw [padHex_succ (by omega), padHex_succ (by omega), padHex_succ (by omega), padHex_succ (by omega), padHex_succ (by omega), padHex_succ (by omega),
    padHex_succ (by omega), padHex_succ (by omega), padHex_succ (by omega), padHex_succ (by omega), padHex_succ (by omega), padHex_one (by omega)]
  simp only [List.cons_append, List.nil_append, pairs]
  obtain ⟨q1, h1⟩ : ∃ q, q = v / 256 := ⟨_, rfl⟩
  obtain ⟨q2, h2⟩ : ∃ q, q = q1 / 256 := ⟨_, rfl⟩
  obtain ⟨q3, h3⟩ : ∃ q, q = q2 / 256 := ⟨_, rfl⟩
  obtain ⟨q4, h4⟩ : ∃ q, q = q3 / 256 := ⟨_, rfl⟩
  obtain ⟨q5, h5⟩ : ∃ q, q = q4 / 256 := ⟨_, rfl⟩
  have e1 : v / 16 / 16 = q1 := by rw [h1, Nat.div_div_eq_div_mul]
  have e2 : q1 / 16 / 16 = q2 := by rw [h2, Nat.div_div_eq_div_mul]
  have e3 : q2 / 16 / 16 = q3 := by rw [h3, Nat.div_div_eq_div_mul]
  have e4 : q3 / 16 / 16 = q4 := by rw [h4, Nat.div_div_eq_div_mul]
  have e5 : q4 / 16 / 16 = q5 := by rw [h5, Nat.div_div_eq_div_mul]
  have hq : q5 < 256 := by
    have e : q5 = v / 1099511627776 := by rw [h5, h4, h3, h2, h1]; simp only [Nat.div_div_eq_div_mul, Nat.reduceMul]
    rw [e]
    clear h1 h2 h3 h4 h5 e1 e2 e3 e4 e5 e
    omega
  rw [e1, e2, e3, e4, e5]
  have := Denotes.mac (rfl : [[digitChar (q5 / 16), digitChar (q5 % 16)], [digitChar (q4 / 16 % 16), digitChar (q4 % 16)],
      [digitChar (q3 / 16 % 16), digitChar (q3 % 16)], [digitChar (q2 / 16 % 16), digitChar (q2 % 16)], [digitChar (q1 / 16 % 16), digitChar (q1 % 16)],
      [digitChar (v / 16 % 16), digitChar (v % 16)]].length = 6)
    (.cons (isPair_byte (q := q5) (by omega) rfl rfl) (.cons (isPair_byte (q := q4) rfl rfl rfl) (.cons (isPair_byte (q := q3) rfl rfl rfl)
      (.cons (isPair_byte (q := q2) rfl rfl rfl) (.cons (isPair_byte (q := q1) rfl rfl rfl) (.cons (isPair_byte (q := v) rfl rfl rfl) .nil))))))
  rwa [bytes_value h1 h2 h3 h4 h5 hq] at this

/-- Specification: the fields of `FIELD_TO_OVS` whose keys mean the same whatever else is given: not ICMPV4_TYPE and ICMPV4_CODE. -/
def docOk (f : Nat) : Bool := f != 19 && f != 20

theorem okFields_doc : ∀ f ∈ okFields, docOk f = true → ∃ name, fieldToOvs.lookup f = some name ∧ (name, f) ∈ docFields ∧ fieldBits f = some (width f) ∧
    (match kindOf f with
      | .num => fieldForm f = .decimal ∨ fieldForm f = .hex
      | .v4 => fieldForm f = .ipv4 ∧ width f = 32
      | .mac => fieldForm f = .ethernet ∧ width f = 48
      | .v6 => False) := by
  have h : okFields.all (fun f => !docOk f || match fieldToOvs.lookup f with
    | none => false
    | some name => decide ((name, f) ∈ docFields ∧ fieldBits f = some (width f)) && (match kindOf f with
      | .num => fieldForm f == .decimal || fieldForm f == .hex
      | .v4 => fieldForm f == .ipv4 && width f == 32
      | .mac => fieldForm f == .ethernet && width f == 48
      | .v6 => false)) = true := by decide +kernel
  intro f hf hd
  have := List.all_eq_true.1 h f hf
  rw [hd] at this
  cases e : fieldToOvs.lookup f with
  | none => rw [e] at this; cases this
  | some name =>
    rw [e] at this
    simp only [Bool.not_true, Bool.false_or, Bool.and_eq_true, decide_eq_true_eq] at this
    refine ⟨name, rfl, this.1.1, this.1.2, ?_⟩
    cases hk : kindOf f <;> simpa [hk] using this.2

/-- A value as written is what the documentation has for the kind of field. -/
theorem form_denotes {f v : Nat} (hf : f ∈ okFields) (hd : docOk f = true) (hv : InRange f v) : Denotes (kindOf f) ((fieldForm f).text v) v := by
  obtain ⟨name, -, -, hb, hk⟩ := okFields_doc f hf hd
  have hw := hv _ hb
  cases e : kindOf f with
  | num =>
    rw [e] at hk
    rcases hk with h | h <;> rw [h]
    · exact denotes_decimal v
    · exact denotes_hex v
  | v4 => rw [e] at hk; rw [hk.1]; exact denotes_ipv4 (by rw [hk.2] at hw; exact hw)
  | mac => rw [e] at hk; rw [hk.1]; exact denotes_ethernet (by rw [hk.2] at hw; exact hw)
  | v6 => rw [e] at hk; exact hk.elim

/-! ### Fields, actions and instructions -/

theorem field_doc {x : Nat × Nat × Option Nat} (h : FieldOK x) (hd : docOk x.1 = true) : ∃ t, fieldText x = .ok t ∧ DocItem t [x] := by
  obtain ⟨f, v, m⟩ := x
  obtain ⟨hf, hv, hm, -⟩ := h
  simp only at hf hv hm hd
  obtain ⟨name, en, hn, hb, -⟩ := okFields_doc f hf hd
  refine ⟨name ++ '=' :: withMask (fieldForm f).text v m, by simp only [fieldText, en], ?_⟩
  cases m with
  | none => exact .field hn (form_denotes hf hd hv) (hv _ hb)
  | some m => exact .masked hn (form_denotes hf hd hv) (form_denotes hf hd (hm m rfl)) (hv _ hb) (hm m rfl _ hb)

/-- Specification: the keys for type and code of ICMP. -/
def docIcmp : List (List Char × Nat) := [("icmp_type".toList, 19), ("icmp_code".toList, 20)]

/-- Specification: the flow is one of ICMP for IPv4. -/
def IcmpFlow (flow : List (Nat × Nat × Option Nat)) : Prop := (5, 0x0800, none) ∈ flow ∧ (10, 1, none) ∈ flow

/-- Specification: an item and what it asks for in a flow that asks for `flow` altogether: `icmp_type` and `icmp_code` stand for the fields of ICMPv4 if the flow is
one of ICMP for IPv4. -/
inductive DocItemIn (flow : List (Nat × Nat × Option Nat)) : List Char → List (Nat × Nat × Option Nat) → Prop
  | item {t : List Char} {l : List (Nat × Nat × Option Nat)} : DocItem t l → DocItemIn flow t l
  /-- icmp_type=8 -/
  | icmp {key t : List Char} {f v : Nat} : IcmpFlow flow → (key, f) ∈ docIcmp → Denotes .num t v → v < 2 ^ 8 → DocItemIn flow (key ++ '=' :: t) [(f, v, none)]
  /-- icmp_type=8/0x0f -/
  | icmpMasked {key t u : List Char} {f v m : Nat} : IcmpFlow flow → (key, f) ∈ docIcmp → Denotes .num t v → Denotes .num u m → v < 2 ^ 8 → m < 2 ^ 8 →
      DocItemIn flow (key ++ '=' :: (t ++ '/' :: u)) [(f, v, some m)]

theorem field_doc_in {flow : List (Nat × Nat × Option Nat)} {x : Nat × Nat × Option Nat} (h : FieldOK x) (hd : docOk x.1 = true ∨ IcmpFlow flow) :
    ∃ t, fieldText x = .ok t ∧ DocItemIn flow t [x] := by
  by_cases hk : docOk x.1 = true
  · obtain ⟨t, e, ht⟩ := field_doc h hk
    exact ⟨t, e, .item ht⟩
  · replace hd := hd.resolve_left hk
    obtain ⟨f, v, m⟩ := x
    obtain ⟨-, hv, hm, -⟩ := h
    simp only [docOk, Bool.and_eq_true, bne_iff_ne, ne_eq] at hv hm hk
    have hf : f = 19 ∨ f = 20 := by
      by_cases h : f = 19
      · exact .inl h
      · exact .inr (by_contra fun h' => hk ⟨h, h'⟩)
    have key : ∃ name, fieldToOvs.lookup f = some name ∧ (name, f) ∈ docIcmp ∧ fieldForm f = .decimal ∧ fieldBits f = some 8 := by
      rcases hf with rfl | rfl
      · exact ⟨_, rfl, by decide, by decide, by decide⟩
      · exact ⟨_, rfl, by decide, by decide, by decide⟩
    obtain ⟨name, en, hn, hform, hb⟩ := key
    refine ⟨name ++ '=' :: withMask (fieldForm f).text v m, by simp only [fieldText, en], ?_⟩
    rw [hform]
    cases m with
    | none => exact .icmp hd hn (denotes_decimal v) (hv _ hb)
    | some m => exact .icmpMasked hd hn (denotes_decimal v) (denotes_decimal m) (hv _ hb) (hm m rfl _ hb)

/-- Specification: an action that Open vSwitch has a notation for other than the one used (SET_NW_TTL), or whose field has an ambiguous key, is not documented. -/
def DocWritable (a : Action) : Prop := Writable a ∧ (∀ v, a ≠ .setNwTtl v) ∧ ∀ f v, a = .setField f v → docOk f = true

theorem action_doc (g : Nat → Option Nat) {a : Action} (h : DocWritable a) : ∃ t, actionToOvs a = .ok t ∧ DocAct g t [a] := by
  obtain ⟨hw, ht, hd⟩ := h
  cases a with
  | output p => exact ⟨_, rfl, .output (denotes_decimal p)⟩
  | setMplsTtl v => exact ⟨_, rfl, .num (a := .mplsTtl) (by simp [docNumActs]) (denotes_decimal v)⟩
  | decMplsTtl => exact ⟨_, rfl, .plain (by simp [docPlain])⟩
  | pushVlan e => exact ⟨_, rfl, .num (a := .pushVlan) (by simp [docNumActs]) (denotes_hex e)⟩
  | popVlan => exact ⟨_, rfl, .plain (by simp [docPlain])⟩
  | pushMpls e => exact ⟨_, rfl, .num (a := .pushMpls) (by simp [docNumActs]) (denotes_hex e)⟩
  | popMpls e => exact ⟨_, rfl, .num (a := .popMpls) (by simp [docNumActs]) (denotes_hex e)⟩
  | setQueue q => exact ⟨_, rfl, .num (a := .setQueue) (by simp [docNumActs]) (denotes_decimal q)⟩
  | setNwTtl v => exact absurd rfl (ht v)
  | decNwTtl => exact ⟨_, rfl, .plain (by simp [docPlain])⟩
  | setField f v =>
    obtain ⟨hf, hv, hvid⟩ := hw
    have hdf := hd f v rfl
    obtain ⟨name, en, hn, hb, -⟩ := okFields_doc f hf hdf
    by_cases h6 : f = fVid
    · subst h6
      have hv := hvid rfl
      cases en
      refine ⟨_, rfl, ?_⟩
      rw [if_pos rfl]
      have e : v ||| 0x1000 = v + 0x1000 := by
        have := Nat.two_pow_add_eq_or_of_lt (i := 12) (b := v) (by simpa using hv) 1
        rw [Nat.or_comm, show 0x1000 ||| v = 2 ^ 12 * 1 ||| v from rfl, ← this]
        omega
      rw [e]
      have := DocAct.setVlan (g := g) (denotes_decimal (v + 0x1000)) (by omega) (by omega)
      rw [Nat.add_sub_cancel] at this
      exact this
    · refine ⟨_, by simp only [actionToOvs, en, if_neg h6], .setField hn h6 (form_denotes hf hdf hv)⟩
  | _ => exact hw.elim

theorem actions_doc (g : Nat → Option Nat) {l : List Action} (h : ∀ a ∈ l, DocWritable a) :
    ∃ ts, l.mapM actionToOvs = .ok ts ∧ List.Forall₂ (DocAct g) ts (l.map ([·])) := by
  induction l with
  | nil => exact ⟨[], rfl, .nil⟩
  | cons a l ih =>
    obtain ⟨t, e, hd⟩ := action_doc g (h a List.mem_cons_self)
    obtain ⟨ts, es, hds⟩ := ih fun b hb => h b (List.mem_cons_of_mem _ hb)
    refine ⟨t :: ts, ?_, .cons hd hds⟩
    rw [List.mapM_cons, e, es]; rfl

/-- A word of a flow: not empty, no separator in it. -/
def Word (t : List Char) : Prop := t ≠ [] ∧ ∀ c ∈ t, c ∉ [',', ' ', '\t', '\n', '\r', '\x0b', '\x0c']

theorem word_of {t : List Char} (hne : t ≠ []) (h : ∀ c ∈ t, c ≠ ',' ∧ isSpace c = false) : Word t := by
  refine ⟨hne, fun c hc hm => ?_⟩
  obtain ⟨h1, h2⟩ := h c hc
  simp only [List.mem_cons, List.not_mem_nil, or_false] at hm
  rcases hm with rfl | rfl | rfl | rfl | rfl | rfl | rfl
  · exact h1 rfl
  all_goals exact absurd h2 (by decide)

theorem num_word {name t : List Char} (hn : ∀ c ∈ name, c ≠ ',' ∧ isSpace c = false) (ht : ∀ c ∈ t, c ∈ numChars) : Word (name ++ '=' :: t) := by
  refine word_of (by simp) fun c hc => ?_
  rcases List.mem_append.1 hc with h | h
  · exact hn c h
  · rcases List.mem_cons.1 h with rfl | h
    · decide
    · exact ⟨(numChar_facts c (ht c h)).2.2.2.2.2.2.1, (numChar_facts c (ht c h)).2.2.1⟩

theorem field_word {x : Nat × Nat × Option Nat} (h : FieldOK x) {t : List Char} (e : fieldText x = .ok t) : Word t := by
  obtain ⟨name, en, -, -, -, -, -, -, -, -, -, n10, -⟩ := fieldToOvs_facts x.1 h.field
  have hv := (form_text h.field h.value).chars
  have hm : ∀ m, x.2.2 = some m → ∀ c ∈ (fieldForm x.1).text m, c ∈ numChars := fun m hm => (form_text h.field (h.mask m hm)).chars
  unfold fieldText at e
  rw [en] at e
  cases e
  have hnum : ∀ c ∈ numChars, c ≠ ',' ∧ isSpace c = false := fun c hc => ⟨(numChar_facts c hc).2.2.2.2.2.2.1, (numChar_facts c hc).2.2.1⟩
  refine word_of (by simp) fun c hc => ?_
  rcases List.mem_append.1 hc with h | h
  · exact ⟨(n10 c h).2.2.2.2.1, (n10 c h).2.2.2.2.2⟩
  · rcases List.mem_cons.1 h with rfl | h
    · decide
    · unfold withMask at h
      split at h
      · exact hnum c (hv c h)
      · next m e' =>
        rcases List.mem_append.1 h with h | h
        · exact hnum c (hv c h)
        · rcases List.mem_cons.1 h with rfl | h
          · decide
          · exact hnum c (hm m e' c h)

theorem pieces_join {ts : List (List Char)} (h : ∀ t ∈ ts, Word t) : Pieces (joinWith ',' ts ++ [' ']) ts := by
  induction ts with
  | nil => exact .sep (by decide) .nil
  | cons t ts ih =>
    have ht := h t List.mem_cons_self
    have := ih fun u hu => h u (List.mem_cons_of_mem _ hu)
    cases ts with
    | nil => exact .cons ht.1 ht.2 (by decide) .nil
    | cons u us =>
      rw [show joinWith ',' (t :: u :: us) ++ [' '] = t ++ ',' :: (joinWith ',' (u :: us) ++ [' ']) from by simp [joinWith]]
      exact .cons ht.1 ht.2 (by decide) this

theorem fields_doc {flow l : List (Nat × Nat × Option Nat)} (h : ∀ x ∈ l, FieldOK x) (hd : ∀ x ∈ l, docOk x.1 = true ∨ IcmpFlow flow) :
    ∃ ts, l.mapM fieldText = .ok ts ∧ List.Forall₂ (fun t x => DocItemIn flow t [x]) ts l ∧ ∀ t ∈ ts, Word t := by
  induction l with
  | nil => exact ⟨[], rfl, .nil, by simp⟩
  | cons x l ih =>
    obtain ⟨t, e, ht⟩ := field_doc_in (h x List.mem_cons_self) (hd x List.mem_cons_self)
    obtain ⟨ts, es, hts, hw⟩ := ih (fun y hy => h y (List.mem_cons_of_mem _ hy)) fun y hy => hd y (List.mem_cons_of_mem _ hy)
    refine ⟨t :: ts, ?_, .cons ht hts, ?_⟩
    · rw [List.mapM_cons, e, es]; rfl
    · intro u hu
      rcases List.mem_cons.1 hu with rfl | hu
      · exact field_word (h x List.mem_cons_self) e
      · exact hw u hu

theorem docToks_append {g : Nat → Option Nat} {us vs : List (List Char)} {ms ns : List Mean} (h : List.Forall₂ (DocTok g) us ms) (hn : ∀ m ∈ ms, m.next = none)
    (h' : DocToks g vs ns) : DocToks g (us ++ vs) (ms ++ ns) := by
  induction h with
  | nil => exact h'
  | cons hd _ ih => exact .cons hd (hn _ List.mem_cons_self) (ih fun m hm => hn m (List.mem_cons_of_mem _ hm))

/-- Specification: what the instructions say, in the terms of the documentation. -/
structure Says (i : Inst) (ms : List Mean) : Prop where
  applied : ms.flatMap Mean.applied = i.apply.iter
  clear : Mean.clear ∈ ms ↔ i.clear = true
  written : ms.filterMap Mean.written = if i.write.iter = [] then [] else [i.write.iter]
  metadata : ms.filterMap Mean.metadata = i.wmeta.toList
  next : ms.filterMap Mean.next = i.goto.toList

theorem says_list (i : Inst) : Says i (i.apply.iter.map (fun a => Mean.acts [a]) ++ ((if i.clear then [Mean.clear] else []) ++
    ((if i.write.iter = [] then [] else [Mean.write i.write.iter]) ++ (i.wmeta.toList.map (fun x => Mean.wmeta x.1 x.2) ++ i.goto.toList.map Mean.goto)))) := by
  obtain ⟨goto, apply, write, wmeta, clear, meter⟩ := i
  have fA : (apply.iter.map fun a => Mean.acts [a]).flatMap Mean.applied = apply.iter := by
    simp only [List.flatMap_map]
    exact List.flatMap_singleton' _
  have z1 : (apply.iter.map fun a => Mean.acts [a]).filterMap Mean.written = [] := by
    rw [List.filterMap_eq_nil_iff]; intro m hm; obtain ⟨a, -, rfl⟩ := List.mem_map.1 hm; rfl
  have z2 : (apply.iter.map fun a => Mean.acts [a]).filterMap Mean.metadata = [] := by
    rw [List.filterMap_eq_nil_iff]; intro m hm; obtain ⟨a, -, rfl⟩ := List.mem_map.1 hm; rfl
  have z3 : (apply.iter.map fun a => Mean.acts [a]).filterMap Mean.next = [] := by
    rw [List.filterMap_eq_nil_iff]; intro m hm; obtain ⟨a, -, rfl⟩ := List.mem_map.1 hm; rfl
  have z4 : Mean.clear ∉ apply.iter.map fun a => Mean.acts [a] := by
    intro hm; obtain ⟨a, -, e⟩ := List.mem_map.1 hm; cases e
  refine ⟨?_, ?_, ?_, ?_, ?_⟩ <;> dsimp only
  · rw [List.flatMap_append, fA]
    cases clear <;> cases wmeta <;> cases goto <;> by_cases h : write.iter = [] <;> simp [h, Mean.applied]
  · rw [List.mem_append]
    cases clear <;> cases wmeta <;> cases goto <;> by_cases h : write.iter = [] <;> simp [h]
  · rw [List.filterMap_append, z1]
    cases clear <;> cases wmeta <;> cases goto <;> by_cases h : write.iter = [] <;> simp [h, List.filterMap_cons, Mean.written]
  · rw [List.filterMap_append, z2]
    cases clear <;> cases wmeta <;> cases goto <;> by_cases h : write.iter = [] <;> simp [h, List.filterMap_cons, Mean.metadata]
  · rw [List.filterMap_append, z3]
    cases clear <;> cases wmeta <;> cases goto <;> by_cases h : write.iter = [] <;> simp [h, List.filterMap_cons, Mean.next]

theorem inst_doc (g : Nat → Option Nat) {i : Inst} (hl : i.apply.len = i.apply.iter.length) (hl' : i.write.len = i.write.iter.length)
    (ha : ∀ a ∈ i.apply.iter, DocWritable a) (hw : ∀ a ∈ i.write.iter, DocWritable a) :
    ∃ us ms, instToOvs i = .ok (joinWith ',' us) ∧ DocToks g us ms ∧ Says i ms := by
  obtain ⟨ts, ets, hts⟩ := actions_doc g ha
  obtain ⟨ws, ews, hws⟩ := actions_doc g hw
  have hlen : i.apply.len = ts.length := by rw [hl, hts.length_eq, List.length_map]
  have hwlen : i.write.len = ws.length := by rw [hl', hws.length_eq, List.length_map]
  let A : List (List Char) := if ts = [] then [] else [joinWith ',' ts]
  let C : List (List Char) := if i.clear then ["clear_actions".toList] else []
  let W : List (List Char) := if ws = [] then [] else ["write_actions(".toList ++ (joinWith ',' ws ++ ")".toList)]
  let M : List (List Char) := match i.wmeta with
    | none => []
    | some (v, none) => ["write_metadata:".toList ++ digits 10 v]
    | some (v, some m) => ["write_metadata:".toList ++ (digits 10 v ++ '/' :: digits 10 m)]
  let G : List (List Char) := match i.goto with
    | none => []
    | some t => ["goto_table:".toList ++ digits 10 t]
  have etext : instToOvs i = .ok (joinWith ',' (A ++ C ++ W ++ M ++ G)) := by
    unfold instToOvs actionsToOvs
    rw [ets, ews, hlen, hwlen]
    simp only [bind, Except.bind, A, W]
    by_cases h : ts = [] <;> by_cases h' : ws = []
    · rw [if_pos (by rw [h]; rfl), if_pos h, if_pos h']
      simp only [pure, Except.pure]
      rw [if_pos (by rw [h']; rfl)]
      rfl
    · rw [if_pos (by rw [h]; rfl), if_pos h, if_neg h']
      simp only [pure, Except.pure]
      rw [if_neg (by simpa using h')]
      rfl
    · rw [if_neg (by simpa using h), if_neg h, if_pos h']
      simp only [pure, Except.pure, Except.map]
      rw [if_pos (by rw [h']; rfl)]
      rfl
    · rw [if_neg (by simpa using h), if_neg h, if_neg h']
      simp only [pure, Except.pure, Except.map]
      rw [if_neg (by simpa using h')]
      rfl
  have ejoin : joinWith ',' (A ++ C ++ W ++ M ++ G) = joinWith ',' (ts ++ (C ++ (W ++ (M ++ G)))) := by
    by_cases h : ts = []
    · simp only [A, h, if_true, List.nil_append, List.append_assoc]
    · simp only [A, if_neg h, List.append_assoc, List.cons_append, List.nil_append]
      exact join_join h _
  let mA : List Mean := i.apply.iter.map fun a => .acts [a]
  let mC : List Mean := if i.clear then [.clear] else []
  let mW : List Mean := if i.write.iter = [] then [] else [.write i.write.iter]
  let mM : List Mean := i.wmeta.toList.map fun x => .wmeta x.1 x.2
  let mG : List Mean := i.goto.toList.map .goto
  have hA : List.Forall₂ (DocTok g) ts mA := by
    rw [List.forall₂_map_right_iff] at hts ⊢
    exact hts.imp fun _ _ h => .act h
  have hC : List.Forall₂ (DocTok g) C mC := by
    simp only [C, mC]
    cases i.clear with
    | false => exact .nil
    | true => exact .cons .clear .nil
  have hW : List.Forall₂ (DocTok g) W mW := by
    simp only [W, mW]
    have hiff : ws = [] ↔ i.write.iter = [] := by
      rw [← List.length_eq_zero_iff, hws.length_eq, List.length_map, List.length_eq_zero_iff]
    by_cases h : ws = []
    · rw [if_pos h, if_pos (hiff.1 h)]; exact .nil
    · rw [if_neg h, if_neg fun e => h (hiff.2 e)]
      have := DocTok.write hws
      rw [show (i.write.iter.map ([·])).flatten = i.write.iter from by rw [← List.flatMap_def, List.flatMap_singleton']] at this
      exact .cons this .nil
  have hM : List.Forall₂ (DocTok g) M mM := by
    simp only [M, mM]
    cases i.wmeta with
    | none => exact .nil
    | some x =>
      obtain ⟨v, m⟩ := x
      cases m with
      | none => exact .cons (.wmeta (denotes_decimal v)) .nil
      | some m => exact .cons (.wmask (denotes_decimal v) (denotes_decimal m)) .nil
  have hG : DocToks g G mG := by
    simp only [G, mG]
    cases i.goto with
    | none => exact .nil
    | some t => exact .last (.goto (denotes_decimal t))
  have nA : ∀ m ∈ mA, m.next = none := by
    intro m hm
    obtain ⟨a, -, rfl⟩ := List.mem_map.1 hm
    rfl
  have nC : ∀ m ∈ mC, m.next = none := by
    intro m hm; simp only [mC] at hm; split at hm
    · rw [List.mem_singleton.1 hm]; rfl
    · cases hm
  have nW : ∀ m ∈ mW, m.next = none := by
    intro m hm; simp only [mW] at hm; split at hm
    · cases hm
    · rw [List.mem_singleton.1 hm]; rfl
  have nM : ∀ m ∈ mM, m.next = none := by
    intro m hm
    obtain ⟨a, -, rfl⟩ := List.mem_map.1 hm
    rfl
  refine ⟨ts ++ (C ++ (W ++ (M ++ G))), mA ++ (mC ++ (mW ++ (mM ++ mG))), by rw [etext, ejoin],
    docToks_append hA nA (docToks_append hC nC (docToks_append hW nW (docToks_append hM nM hG))), says_list i⟩

/-! ### C104 -/

/-- Specification: a rule that can be written in documented notation: as in C66, ICMPV4_TYPE and ICMPV4_CODE matched only
for ICMP over IPv4 and not set, and without SET_NW_TTL. -/
structure DocRule {π : Type} (r : Rule π) : Prop extends WritableRule r where
  docFields : ∀ x ∈ r.mat.items, docOk x.1 = true ∨ IcmpFlow r.mat.items
  docApply : ∀ a ∈ r.inst.apply.iter, DocWritable a
  docWrite : ∀ a ∈ r.inst.write.iter, DocWritable a

/-- Specification: an argument and its meaning in a flow that asks for `flow` altogether. -/
inductive DocArgIn (flow : List (Nat × Nat × Option Nat)) : List Char → Arg → Prop
  | arg {t : List Char} {a : Arg} : DocArg t a → DocArgIn flow t a
  | item {t : List Char} {cs : List (Nat × Nat × Option Nat)} : DocItemIn flow t cs → DocArgIn flow t (.fields cs)

theorem args_meaning {flow : List (Nat × Nat × Option Nat)} {ts : List (List Char)} {l : List (Nat × Nat × Option Nat)}
    (h : List.Forall₂ (fun t x => DocItemIn flow t [x]) ts l) :
    ∃ as : List (List Char × Arg), as.map (·.1) = ts ∧ (∀ x ∈ as, DocArgIn flow x.1 x.2) ∧ as.flatMap (·.2.asked) = l ∧
      as.filterMap (·.2.tableNo) = [] ∧ as.filterMap (·.2.priorityNo) = [] ∧ as.filterMap (·.2.cookieNo) = [] := by
  induction h with
  | nil => exact ⟨[], rfl, by simp, rfl, rfl, rfl, rfl⟩
  | @cons t x ts l hd _ ih =>
    obtain ⟨as, h1, h2, h3, h4, h5, h6⟩ := ih
    refine ⟨(t, .fields [x]) :: as, by rw [List.map_cons, h1], ?_, ?_, h4, h5, h6⟩
    · intro y hy
      rcases List.mem_cons.1 hy with rfl | hy
      · exact .item hd
      · exact h2 y hy
    · rw [List.flatMap_cons, h3]; rfl

/-- C104: the line written for a rule is made of documented arguments, and what they mean together is the rule: exactly its fields with their values and masks, its
table, its priority, its cookie (0 if it has none), its applied actions in order, its action set, its metadata and its next table.

Partial: ICMPv4 types and codes, whose keys are ambiguous, only in flows of ICMP over IPv4 and not in set-fields; and not for the notations that Open vSwitch does not have: `C104_nw_ttl`, `C104_ipv6`. -/
theorem C104_line_partial {π : Type} (g : Nat → Option Nat) (r : Rule π) (h : DocRule r) :
    ∃ (u s : List Char) (l : List (List Char × Arg)) (us : List (List Char)) (ms : List Mean), ruleToOvs r = .ok (u ++ ("actions=".toList ++ s)) ∧ Pieces u (l.map (·.1)) ∧ (∀ x ∈ l, DocArgIn (l.flatMap (·.2.asked)) x.1 x.2) ∧
      l.flatMap (·.2.asked) = r.mat.items ∧ l.filterMap (·.2.tableNo) = [r.table] ∧ l.filterMap (·.2.priorityNo) = [r.priority] ∧
      l.filterMap (·.2.cookieNo) = [r.cookie.getD 0] ∧ s = joinWith ',' us ∧ DocToks g us ms ∧ Says r.inst ms := by
  obtain ⟨s, hs, es⟩ := h.apply
  obtain ⟨w, hw, ew⟩ := h.write
  have hks : AllKnown s := fun a ha => writable_known (hs a ha)
  have hkw : AllKnown w := fun a ha => writable_known (hw a ha)
  rw [ofList_known hks] at es
  have ea : r.inst.apply = mkList s := (Except.ok.inj es).symm
  have hsi : SetInv w r.inst.write := by
    obtain ⟨l, e, h⟩ := setInv_ofList w [] .empty setInv_empty (by simpa using hkw)
    rw [show List.foldlM actionSetAppend ActionList.empty w = .ok r.inst.write from ew] at e
    cases e
    simpa using h
  obtain ⟨us, ms, e1, hu, hm⟩ := inst_doc g (by rw [ea]; exact (mkList_iter_trace s).perm.length_eq) hsi.iter_perm.length_eq.symm h.docApply h.docWrite
  obtain ⟨ts, f1, f2, f3⟩ := fields_doc h.fields h.docFields
  obtain ⟨as, a1, a2, a3, a4, a5, a6⟩ := args_meaning f2
  refine ⟨head (r.cookie.getD 0) r.table r.priority (joinWith ',' ts), joinWith ',' us,
    ("cookie=".toList ++ formatHex (r.cookie.getD 0), .cookie (r.cookie.getD 0)) :: ("table=".toList ++ digits 10 r.table, .table r.table) ::
      ("priority=".toList ++ digits 10 r.priority, .priority r.priority) :: as, us, ms, ?_, ?_, ?_, ?_, ?_, ?_, ?_, rfl, hu, hm⟩
  · unfold ruleToOvs matchToOvs
    rw [f1, e1]
    exact congrArg Except.ok (head_eq (formatHex (r.cookie.getD 0)) (digits 10 r.table) (digits 10 r.priority) (joinWith ',' ts) (joinWith ',' us))
  · have w1 := num_word (name := "cookie".toList) (t := formatHex (r.cookie.getD 0)) (by decide) (hex_text _).chars
    have w2 := num_word (name := "table".toList) (t := digits 10 r.table) (by decide) (decimal_text _).chars
    have w3 := num_word (name := "priority".toList) (t := digits 10 r.priority) (by decide) (decimal_text _).chars
    have hp := pieces_join f3
    have e : head (r.cookie.getD 0) r.table r.priority (joinWith ',' ts) = ("cookie".toList ++ '=' :: formatHex (r.cookie.getD 0)) ++ ',' :: (' ' ::
        (("table".toList ++ '=' :: digits 10 r.table) ++ ',' :: (' ' :: (("priority".toList ++ '=' :: digits 10 r.priority) ++ ',' ::
          (joinWith ',' ts ++ [' ']))))) := by
      unfold head
      simp only [List.append_assoc, List.cons_append, List.nil_append]
    rw [e]
    simp only [List.map_cons, a1]
    exact .cons w1.1 w1.2 (by decide) (.sep (by decide) (.cons w2.1 w2.2 (by decide) (.sep (by decide) (.cons w3.1 w3.2 (by decide) hp))))
  · intro x hx
    simp only [List.mem_cons] at hx
    rcases hx with rfl | rfl | rfl | hx
    · exact .arg (.cookie (denotes_hex _))
    · exact .arg (.table (denotes_decimal _))
    · exact .arg (.priority (denotes_decimal _))
    · rw [List.flatMap_cons, List.flatMap_cons, List.flatMap_cons]
      exact a3 ▸ a2 x hx
  · rw [List.flatMap_cons, List.flatMap_cons, List.flatMap_cons]; exact a3
  · exact congrArg (r.table :: ·) a4
  · exact congrArg (r.priority :: ·) a5
  · exact congrArg (r.cookie.getD 0 :: ·) a6

/-- The conditions of C104 hold for the sample of C66. -/
theorem ovsSample_doc : DocRule ovsSample := by
  refine ⟨ovsSample_writable, fun x hx => .inl ((by decide : ∀ x ∈ ovsSample.mat.items, docOk x.1 = true) x hx), ?_, ?_⟩
  · intro a ha
    have : ∀ a ∈ ovsSample.inst.apply.iter, a ∈ [Action.pushVlan 0x8100, .setField 6 9, .output 3] := by decide +kernel
    have := this a ha
    simp only [List.mem_cons, List.not_mem_nil, or_false] at this
    rcases this with rfl | rfl | rfl
    · exact ⟨trivial, by simp, by simp⟩
    · refine ⟨⟨by decide +kernel, inRange_of (w := 13) (by decide) (by decide), fun _ => by decide⟩, by simp, fun f v e => ?_⟩
      cases e; rfl
    · exact ⟨trivial, by simp, by simp⟩
  · intro a ha
    have : ∀ a ∈ ovsSample.inst.write.iter, a ∈ [Action.decNwTtl, .output 1] := by decide +kernel
    have := this a ha
    simp only [List.mem_cons, List.not_mem_nil, or_false] at this
    rcases this with rfl | rfl <;> exact ⟨trivial, by simp, by simp⟩

example : ∃ (u s : List Char) (l : List (List Char × Arg)) (us : List (List Char)) (ms : List Mean), ruleToOvs ovsSample = .ok (u ++ ("actions=".toList ++ s)) ∧ Pieces u (l.map (·.1)) ∧ (∀ x ∈ l, DocArgIn (l.flatMap (·.2.asked)) x.1 x.2) ∧
    l.flatMap (·.2.asked) = ovsSample.mat.items ∧ l.filterMap (·.2.tableNo) = [2] ∧ l.filterMap (·.2.priorityNo) = [5] ∧
    l.filterMap (·.2.cookieNo) = [0] ∧ s = joinWith ',' us ∧ DocToks (fun _ => none) us ms ∧ Says ovsSample.inst ms :=
  C104_line_partial _ ovsSample ovsSample_doc

example : ruleToOvs ovsSample = .ok ("cookie=0x0, table=2, priority=5,eth_dst=33:33:00:00:00:00/ff:ff:00:00:00:00,vlan_vid=4101,ip_src=10.0.0.0/255.0.0.0,tcp_dst=80 " ++
    "actions=push_vlan:0x8100,set_field:4105->vlan_vid,output:3,clear_actions,write_actions(dec_ttl,output:1),write_metadata:7/15,goto_table:4").toList := by
  decide +kernel

/-- Echo requests, dropped. -/
def icmpSample : Rule Unit := ⟨3, none, 1, ((Match.empty.append 5 0x0800 none).append 10 1 none).append 19 8 none, Inst.empty, []⟩

/-- The conditions hold for a match on an ICMP type. -/
theorem icmpSample_doc : DocRule icmpSample := by
  have hi : icmpSample.mat.items = [(5, 0x0800, none), (10, 1, none), (19, 8, none)] := by decide +kernel
  refine ⟨⟨inv_append (inv_append (inv_append inv_empty _ _ _) _ _ _) _ _ _, ?_, ⟨[], by simp, by decide +kernel⟩, ⟨[], by simp, by decide +kernel⟩, rfl⟩, ?_, ?_, ?_⟩
  · rw [hi]
    intro x hx
    simp only [List.mem_cons, List.not_mem_nil, or_false] at hx
    rcases hx with rfl | rfl | rfl
    · exact ⟨by decide +kernel, inRange_of (w := 16) (by decide) (by decide), by simp, by decide +kernel⟩
    · exact ⟨by decide +kernel, inRange_of (w := 8) (by decide) (by decide), by simp, by decide +kernel⟩
    · exact ⟨by decide +kernel, inRange_of (w := 8) (by decide) (by decide), by simp, by decide +kernel⟩
  · rw [hi]
    exact fun x _ => .inr ⟨by simp, by simp⟩
  · have : icmpSample.inst.apply.iter = [] := by decide +kernel
    rw [this]; simp
  · have : icmpSample.inst.write.iter = [] := by decide +kernel
    rw [this]; simp

example : ruleToOvs icmpSample = .ok "cookie=0x0, table=1, priority=3,eth_type=0x800,ip_proto=1,icmp_type=8 actions=".toList := by
  decide +kernel

theorem num_no_s {t : List Char} {v : Nat} (h : Denotes .num t v) : t.head? ≠ some 's' := by
  have hd : ∀ {c : Char} {d : Nat}, IsDec c d → c ≠ 's' := by
    rintro c d h rfl
    unfold IsDec at h
    have hm := List.mem_of_getElem? h
    revert hm; decide
  cases h with
  | @dec t ds _ h2 _ =>
    cases h2 with
    | nil => simp
    | cons h _ => simpa using hd h
  | hex => simp

theorem zip_agree : ∀ {a b x y : List Char}, a ++ x = b ++ y → (b.zip a).all (fun p => p.1 == p.2) = true
  | [], b, _, _, _ => by simp
  | _ :: _, [], _, _, _ => by simp
  | c :: a, d :: b, x, y, e => by
    simp only [List.cons_append, List.cons.injEq] at e
    rw [List.zip_cons_cons, List.all_cons, zip_agree e.2, e.1]
    simp

/-- C104, negation: SET_NW_TTL is written as `set_nw_ttl:`, which is no action of Open vSwitch (that is `mod_nw_ttl:`). -/
theorem C104_nw_ttl (g : Nat → Option Nat) (v : Nat) : actionToOvs (.setNwTtl v) = .ok ("set_nw_ttl:".toList ++ digits 10 v) ∧
    (∀ as, ¬ DocAct g ("set_nw_ttl:".toList ++ digits 10 v) as) ∧ DocAct g ("mod_nw_ttl:".toList ++ digits 10 v) [.setNwTtl v] := by
  refine ⟨rfl, fun as h => ?_, .num (a := .nwTtl) (by simp [docNumActs]) (denotes_decimal v)⟩
  generalize hx : "set_nw_ttl:".toList ++ digits 10 v = t at h
  have bad : ∀ {lit y : List Char}, t = lit ++ y → (lit.zip "set_nw_ttl:".toList).all (fun p => p.1 == p.2) = false → False :=
    fun e h => by rw [zip_agree (hx.trans e)] at h; cases h
  cases h with
  | drop => exact bad (lit := "drop".toList) (y := []) rfl (by decide)
  | plain hm =>
    refine bad (y := []) (List.append_nil _).symm ?_
    have : ∀ x ∈ docPlain, (x.1.zip "set_nw_ttl:".toList).all (fun p => p.1 == p.2) = false := by decide
    exact this _ hm
  | output hd => exact bad (lit := "output:".toList) rfl (by decide)
  | outputName hm => exact bad (lit := "output:".toList) rfl (by decide)
  | outputMax hd hd' => exact bad (lit := "output(port=".toList) rfl (by decide)
  | port hd => exact num_no_s hd (by rw [← hx]; rfl)
  | portName hm =>
    refine bad (y := []) (List.append_nil _).symm ?_
    have : ∀ x ∈ docBarePorts, (x.1.zip "set_nw_ttl:".toList).all (fun p => p.1 == p.2) = false := by decide
    exact this _ hm
  | controller => exact bad (lit := "controller".toList) (y := []) rfl (by decide)
  | controllerLen hd => exact bad (lit := "controller:".toList) rfl (by decide)
  | controllerMax hd => exact bad (lit := "controller(max_len=".toList) rfl (by decide)
  | group hd => exact bad (lit := "group:".toList) rfl (by decide)
  | num hm hd =>
    refine bad rfl ?_
    have : ∀ x ∈ docNumActs, (x.1.zip "set_nw_ttl:".toList).all (fun p => p.1 == p.2) = false := by decide
    exact this _ hm
  | mplsTtl hd => exact bad (lit := "set_mpls_ttl(".toList) rfl (by decide)
  | modField hm hd =>
    refine bad rfl ?_
    have : ∀ x ∈ docSetActs, (x.1.zip "set_nw_ttl:".toList).all (fun p => p.1 == p.2) = false := by decide
    exact this _ hm
  | setField hm h6 hd => exact bad (lit := "set_field:".toList) rfl (by decide)
  | setVlan hd => exact bad (lit := "set_field:".toList) rfl (by decide)
  | setTtl hd => exact bad (lit := "set_field:".toList) rfl (by decide)
  | setMplsTtl hd => exact bad (lit := "set_field:".toList) rfl (by decide)

theorem pairs_length : ∀ s : List Char, (pairs s).length = s.length / 2
  | [] => rfl
  | [_] => by simp [pairs]
  | a :: b :: s => by rw [pairs, List.length_cons, pairs_length s]; simp only [List.length_cons]; omega

theorem padHex_width {w : Nat} (hw : 0 < w) : ∀ n, n < 16 ^ w → (padHex w n).length = w := by
  induction w with
  | zero => omega
  | succ w ih =>
    intro n hn
    by_cases h0 : w = 0
    · subst h0; rw [padHex_one (by omega)]; rfl
    · rw [padHex_succ (by omega), List.length_append, ih (by omega) (n / 16) (by rw [Nat.pow_succ] at hn; omega)]; rfl

theorem v6_colons {t : List Char} {n : Nat} (h : Denotes .v6 t n) : t.count ':' ≤ 8 := by
  have cnt : ∀ {ps : List (List Char)} {ns : List Nat}, List.Forall₂ IsGroup ps ns → (joinWith ':' ps).count ':' ≤ ps.length - 1 := by
    intro ps ns hp
    by_cases he : ps = []
    · subst he; simp [joinWith]
    · have := join_count (sep := ':') he fun p hm => (group_no_colon hp p hm).2
      omega
  cases h with
  | ipv6 hl hp => have := cnt hp; omega
  | @ipv6Short a b as bs ha hb hl =>
    have h1 := cnt ha
    have h2 := cnt hb
    rw [List.count_append, List.count_append, show List.count ':' [':', ':'] = 2 from rfl]
    omega

/-- C104, negation: an IPv6 address is written as sixteen pairs of digits, which denotes no address. -/
theorem C104_ipv6 (v n : Nat) (hv : v < 2 ^ 128) : fieldText (26, v, none) = .ok ("ipv6_src=".toList ++ formatIpv6 v) ∧ ¬ Denotes .v6 (formatIpv6 v) n := by
  refine ⟨rfl, fun h => ?_⟩
  have h1 := v6_colons h
  have hl : (pairs (padHex 32 v)).length = 16 := by rw [pairs_length, padHex_width (by omega) v (by simpa using hv)]
  have hcol : ':' ∉ padHex 32 v := by
    intro hm
    rcases List.mem_append.1 hm with h | h
    · exact absurd (List.mem_replicate.1 h).2 (by decide)
    · exact (digits_no (b := 16) (by omega) (by omega) v).1 h
  have := join_count (sep := ':') (ps := pairs (padHex 32 v)) (by intro e; rw [e] at hl; cases hl) fun p hp hm => hcol (mem_pairs hp hm)
  rw [hl] at this
  unfold formatIpv6 at h1
  omega

example : ¬ ∃ n, Denotes .v6 (formatIpv6 0x20010db8000000000000000000000001) n := fun ⟨n, h⟩ => (C104_ipv6 _ n (by decide)).2 h

end OFE.Ovs
