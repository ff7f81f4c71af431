import Verif.Ovs.Model
import Verif.Props.Fmt

/-!
# Lemmas on Open vSwitch text: tokens and numbers
-/

namespace OFE.Ovs
open Fmt

/-! ### Characters of numbers and addresses -/

/-- The characters of numbers and addresses as written. -/
def numChars : List Char := "0123456789abcdef.:x".toList

theorem numChar_facts : ∀ c ∈ numChars, isVal c = true ∧ isArg c = true ∧ isSpace c = false ∧ Char.toLower c = c ∧ c ≠ '=' ∧ c ≠ '/' ∧ c ≠ ',' ∧
    c ≠ '(' ∧ c ≠ ')' ∧ c ≠ '>' := by decide

theorem digit_numChar : ∀ d : Fin 16, digitChar d.1 ∈ numChars := by decide

/-- The text of a number or an address. -/
structure NumText (t : List Char) (v : Nat) : Prop where
  ne : t ≠ []
  chars : ∀ c ∈ t, c ∈ numChars
  read : normaliseString t = .ok v

theorem digits_numChars {b : Nat} (hb : 2 ≤ b) (hb' : b ≤ 16) (n : Nat) : digits b n ≠ [] ∧ ∀ c ∈ digits b n, c ∈ numChars := by
  obtain ⟨-, h2, h3⟩ := digits_read hb hb' n
  refine ⟨h2, fun c hc => ?_⟩
  obtain ⟨d, hd, rfl⟩ := h3 c hc
  exact digit_numChar ⟨d, by omega⟩

theorem decimal_text (v : Nat) : NumText (digits 10 v) v :=
  ⟨(digits_numChars (by omega) (by omega) v).1, (digits_numChars (by omega) (by omega) v).2, (C50_numbers v).1⟩

theorem hex_text (v : Nat) : NumText (formatHex v) v := by
  refine ⟨by simp [formatHex], fun c hc => ?_, (C50_numbers v).2⟩
  simp only [formatHex, List.mem_cons] at hc
  rcases hc with rfl | rfl | hc
  · decide
  · decide
  · exact (digits_numChars (by omega) (by omega) v).2 c hc

theorem mem_pairs {c : Char} : ∀ {s : List Char} {p : List Char}, p ∈ pairs s → c ∈ p → c ∈ s
  | [], _, h, _ => by simp [pairs] at h
  | [_], _, h, _ => by simp [pairs] at h
  | a :: b :: rest, p, h, hc => by
    rw [pairs, List.mem_cons] at h
    rcases h with rfl | h
    · simp only [List.mem_cons, List.not_mem_nil, or_false] at hc
      rcases hc with rfl | rfl <;> simp
    · exact List.mem_cons_of_mem _ (List.mem_cons_of_mem _ (mem_pairs h hc))

theorem padHex_numChars (w n : Nat) : ∀ c ∈ padHex w n, c ∈ numChars := by
  intro c hc
  rcases List.mem_append.1 hc with h | h
  · rw [(List.mem_replicate.1 h).2]; decide
  · exact (digits_numChars (by omega) (by omega) n).2 c h

theorem ethernet_text {v : Nat} (hv : v < 2 ^ 48) : NumText (formatEthernet v) v := by
  refine ⟨?_, fun c hc => ?_, (C50_ethernet v hv).2⟩
  · intro e
    have := (C50_ethernet v hv).2
    rw [e] at this
    obtain ⟨ps, e', hl, -, hp⟩ := formatEthernet_eq hv
    rw [e] at e'
    match ps, hl with
    | p :: q :: rest, _ => simp [joinWith] at e'
  · rcases mem_join hc with rfl | ⟨p, hp, hc⟩
    · decide
    · exact padHex_numChars _ _ c (mem_pairs hp hc)

theorem ipv4_text {v : Nat} (hv : v < 2 ^ 32) : NumText (formatIpv4 v) v := by
  refine ⟨?_, fun c hc => ?_, (C50_ipv4 v hv).2⟩
  · rw [formatIpv4_eq hv]; simp [joinWith]
  · rw [formatIpv4_eq hv] at hc
    rcases mem_join hc with rfl | ⟨p, hp, hc⟩
    · decide
    · simp only [List.mem_cons, List.not_mem_nil, or_false] at hp
      rcases hp with rfl | rfl | rfl | rfl <;> exact (digits_numChars (by omega) (by omega) _).2 c hc

/-! ### Tokens -/

theorem dropLit_append (lit r : List Char) : dropLit lit (lit ++ r) = some r := by
  induction lit with
  | nil => cases r <;> rfl
  | cons a lit ih => rw [List.cons_append, dropLit, if_pos rfl, ih]

/-- What follows a token: the end, or a comma and more. -/
inductive Tail : List Char → List Char → Prop
  | last : Tail [] []
  | more (out : List Char) : Tail (',' :: out) out

theorem endTok_tail {rest out : List Char} (h : Tail rest out) : endTok rest = some out := by
  cases h <;> rfl

theorem while_stop {p : Char → Bool} {t rest : List Char} (ht : ∀ c ∈ t, p c = true) (hr : ∀ c ∈ rest.head?, p c = false) :
    (t ++ rest).takeWhile p = t ∧ (t ++ rest).dropWhile p = rest := by
  induction t with
  | nil =>
    cases rest with
    | nil => exact ⟨rfl, rfl⟩
    | cons c r =>
      have := hr c rfl
      simp [List.takeWhile_cons, List.dropWhile_cons, this]
  | cons a t ih =>
    obtain ⟨h1, h2⟩ := ih fun c hc => ht c (List.mem_cons_of_mem _ hc)
    have := ht a List.mem_cons_self
    simp [List.takeWhile_cons, List.dropWhile_cons, this, h1, h2]

theorem tail_head {rest out : List Char} (h : Tail rest out) : ∀ c ∈ rest.head?, c = ',' := by
  cases h <;> simp

theorem tokArg_hit {cls : Char → Bool} {lit : List Char} {ne : Bool} {t rest out : List Char}
    (hlit : (lit ++ (t ++ rest)).dropWhile isSpace = lit ++ (t ++ rest)) (ht : t ≠ [] ∧ ∀ c ∈ t, cls c = true) (hcls : cls ',' = false)
    (h : Tail rest out) : tokArg cls lit ne (lit ++ (t ++ rest)) = some (t, out) := by
  obtain ⟨h1, h2⟩ := while_stop ht.2 (rest := rest) fun c hc => by rw [tail_head h c hc]; exact hcls
  unfold tokArg
  rw [hlit, dropLit_append]
  simp only [Option.bind_some, h1, h2, endTok_tail h, Option.map_some]
  rw [if_neg]
  simp [ht.1]

/-! ### The table of fields -/

/-- The fields that can be written and read back: those of `FIELD_TO_OVS` that are not IPv6 addresses. -/
def okFields : List Nat := (fieldToOvs.map Prod.fst).filter fun f => fieldForm f != .ipv6

/-- The keys of a flow that are not fields. -/
def flowKeys : List (List Char) := ["table_id".toList, "table".toList, "priority".toList, "out_group".toList, "out_port".toList,
  "check_overlap".toList, "cookie".toList] ++ skippedKeys

theorem fieldToOvs_facts : ∀ f ∈ okFields, ∃ name, fieldToOvs.lookup f = some name ∧ parseFieldName name = some f ∧ name ≠ "mpls_ttl".toList ∧
    name ≠ "nw_ttl".toList ∧ (name = "vlan_vid".toList ↔ f = fVid) ∧ shorthands.lookup name = none ∧ name ≠ "dl_vlan".toList ∧
    name ≠ "vlan_tci".toList ∧ name ∉ flowKeys ∧ name ≠ [] ∧ (∀ c ∈ name, isName c = true ∧ isVal c = true ∧ Char.toLower c = c ∧ c ≠ '=' ∧ c ≠ ',' ∧
      isSpace c = false) ∧ ¬ "actions".toList <:+ name ∧ (fieldForm f = .ethernet → fieldBits f = some 48) ∧ (fieldForm f = .ipv4 → fieldBits f = some 32) ∧
      fieldForm f ≠ .ipv6 := by
  have h : okFields.all (fun f => match fieldToOvs.lookup f with
    | none => false
    | some name => decide (parseFieldName name = some f ∧ name ≠ "mpls_ttl".toList ∧ name ≠ "nw_ttl".toList ∧
      (name = "vlan_vid".toList ↔ f = fVid) ∧ shorthands.lookup name = none ∧ name ≠ "dl_vlan".toList ∧
      name ≠ "vlan_tci".toList ∧ name ∉ flowKeys ∧ name ≠ [] ∧ (∀ c ∈ name, isName c = true ∧ isVal c = true ∧ Char.toLower c = c ∧ c ≠ '=' ∧ c ≠ ',' ∧
      isSpace c = false) ∧ ¬ "actions".toList <:+ name ∧ (fieldForm f = .ethernet → fieldBits f = some 48) ∧ (fieldForm f = .ipv4 → fieldBits f = some 32) ∧
      fieldForm f ≠ .ipv6)) = true := by decide +kernel
  intro f hf
  have := List.all_eq_true.1 h f hf
  cases e : fieldToOvs.lookup f with
  | none => rw [e] at this; cases this
  | some name =>
    rw [e] at this
    exact ⟨name, rfl, of_decide_eq_true this⟩

/-- Specification: a value of the field (or a mask). -/
def InRange (f v : Nat) : Prop := ∀ w, fieldBits f = some w → v < 2 ^ w

theorem form_text {f v : Nat} (hf : f ∈ okFields) (hv : InRange f v) : NumText ((fieldForm f).text v) v := by
  obtain ⟨_, -, -, -, -, -, -, -, -, -, -, -, -, h1, h2, h3⟩ := fieldToOvs_facts f hf
  cases e : fieldForm f with
  | decimal => exact decimal_text v
  | hex => exact hex_text v
  | ethernet => exact ethernet_text (hv _ (h1 e))
  | ipv6 => exact absurd e h3
  | ipv4 => exact ipv4_text (hv _ (h2 e))

end OFE.Ovs
