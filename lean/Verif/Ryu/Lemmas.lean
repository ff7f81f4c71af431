import Verif.Ryu.Spec
import Verif.Ovs.DocLine
import Verif.Actions.SetRebuild

/-!
# Lemmas on Ryu messages
-/

namespace OFE.Ryu
open Fmt Ovs

/-! ### Bytes -/

theorem foldl_be (s : List Char) : ∀ x, s.foldl (fun x c => x * 256 + c.toNat) x = x * 256 ^ s.length + beNum s := by
  induction s with
  | nil => intro x; simp [beNum]
  | cons c s ih =>
    intro x
    rw [List.foldl_cons, ih, beNum, List.length_cons, Nat.pow_succ, Nat.add_mul, Nat.mul_assoc, Nat.mul_comm 256]
    omega

theorem beNum_append (s : List Char) (c : Char) : beNum (s ++ [c]) = beNum s * 256 + c.toNat := by
  have h1 := foldl_be (s ++ [c]) 0
  have h2 := foldl_be s 0
  simp only [Nat.zero_mul, Nat.zero_add] at h1 h2
  rw [← h1, ← h2, List.foldl_append]
  rfl

theorem ofNat_byte {n : Nat} (h : n < 256) : (Char.ofNat n).toNat = n := by
  have : ∀ n : Fin 256, (Char.ofNat n.1).toNat = n.1 := by decide +kernel
  exact this ⟨n, h⟩

theorem toBytes_num : ∀ (size v : Nat), v < 256 ^ size → beNum (toBytes size v) = v
  | 0, v, h => by
    have : v = 0 := by simpa using h
    subst this; rfl
  | size + 1, v, h => by
    rw [toBytes, beNum_append, toBytes_num size (v / 256) (by rw [Nat.pow_succ] at h; omega), ofNat_byte (by omega)]
    omega

theorem toBytes_length : ∀ (size v : Nat), (toBytes size v).length = size
  | 0, _ => rfl
  | size + 1, v => by rw [toBytes, List.length_append, toBytes_length size]; rfl

theorem splitAt_length (sep : Char) (s : List Char) : (splitAt sep s).length = s.count sep + 1 := by
  induction s with
  | nil => rfl
  | cons c s ih =>
    by_cases h : c = sep
    · rw [splitAt, if_pos h, List.length_cons, ih, h, List.count_cons_self]
    · rw [splitAt, if_neg h, List.count_cons_of_ne (by simpa using h), ← ih]
      cases e : splitAt sep s with
      | nil => exact absurd e (splitAt_ne_nil sep s)
      | cons => rfl

theorem hasDouble_iff (s : List Char) : hasDouble s = true ↔ [':', ':'] <:+: s := by
  induction s with
  | nil => simp [hasDouble]
  | cons c s ih =>
    cases s with
    | nil =>
      simp only [hasDouble, Bool.false_eq_true, false_iff]
      intro h
      exact absurd h.length_le (by simp)
    | cons d s =>
      rw [hasDouble, Bool.or_eq_true, ih]
      refine Iff.trans ?_ List.infix_cons_iff.symm
      refine or_congr_left ?_
      simp only [Bool.and_eq_true, beq_iff_eq]
      constructor
      · rintro ⟨rfl, rfl⟩; exact ⟨s, rfl⟩
      · rintro ⟨t, ht⟩; simp only [List.cons_append, List.nil_append, List.cons.injEq] at ht; exact ⟨ht.1.symm, ht.2.1.symm⟩

theorem normaliseBytes_plain {s : List Char} (h : ¬ LooksText s) : normaliseBytes s = .ok (beNum s) := by
  unfold LooksText at h
  simp only [not_or] at h
  obtain ⟨h1, h2, h3, h4, h5⟩ := h
  unfold normaliseBytes
  simp only [splitAt_length]
  rw [if_neg, if_neg (by omega), if_neg (by omega), if_neg (by omega), foldl_be]
  · simp; rfl
  · rintro (h | ⟨-, h⟩)
    · omega
    · exact h1 ((hasDouble_iff s).1 h)

/-! ### Fields -/

theorem oxmSizes_bits : ∀ f : Fin 40, ∃ size w, oxmSizes[f.1]? = some size ∧ fieldBits f.1 = some w ∧ 2 ^ w ≤ 256 ^ size := by
  have : ∀ f : Fin 40, (oxmSizes[f.1]?).isSome = true ∧ (fieldBits f.1).isSome = true ∧ (fieldBits f.1).getD 0 ≤ 8 * (oxmSizes[f.1]?).getD 0 := by decide +kernel
  intro f
  obtain ⟨h1, h2, h3⟩ := this f
  obtain ⟨size, e1⟩ := Option.isSome_iff_exists.1 h1
  obtain ⟨w, e2⟩ := Option.isSome_iff_exists.1 h2
  refine ⟨size, w, e1, e2, ?_⟩
  rw [e1, e2] at h3
  rw [show 256 = 2 ^ 8 from rfl, ← Nat.pow_mul]
  exact Nat.pow_le_pow_right (by omega) h3

theorem oxmBytes_ok {f v : Nat} (hf : f < 40) (hv : InRange f v) : ∃ s, oxmBytes f v = .ok s ∧ beNum s = v := by
  obtain ⟨size, w, e1, e2, h⟩ := oxmSizes_bits ⟨f, hf⟩
  have hlt : v < 256 ^ size := Nat.lt_of_lt_of_le (hv w e2) h
  refine ⟨toBytes size v, ?_, toBytes_num size v hlt⟩
  unfold oxmBytes
  simp only at e1
  rw [e1]
  simp only [if_pos hlt]

theorem sentValue_range {x : Nat × Nat × Option Nat} (h : InRange x.1 x.2.1) : InRange x.1 (sentValue x) := by
  intro w hw
  unfold sentValue
  cases x.2.2 with
  | none => exact h w hw
  | some m => exact Nat.lt_of_le_of_lt Nat.and_le_left (h w hw)

theorem oxmOf_ok {x : Nat × Nat × Option Nat} (hf : x.1 < 40) (hv : InRange x.1 x.2.1) (hm : ∀ m, x.2.2 = some m → InRange x.1 m) :
    ∃ o, oxmOf x = .ok o ∧ o.field = x.1 ∧ beNum o.value = sentValue x ∧ o.mask.map beNum = x.2.2 ∧ oxmBytes x.1 (sentValue x) = .ok o.value ∧
      ∀ m, x.2.2 = some m → ∃ b, o.mask = some b ∧ oxmBytes x.1 m = .ok b := by
  obtain ⟨s, e1, h1⟩ := oxmBytes_ok hf (sentValue_range hv)
  unfold oxmOf
  rw [e1]
  cases e : x.2.2 with
  | none => exact ⟨⟨x.1, s, none⟩, rfl, rfl, h1, rfl, rfl, by simp⟩
  | some m =>
    obtain ⟨b, e2, h2⟩ := oxmBytes_ok hf (hm m e)
    refine ⟨⟨x.1, s, some b⟩, ?_, rfl, h1, by simp [h2], rfl, fun m' hm' => ?_⟩
    · simp only [bind, Except.bind, Option.mapM, e2]
      rfl
    · cases hm'; exact ⟨b, rfl, e2⟩

theorem insort_perm {α : Type} (lt : α → α → Bool) (x : α) (l : List α) : (insort lt x l).Perm (x :: l) := by
  induction l with
  | nil => exact .refl _
  | cons y l ih =>
    rw [insort]
    split
    · exact .refl _
    · exact (List.Perm.cons y ih).trans (.swap x y l)

theorem sort_perm {α : Type} (lt : α → α → Bool) : ∀ (l acc : List α), (l.foldl (fun acc x => insort lt x acc) acc).Perm (acc ++ l)
  | [], acc => by simp
  | x :: l, acc => by
    rw [List.foldl_cons]
    refine (sort_perm lt l _).trans ?_
    refine ((insort_perm lt x acc).append_right l).trans ?_
    rw [List.cons_append]
    exact List.perm_middle.symm

theorem mapM_forall2 {α β : Type} {f : α → Except PyErr β} {R : α → β → Prop} : ∀ {l : List α}, (∀ x ∈ l, ∃ y, f x = .ok y ∧ R x y) →
    ∃ ys, l.mapM f = .ok ys ∧ List.Forall₂ R l ys
  | [], _ => ⟨[], rfl, .nil⟩
  | x :: l, h => by
    obtain ⟨y, e, hr⟩ := h x List.mem_cons_self
    obtain ⟨ys, es, hrs⟩ := mapM_forall2 fun z hz => h z (List.mem_cons_of_mem _ hz)
    exact ⟨y :: ys, by rw [List.mapM_cons, e, es]; rfl, .cons hr hrs⟩

theorem toBytes_char : ∀ (size v : Nat), ∀ c ∈ toBytes size v, c.toNat < 256
  | 0, _, c, h => by cases h
  | size + 1, v, c, h => by
    rw [toBytes, List.mem_append, List.mem_singleton] at h
    rcases h with h | rfl
    · exact toBytes_char size _ c h
    · rw [ofNat_byte (by omega)]; omega

/-- Specification: sent in the bytes of the field, the value does not look like the text of an address. -/
def PlainValue (f v : Nat) : Prop :=
  ∀ s : List Char, oxmSizes[f]? = some s.length → (∀ c ∈ s, c.toNat < 256) → beNum s = v → ¬ LooksText s

theorem plain_bytes {f v : Nat} {s : List Char} (h : PlainValue f v) (e : oxmBytes f v = .ok s) : ¬ LooksText s := by
  unfold oxmBytes at e
  cases hs : oxmSizes[f]? with
  | none => rw [hs] at e; cases e
  | some size =>
    rw [hs] at e
    simp only at e
    by_cases hv : v < 256 ^ size
    · rw [if_pos hv] at e
      cases e
      exact h _ (by rw [toBytes_length, hs]) (toBytes_char size v) (toBytes_num size v hv)
    · rw [if_neg hv] at e; cases e

theorem toBytes_unique : ∀ (n : Nat) (s : List Char), s.length = n → (∀ c ∈ s, c.toNat < 256) → toBytes n (beNum s) = s := by
  intro n
  induction n with
  | zero => intro s h _; rw [List.length_eq_zero_iff.1 h]; rfl
  | succ n ih =>
    intro s h hc
    rcases List.eq_nil_or_concat s with rfl | ⟨t, c, e⟩
    · cases h
    · rw [List.concat_eq_append] at e
      subst e
      have hc' := hc c (by simp)
      rw [beNum_append, toBytes, show (beNum t * 256 + c.toNat) / 256 = beNum t from by omega, show (beNum t * 256 + c.toNat) % 256 = c.toNat from by omega,
        ih t (by simpa using h) fun x hx => hc x (List.mem_append_left _ hx), Char.ofNat_toNat]

theorem plain_iff {f v size : Nat} (hs : oxmSizes[f]? = some size) (hv : v < 256 ^ size) : PlainValue f v ↔ ¬ LooksText (toBytes size v) := by
  constructor
  · intro h
    exact h _ (by rw [toBytes_length, hs]) (toBytes_char size v) (toBytes_num size v hv)
  · intro h s hl hc e
    rw [hs] at hl
    have := toBytes_unique size s (Option.some.inj hl).symm hc
    rw [e] at this
    rw [← this]; exact h

instance (s : List Char) : Decidable (LooksText s) := by unfold LooksText; infer_instance

/-! ### Matches -/

/-- Field, value and mask of an entry. -/
def ROxm.triple (x : ROxm) : Nat × Nat × Option Nat := (x.field, beNum x.value, x.mask.map beNum)

theorem oxmStep_plain {x : ROxm} (hv : ¬ LooksText x.value) (hm : ∀ b, x.mask = some b → ¬ LooksText b) (m : Match) :
    oxmStep m x = .ok (m.append x.triple.1 x.triple.2.1 x.triple.2.2) := by
  unfold oxmStep ROxm.triple
  rw [normaliseBytes_plain hv]
  cases e : x.mask with
  | none => rfl
  | some b =>
    simp only [bind, Except.bind, Option.mapM, normaliseBytes_plain (hm b e)]
    rfl

theorem oxms_plain : ∀ {l : List ROxm} (m : Match), (∀ x ∈ l, ¬ LooksText x.value ∧ ∀ b, x.mask = some b → ¬ LooksText b) →
    l.foldlM oxmStep m = .ok ((l.map ROxm.triple).foldl (fun m x => m.append x.1 x.2.1 x.2.2) m)
  | [], _, _ => rfl
  | x :: l, m, h => by
    obtain ⟨h1, h2⟩ := h x List.mem_cons_self
    rw [List.foldlM_cons, oxmStep_plain h1 h2, List.map_cons, List.foldl_cons]
    exact oxms_plain _ fun y hy => h y (List.mem_cons_of_mem _ hy)

theorem eq_of_perm {a b : Match} (ha : a.Inv) (hb : b.Inv) (h : a.items.Perm b.items) : a.eq b = true := by
  unfold Match.eq
  rw [if_pos, (dictEq_iff ha.nodup hb.nodup).2 fun k => ?_]
  · cases e : b.items.lookup k with
    | none =>
      rw [lookup_eq_none_iff] at e ⊢
      exact fun hm => e ((h.map _).mem_iff.1 hm)
    | some v =>
      have hm := h.mem_iff.2 (mem_of_lookup_eq_some e)
      exact lookup_eq_some_of_mem ha.nodup hm
  · apply Nat.eq_of_testBit_eq
    intro i
    rw [ha.req, hb.req]
    simp only [(h.map (·.1)).mem_iff]

/-- Specification: an item of a match on a field of OpenFlow, in range. -/
structure OxmOK (x : Nat × Nat × Option Nat) : Prop where
  field : x.1 < 40
  value : InRange x.1 x.2.1
  mask : ∀ m, x.2.2 = some m → InRange x.1 m

/-- Specification: the entry that is sent for an item: the same field and mask, and the same value on the bits of the mask. -/
structure OxmFor (x : Nat × Nat × Option Nat) (o : ROxm) : Prop where
  field : o.field = x.1
  value : beNum o.value = sentValue x
  mask : o.mask.map beNum = x.2.2
  valueBytes : oxmBytes x.1 (sentValue x) = .ok o.value
  maskBytes : ∀ m, x.2.2 = some m → ∃ b, o.mask = some b ∧ oxmBytes x.1 m = .ok b

theorem matchToRyu_ok {m : Match} (h : ∀ x ∈ m.items, OxmOK x) : ∃ ys l, matchToRyu m = .ok l ∧ List.Forall₂ OxmFor m.items ys ∧ l.Perm ys := by
  obtain ⟨ys, e, hf⟩ := mapM_forall2 (f := oxmOf) (R := OxmFor) (l := m.items) fun x hx => by
    obtain ⟨o, h1, h2, h3, h4, h5, h6⟩ := oxmOf_ok (h x hx).field (h x hx).value (h x hx).mask
    exact ⟨o, h1, h2, h3, h4, h5, h6⟩
  refine ⟨ys, ys.foldl (fun acc x => insort (fun a b => decide (a.field < b.field)) x acc) [], ?_, hf, ?_⟩
  · unfold matchToRyu; rw [e]; rfl
  · simpa using sort_perm (fun a b : ROxm => decide (a.field < b.field)) ys []

end OFE.Ryu
