import Verif.Text.Codes

/-!
# The texts of matches, actions and instructions can be read back
-/

namespace OFE.Str
open Fmt Ovs

/-! ### Actions -/

/-- An action whose text is modelled in full: no group, and a field with a name. -/
def ActOK (a : Action) : Prop := (∀ g, a ≠ .group g) ∧ ∀ f v, a = .setField f v → f < 56

theorem stops_cons {cls : Char → Bool} {c : Char} (h : cls c = false) (r : List Char) : Stops cls (c :: r) := ⟨c, r, rfl, h⟩

theorem stops_app {cls : Char → Bool} {lit : List Char} (h : lit.head?.map cls = some false) (r : List Char) : Stops cls (lit ++ r) := by
  cases lit with
  | nil => cases h
  | cons c l => exact ⟨c, l ++ r, rfl, Option.some.inj h⟩

theorem value_reads (gt : Nat → List Char) {a b : Action} (ha : ActOK a) (hb : ActOK b) (hty : a.ty = b.ty) {s t : List Char}
    (h : valueText gt a ++ (')' :: s) = valueText gt b ++ (')' :: t)) : a = b ∧ s = t := by
  have hnum : ∀ m n : Nat, digits 10 m ++ (')' :: s) = digits 10 n ++ (')' :: t) → m = n ∧ s = t := by
    intro m n e
    obtain ⟨h1, h2⟩ := reads_digits m n _ _ trivial trivial (stops_cons (by decide) _) (stops_cons (by decide) _) e
    exact ⟨h1, (List.cons.inj h2).2⟩
  have hnone : "None".toList ++ (')' :: s) = "None".toList ++ (')' :: t) → s = t := fun e => (List.cons.inj (List.append_cancel_left e)).2
  cases a <;> cases b <;> simp only [Action.ty] at hty <;> first
    | (exact absurd hty (by decide))
    | (obtain ⟨h1, h2⟩ := hnum _ _ h; exact ⟨by rw [h1], h2⟩)
    | (exact ⟨rfl, hnone h⟩)
    | (exact absurd rfl (ha.1 _))
    | skip
  case setField.setField f v f' v' =>
    simp only [valueText, List.append_assoc] at h
    have h := List.append_cancel_left h
    obtain ⟨h1, h2⟩ := reads_field f f' _ _ (ha.2 _ _ rfl) (hb.2 _ _ rfl) (stops_app (by decide +kernel) _) (stops_app (by decide +kernel) _) h
    have h2 := List.append_cancel_left h2
    obtain ⟨h3, h4⟩ := reads_digits v v' _ _ trivial trivial (stops_app (by decide +kernel) _) (stops_app (by decide +kernel) _) h2
    have h4 := List.append_cancel_left h4
    exact ⟨by rw [h1, h3], (List.cons.inj h4).2⟩

theorem reads_action (gt : Nat → List Char) : Reads ActOK (fun _ => True) (actionText gt) := by
  intro a b s t ha hb _ _ h
  simp only [actionText, List.append_assoc] at h
  have h := List.append_cancel_left h
  obtain ⟨h1, h2⟩ := reads_ty a.ty b.ty _ _ (ty_lt a) (ty_lt b) (stops_app (by decide +kernel) _) (stops_app (by decide +kernel) _) h
  exact value_reads gt ha hb h1 (List.append_cancel_left h2)

theorem actions_reads (gt : Nat → List Char) {xs ys : List Action} (hx : ∀ a ∈ xs, ActOK a) (hy : ∀ a ∈ ys, ActOK a) {s t : List Char}
    (h : join ",".toList (xs.map (actionText gt)) ++ (']' :: s) = join ",".toList (ys.map (actionText gt)) ++ (']' :: t)) : xs = ys ∧ s = t :=
  reads_join (c := ',') (sep' := []) rfl (by decide) (reads_action gt) (fun _ => trivial) (fun _ => trivial)
    (fun a _ => ⟨'(', _, rfl, by decide⟩) hx hy h

/-! ### Matches -/

/-- Characters of values, masks and the slash between. -/
def isNum (c : Char) : Bool := numChars.contains c

/-- Characters of values, masks and the slash between. -/
def isNumS (c : Char) : Bool := numChars.contains c || c == '/'

theorem mem_isNum {s : List Char} (h : ∀ c ∈ s, c ∈ numChars) : ∀ c ∈ s, isNum c = true := fun c hc => by
  unfold isNum; exact List.contains_iff_mem.2 (h c hc)

theorem padHex_length {w : Nat} (hw : 0 < w) : ∀ n, n < 16 ^ w → (padHex w n).length = w := by
  induction w with
  | zero => omega
  | succ w ih =>
    intro n hn
    rcases Nat.eq_zero_or_pos w with rfl | h0
    · rw [padHex_one (by simpa using hn)]; rfl
    · rw [padHex_succ h0, List.length_append, ih h0 _ (by rw [Nat.pow_succ] at hn; omega)]; rfl

theorem filter_pairs : ∀ {s : List Char}, 2 ∣ s.length → (∀ c ∈ s, c ≠ ':') → (joinWith ':' (pairs s)).filter (· != ':') = s
  | [], _, _ => rfl
  | [_], h, _ => by simp at h
  | [a, b], _, hc => by
    have h1 := hc a (by simp)
    have h2 := hc b (by simp)
    simp [pairs, joinWith, h1, h2]
  | [a, b, c], h, _ => by simp at h
  | a :: b :: c :: d :: rest, h, hc => by
    have h1 := hc a (by simp)
    have h2 := hc b (by simp)
    have ih := filter_pairs (s := c :: d :: rest) (by simp only [List.length_cons] at h ⊢; omega)
      (fun x hx => hc x (List.mem_cons_of_mem _ (List.mem_cons_of_mem _ hx)))
    rw [pairs] at ih
    rw [pairs, pairs, joinWith]
    simp only [List.cons_append, List.nil_append]
    rw [List.filter_cons_of_pos (by simpa using h1), List.filter_cons_of_pos (by simpa using h2), List.filter_cons_of_neg (by simp), ih]

theorem ipv6_inj {v w : Nat} (hv : v < 2 ^ 128) (hw : w < 2 ^ 128) (h : formatIpv6 v = formatIpv6 w) : v = w := by
  have key : ∀ x : Nat, x < 2 ^ 128 → (formatIpv6 x).filter (· != ':') = padHex 32 x := by
    intro x hx
    have hx' : x < 16 ^ 32 := by have : (16 : Nat) ^ 32 = 2 ^ 128 := by decide
                                 omega
    apply filter_pairs
    · rw [padHex_length (by omega) _ hx']; decide
    · intro c hc e
      subst e
      rcases List.mem_append.1 hc with h1 | h1
      · exact absurd (List.mem_replicate.1 h1).2 (by decide)
      · exact (digits_no (by omega) (by omega) x).1 h1
  have h2 : padHex 32 v = padHex 32 w := by rw [← key v hv, ← key w hw, h]
  have h3 := padHex_read (w := 32) (by omega) v (by have : (16 : Nat) ^ 32 = 2 ^ 128 := by decide
                                                    omega)
  have h4 := padHex_read (w := 32) (by omega) w (by have : (16 : Nat) ^ 32 = 2 ^ 128 := by decide
                                                    omega)
  rw [h2, h4] at h3
  exact (Except.ok.inj h3).symm

theorem form_facts : (List.range 56).all (fun f => decide ((fieldForm f = .ethernet → fieldBits f = some 48) ∧ (fieldForm f = .ipv4 → fieldBits f = some 32) ∧
    (fieldForm f = .ipv6 → fieldBits f = some 128))) = true := by decide +kernel

theorem form_chars {f v : Nat} (hf : f < 56) (hv : InRange f v) : ∀ c ∈ (fieldForm f).text v, c ∈ numChars := by
  obtain ⟨h1, h2, h3⟩ := of_decide_eq_true (List.all_eq_true.1 form_facts f (List.mem_range.2 hf))
  cases e : fieldForm f with
  | decimal => exact (decimal_text v).chars
  | hex => exact (hex_text v).chars
  | ethernet => exact (ethernet_text (hv _ (h1 e))).chars
  | ipv4 => exact (ipv4_text (hv _ (h2 e))).chars
  | ipv6 =>
    intro c hc
    rcases mem_join hc with rfl | ⟨p, hp, hc⟩
    · decide
    · exact padHex_numChars 32 v c (mem_pairs hp hc)

theorem form_inj {f v w : Nat} (hf : f < 56) (hv : InRange f v) (hw : InRange f w) (h : (fieldForm f).text v = (fieldForm f).text w) : v = w := by
  obtain ⟨h1, h2, h3⟩ := of_decide_eq_true (List.all_eq_true.1 form_facts f (List.mem_range.2 hf))
  have key : ∀ {t : List Char}, NumText t v → NumText t w → v = w := fun a b => Except.ok.inj (a.read.symm.trans b.read)
  cases e : fieldForm f with
  | decimal => rw [e] at h; exact key (decimal_text v) (by rw [show digits 10 v = digits 10 w from h]; exact decimal_text w)
  | hex => rw [e] at h; exact key (hex_text v) (by rw [show formatHex v = formatHex w from h]; exact hex_text w)
  | ethernet =>
    rw [e] at h
    exact key (ethernet_text (hv _ (h1 e))) (by rw [show formatEthernet v = formatEthernet w from h]; exact ethernet_text (hw _ (h1 e)))
  | ipv4 =>
    rw [e] at h
    exact key (ipv4_text (hv _ (h2 e))) (by rw [show formatIpv4 v = formatIpv4 w from h]; exact ipv4_text (hw _ (h2 e)))
  | ipv6 => rw [e] at h; exact ipv6_inj (hv _ (h3 e)) (hw _ (h3 e)) h

/-- An entry of a match with a named field and a value and a mask that fit. -/
def EntryOK (x : Nat × Nat × Option Nat) : Prop := x.1 < 56 ∧ InRange x.1 x.2.1 ∧ ∀ m, x.2.2 = some m → InRange x.1 m

theorem stops_num {s : List Char} (h : Stops isNumS s) : Stops isNum s := by
  obtain ⟨c, r, rfl, hc⟩ := h
  refine ⟨c, r, rfl, ?_⟩
  unfold isNumS at hc
  rw [Bool.or_eq_false_iff] at hc
  exact hc.1

theorem masked_reads {f v w : Nat} {m n : Option Nat} (hf : f < 56) (hv : InRange f v) (hw : InRange f w) (hm : ∀ x, m = some x → InRange f x)
    (hn : ∀ x, n = some x → InRange f x) {s t : List Char} (hs : Stops isNumS s) (ht : Stops isNumS t)
    (h : withMask (fieldForm f).text v m ++ s = withMask (fieldForm f).text w n ++ t) : v = w ∧ m = n ∧ s = t := by
  have slash : ∀ r, Stops isNum ('/' :: r) := fun r => stops_cons (by decide) r
  have no : ∀ {r u : List Char}, Stops isNumS u → u = '/' :: r → False := by
    rintro r u ⟨c, r', e, hc⟩ e'
    rw [e] at e'
    rw [(List.cons.inj e').1] at hc
    exact absurd hc (by decide)
  have cv := mem_isNum (form_chars hf hv)
  have cw := mem_isNum (form_chars hf hw)
  cases m with
  | none =>
    cases n with
    | none =>
      obtain ⟨h1, h2⟩ := run_eq cv cw (stops_num hs) (stops_num ht) h
      exact ⟨form_inj hf hv hw h1, rfl, h2⟩
    | some n =>
      simp only [withMask, List.append_assoc, List.cons_append] at h
      obtain ⟨h1, h2⟩ := run_eq cv cw (stops_num hs) (slash _) h
      exact (no hs h2).elim
  | some m =>
    cases n with
    | none =>
      simp only [withMask, List.append_assoc, List.cons_append] at h
      obtain ⟨h1, h2⟩ := run_eq cv cw (slash _) (stops_num ht) h
      exact (no ht h2.symm).elim
    | some n =>
      simp only [withMask, List.append_assoc, List.cons_append] at h
      obtain ⟨h1, h2⟩ := run_eq cv cw (slash _) (slash _) h
      obtain ⟨h3, h4⟩ := run_eq (mem_isNum (form_chars hf (hm _ rfl))) (mem_isNum (form_chars hf (hn _ rfl))) (stops_num hs) (stops_num ht)
        (List.cons.inj h2).2
      exact ⟨form_inj hf hv hw h1, by rw [form_inj hf (hm _ rfl) (hn _ rfl) h3], h4⟩

theorem reads_entry : Reads EntryOK (Stops isNumS) entryText := by
  rintro ⟨f, v, m⟩ ⟨g, w, n⟩ s t ⟨ha1, ha2, ha3⟩ ⟨hb1, hb2, hb3⟩ hs ht h
  simp only [entryText, List.append_assoc] at h
  obtain ⟨h1, h2⟩ := reads_field f g _ _ ha1 hb1 (stops_app (by decide +kernel) _) (stops_app (by decide +kernel) _) h
  subst h1
  obtain ⟨h3, h4, h5⟩ := masked_reads ha1 ha2 hb2 ha3 hb3 hs ht (List.append_cancel_left h2)
  exact ⟨Prod.ext rfl (Prod.ext h3 h4), h5⟩

theorem entries_reads {xs ys : MItems} (hx : ∀ a ∈ xs, EntryOK a) (hy : ∀ a ∈ ys, EntryOK a) {s t : List Char}
    (h : join ", ".toList (xs.map entryText) ++ ('}' :: s) = join ", ".toList (ys.map entryText) ++ ('}' :: t)) : xs = ys ∧ s = t := by
  refine reads_join (c := ',') (sep' := [' ']) rfl (by decide) reads_entry (fun r => stops_cons (by decide) _) (fun r => stops_cons (by decide) _)
    (fun a ha => ?_) hx hy h
  obtain ⟨d, r, e, hd⟩ := field_head ha.1
  refine ⟨d, r ++ (": ".toList ++ withMask (fieldForm a.1).text a.2.1 a.2.2), by rw [entryText, e]; rfl, ?_⟩
  rintro rfl
  exact absurd hd (by decide)

/-! ### Instructions -/

/-- The parts of the text of instructions. -/
inductive IPart where
  | goto (n : Nat)
  | apply (l : List Action)
  | write (l : List Action)
  | wmeta (v : Nat) (m : Option Nat)
  | clear
  | meter (n : Nat)
deriving DecidableEq

/-- Which part it is. -/
def IPart.tag : IPart → Fin 6
  | .goto _ => 0 | .apply _ => 1 | .write _ => 2 | .wmeta .. => 3 | .clear => 4 | .meter _ => 5

/-- How a part begins. -/
def tagText : Fin 6 → List Char
  | 0 => "goto_table=".toList | 1 => "apply_actions=[".toList | 2 => "write_actions=[".toList | 3 => "write_metadata=(".toList
  | 4 => "clear_actions".toList | 5 => "meter=".toList

/-- How it goes on. -/
def IPart.body (gt : Nat → List Char) : IPart → List Char
  | .goto n => digits 10 n
  | .apply l => join ",".toList (l.map (actionText gt)) ++ "]".toList
  | .write l => join ",".toList (l.map (actionText gt)) ++ "]".toList
  | .wmeta v m => digits 10 v ++ (", ".toList ++ (optNum m ++ ")".toList))
  | .clear => []
  | .meter n => digits 10 n

/-- The text of a part. -/
def IPart.text (gt : Nat → List Char) (p : IPart) : List Char := tagText p.tag ++ p.body gt

/-- The actions in the part have texts. -/
def IPart.OK : IPart → Prop
  | .apply l => ∀ a ∈ l, ActOK a
  | .write l => ∀ a ∈ l, ActOK a
  | _ => True

theorem tags_free : ∀ i j : Fin 6, i ≠ j → ¬ tagText i <+: tagText j := by decide +kernel

theorem tag_eq {i j : Fin 6} {x y : List Char} (h : tagText i ++ x = tagText j ++ y) : i = j := by
  apply Classical.byContradiction
  intro hn
  rcases List.append_eq_append_iff.1 h with ⟨a, e, -⟩ | ⟨a, e, -⟩
  · exact tags_free i j hn ⟨a, e.symm⟩
  · exact tags_free j i (Ne.symm hn) ⟨a, e.symm⟩

theorem reads_part (gt : Nat → List Char) : Reads IPart.OK (Stops isDig) (IPart.text gt) := by
  intro p q s t hp hq hs ht h
  simp only [IPart.text, List.append_assoc] at h
  have htag := tag_eq h
  rw [htag] at h
  replace h := List.append_cancel_left h
  cases p <;> cases q <;> first | (simp [IPart.tag] at htag; done) | skip
  case goto.goto m n =>
    obtain ⟨h1, h2⟩ := reads_digits m n _ _ trivial trivial hs ht h
    exact ⟨by rw [h1], h2⟩
  case meter.meter m n =>
    obtain ⟨h1, h2⟩ := reads_digits m n _ _ trivial trivial hs ht h
    exact ⟨by rw [h1], h2⟩
  case clear.clear => exact ⟨rfl, h⟩
  case apply.apply l l' =>
    simp only [IPart.body, List.append_assoc] at h
    obtain ⟨h1, h2⟩ := actions_reads gt hp hq h
    exact ⟨by rw [h1], h2⟩
  case write.write l l' =>
    simp only [IPart.body, List.append_assoc] at h
    obtain ⟨h1, h2⟩ := actions_reads gt hp hq h
    exact ⟨by rw [h1], h2⟩
  case wmeta.wmeta v m v' m' =>
    simp only [IPart.body, List.append_assoc] at h
    obtain ⟨h1, h2⟩ := reads_digits v v' _ _ trivial trivial (stops_app (by decide +kernel) _) (stops_app (by decide +kernel) _) h
    have h2 := List.append_cancel_left h2
    obtain ⟨h3, h4⟩ := reads_opt m m' _ _ trivial trivial (stops_app (by decide +kernel) _) (stops_app (by decide +kernel) _) h2
    exact ⟨by rw [h1, h3], List.append_cancel_left h4⟩

theorem part_head (gt : Nat → List Char) (p : IPart) : ∃ d r, p.text gt = d :: r ∧ d ≠ ']' := by
  cases p
  case goto n => exact ⟨'g', _, rfl, by decide⟩
  case apply l => exact ⟨'a', _, rfl, by decide⟩
  case write l => exact ⟨'w', _, rfl, by decide⟩
  case wmeta v m => exact ⟨'w', _, rfl, by decide⟩
  case clear => exact ⟨'c', _, rfl, by decide⟩
  case meter n => exact ⟨'m', _, rfl, by decide⟩

/-- The parts that are written. -/
def instParts (i : Inst) : List IPart :=
  (match i.goto with | none => [] | some n => [.goto n]) ++ (if i.apply.len = 0 then [] else [.apply i.apply.iter]) ++
  (if i.write.len = 0 then [] else [.write i.write.iter]) ++ (match i.wmeta with | none => [] | some (v, m) => [.wmeta v m]) ++
  (if i.clear then [.clear] else []) ++ (match i.meter with | none => [] | some n => [.meter n])

theorem apply_lit : "apply_actions=[".toList = "apply_actions=".toList ++ "[".toList := by decide +kernel

theorem write_lit : "write_actions=[".toList = "write_actions=".toList ++ "[".toList := by decide +kernel

theorem text_apply (gt : Nat → List Char) (l : ActionList) : "apply_actions=".toList ++ listText gt l = (IPart.apply l.iter).text gt := by
  have h : (IPart.apply l.iter).text gt = "apply_actions=[".toList ++ (join ",".toList (l.iter.map (actionText gt)) ++ "]".toList) := rfl
  rw [h, apply_lit, List.append_assoc]
  rfl

theorem text_write (gt : Nat → List Char) (l : ActionList) : "write_actions=".toList ++ listText gt l = (IPart.write l.iter).text gt := by
  have h : (IPart.write l.iter).text gt = "write_actions=[".toList ++ (join ",".toList (l.iter.map (actionText gt)) ++ "]".toList) := rfl
  rw [h, write_lit, List.append_assoc]
  rfl

theorem text_clear (gt : Nat → List Char) : "clear_actions".toList = IPart.clear.text gt := (List.append_nil _).symm

theorem instText_parts (gt : Nat → List Char) (i : Inst) :
    instText gt i = "Instructions[".toList ++ (join ",".toList ((instParts i).map (IPart.text gt)) ++ "]".toList) := by
  obtain ⟨g, a, w, me, c, mt⟩ := i
  unfold instText instParts
  simp only [List.map_append]
  refine congrArg (fun l => "Instructions[".toList ++ (join ",".toList l ++ "]".toList)) ?_
  refine congrArg₂ (· ++ ·) (congrArg₂ (· ++ ·) (congrArg₂ (· ++ ·) (congrArg₂ (· ++ ·) (congrArg₂ (· ++ ·) ?_ ?_) ?_) ?_) ?_) ?_
  · cases g <;> rfl
  · by_cases ha : a.len = 0
    · rw [if_pos ha, if_pos ha]; rfl
    · rw [if_neg ha, if_neg ha, text_apply]; rfl
  · by_cases ha : w.len = 0
    · rw [if_pos ha, if_pos ha]; rfl
    · rw [if_neg ha, if_neg ha, text_write]; rfl
  · cases me <;> rfl
  · cases c
    · rfl
    · exact congrArg (fun x => [x]) (text_clear gt)
  · cases mt <;> rfl

/-- What can be read off the parts. -/
def partsInfo (l : List IPart) : Option Nat × Option (List Action) × Option (List Action) × MetaW × Bool × Option Nat :=
  (l.findSome? fun | .goto n => some n | _ => none, l.findSome? fun | .apply n => some n | _ => none, l.findSome? fun | .write n => some n | _ => none,
   l.findSome? fun | .wmeta v m => some (v, m) | _ => none, l.contains .clear, l.findSome? fun | .meter n => some n | _ => none)

theorem partsInfo_eq (i : Inst) : partsInfo (instParts i) = (i.goto, if i.apply.len = 0 then none else some i.apply.iter,
    if i.write.len = 0 then none else some i.write.iter, i.wmeta, i.clear, i.meter) := by
  obtain ⟨g, a, w, me, c, mt⟩ := i
  unfold instParts partsInfo
  cases g <;> cases me <;> cases c <;> cases mt <;> by_cases ha : a.len = 0 <;> by_cases hw : w.len = 0 <;> simp [ha, hw]

/-- Instructions whose actions have texts and whose lists are as long as they say. -/
structure InstOK (i : Inst) : Prop where
  apply : ∀ a ∈ i.apply.iter, ActOK a
  write : ∀ a ∈ i.write.iter, ActOK a
  lenA : i.apply.len = i.apply.iter.length
  lenW : i.write.len = i.write.iter.length

theorem parts_ok {i : Inst} (h : InstOK i) : ∀ p ∈ instParts i, p.OK := by
  intro p hp
  unfold instParts at hp
  simp only [List.mem_append] at hp
  rcases hp with ((((hp | hp) | hp) | hp) | hp) | hp
  · split at hp <;> simp at hp; subst hp; trivial
  · split at hp <;> simp at hp; subst hp; exact h.apply
  · split at hp <;> simp at hp; subst hp; exact h.write
  · split at hp <;> simp at hp; subst hp; trivial
  · split at hp <;> simp at hp; subst hp; trivial
  · split at hp <;> simp at hp; subst hp; trivial

theorem list_eq {a b : ActionList} (ha : a.len = a.iter.length) (hb : b.len = b.iter.length)
    (h : (if a.len = 0 then none else some a.iter) = (if b.len = 0 then none else some b.iter)) : a.len = b.len ∧ a.iter = b.iter := by
  by_cases h1 : a.len = 0
  · by_cases h2 : b.len = 0
    · refine ⟨by omega, ?_⟩
      rw [List.length_eq_zero_iff.1 (ha.symm.trans h1), List.length_eq_zero_iff.1 (hb.symm.trans h2)]
    · rw [if_pos h1, if_neg h2] at h; cases h
  · by_cases h2 : b.len = 0
    · rw [if_neg h1, if_pos h2] at h; cases h
    · rw [if_neg h1, if_neg h2] at h
      have := Option.some.inj h
      exact ⟨by rw [ha, hb, this], this⟩

theorem inst_reads (gt : Nat → List Char) {i j : Inst} (hi : InstOK i) (hj : InstOK j) {s t : List Char}
    (h : instText gt i ++ s = instText gt j ++ t) :
    (i.goto = j.goto ∧ (i.apply.len = j.apply.len ∧ i.apply.iter = j.apply.iter) ∧ (i.write.len = j.write.len ∧ i.write.iter = j.write.iter) ∧
      i.wmeta = j.wmeta ∧ i.clear = j.clear ∧ i.meter = j.meter) ∧ s = t := by
  rw [instText_parts, instText_parts, List.append_assoc, List.append_assoc, List.append_assoc, List.append_assoc] at h
  have h := List.append_cancel_left h
  obtain ⟨h1, h2⟩ := reads_join (c := ',') (sep' := []) (e := ']') rfl (by decide) (reads_part gt) (fun r => stops_cons (by decide) _)
    (fun r => stops_cons (by decide) _) (fun a _ => part_head gt a) (parts_ok hi) (parts_ok hj) h
  refine ⟨?_, h2⟩
  have h3 := congrArg partsInfo h1
  rw [partsInfo_eq, partsInfo_eq] at h3
  simp only [Prod.mk.injEq] at h3
  obtain ⟨e1, e2, e3, e4, e5, e6⟩ := h3
  exact ⟨e1, list_eq hi.lenA hj.lenA e2, list_eq hi.lenW hj.lenW e3, e4, e5, e6⟩

end OFE.Str
