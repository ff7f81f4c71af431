import Verif.Ovs.InstLemmas

/-!
# Open vSwitch text: matches and lines written and read
-/

namespace OFE.Ovs
open Fmt

/-- `actions=`, convert_ovs.py:608 -/
def pat : List Char := "actions=".toList

/-! ### Texts that keep apart from what follows -/

theorem splitOn_ne (s : List Char) : splitOn pat s ≠ [] := by
  fun_cases splitOn pat s <;> simp_all

theorem splitOn_miss {c : Char} {r : List Char} (h : dropLit pat (c :: r) = none) {x : List Char} {t : List (List Char)} (e : splitOn pat r = x :: t) :
    splitOn pat (c :: r) = (c :: x) :: t := by
  rw [splitOn, h, if_neg (by simp), e]

/-- A text in front of which nothing is split, and which consists of the items `l`. -/
structure Chunk (u : List Char) (l : List (List Char)) : Prop where
  quiet : ∀ r x t, splitOn pat r = x :: t → splitOn pat (u ++ r) = (u ++ x) :: t
  items : ∀ r, items (u ++ r) = l ++ items r

theorem Chunk.append {u v : List Char} {l m : List (List Char)} (h : Chunk u l) (h' : Chunk v m) : Chunk (u ++ v) (l ++ m) := by
  refine ⟨fun r x t e => ?_, fun r => ?_⟩
  · rw [List.append_assoc, List.append_assoc]
    exact h.quiet _ _ _ (h'.quiet _ _ _ e)
  · rw [List.append_assoc, h.items, h'.items, List.append_assoc]

theorem dropLit_head {a c : Char} {p r : List Char} (h : a ≠ c) : dropLit (a :: p) (c :: r) = none := by
  rw [dropLit, if_neg h]

theorem chunk_space : Chunk [' '] [] := by
  refine ⟨fun r x t e => ?_, fun r => rfl⟩
  exact splitOn_miss (dropLit_head (p := "ctions=".toList) (by decide)) e

theorem dropLit_some {p s r : List Char} (h : dropLit p s = some r) : s = p ++ r := by
  induction p generalizing s with
  | nil => cases s <;> (cases h; rfl)
  | cons a p ih =>
    cases s with
    | nil => cases h
    | cons b s =>
      rw [dropLit] at h
      by_cases e : a = b
      · rw [if_pos e] at h
        rw [ih h, e]; rfl
      · rw [if_neg e] at h; cases h

theorem prefix_before {p q r : List Char} {c : Char} {x : List Char} (h : p ++ r = q ++ c :: x) (hc : c ∉ p) : p <+: q := by
  rcases List.append_eq_append_iff.1 h with ⟨a, ha, -⟩ | ⟨b, hb, hb'⟩
  · exact ⟨a, ha.symm⟩
  · cases b with
    | nil => rw [List.append_nil] at hb; exact ⟨[], by rw [List.append_nil]; exact hb⟩
    | cons d b =>
      rw [List.cons_append] at hb'
      have := (List.cons.inj hb').1
      subst this
      exact absurd (hb ▸ (List.mem_append_right q List.mem_cons_self)) hc

/-- Behind a separator nothing of what is before it can be the beginning of the pattern. -/
theorem pat_in_item {x r : List Char} {sep : Char} (hs : sep ∉ pat) (h : (dropLit pat (x ++ sep :: r)).isSome = true) : pat <+: x := by
  obtain ⟨y, e⟩ := Option.isSome_iff_exists.1 h
  exact prefix_before (dropLit_some e).symm hs

theorem chunk_item {name val : List Char} {sep : Char} (hn : ∀ c ∈ name, c ≠ '=' ∧ c ≠ ',' ∧ isSpace c = false)
    (hv : ∀ c ∈ val, c ≠ '=' ∧ c ≠ ',' ∧ isSpace c = false) (hs : sep = ',' ∨ sep = ' ') (ha : ¬ "actions".toList <:+ name) :
    Chunk (name ++ '=' :: (val ++ [sep])) [name ++ '=' :: val] := by
  have hsp : sep ∉ pat := by rcases hs with rfl | rfl <;> decide
  have hmiss : ∀ x, x ≠ [] → (∃ y, name ++ '=' :: (val ++ [sep]) = y ++ x) → ∀ r, dropLit pat (x ++ r) = none := by
    intro x hx ⟨y, e⟩ r
    obtain ⟨z, rfl⟩ : ∃ z, x = z ++ [sep] := by
      refine ⟨x.dropLast, ?_⟩
      have hl : (name ++ '=' :: (val ++ [sep])).getLast? = some sep := by simp [List.getLast?_append, List.getLast?_cons]
      rw [e, List.getLast?_append_of_ne_nil _ hx, List.getLast?_eq_some_iff] at hl
      obtain ⟨q, rfl⟩ := hl
      simp
    have e' : name ++ '=' :: val = y ++ z := by
      have : (name ++ '=' :: val) ++ [sep] = (y ++ z) ++ [sep] := by simpa using e
      exact List.append_cancel_right this
    cases hd : dropLit pat (z ++ [sep] ++ r) with
    | none => rfl
    | some w =>
      exfalso
      have hp : pat <+: z := pat_in_item hsp (r := r) (by rw [show z ++ sep :: r = z ++ [sep] ++ r from by simp, hd]; rfl)
      obtain ⟨q, rfl⟩ := hp
      -- the only '=' of the text is the one behind the name
      have e2 : name ++ '=' :: val = (y ++ "actions".toList) ++ '=' :: q := by
        rw [e', show pat = "actions".toList ++ ['='] from rfl]; simp
      rcases List.append_eq_append_iff.1 e2 with ⟨a, h1, h2⟩ | ⟨b, h1, h2⟩
      · cases a with
        | nil => rw [List.append_nil] at h1; exact ha ⟨y, h1⟩
        | cons d a =>
          have : '=' ∈ val := by
            rw [(List.cons.inj h2).2]; simp
          exact (hv _ this).1 rfl
      · cases b with
        | nil => rw [List.append_nil] at h1; exact ha ⟨y, h1.symm⟩
        | cons d b =>
          have hd' := (List.cons.inj h2).1
          have : '=' ∈ name := by rw [h1, hd']; simp
          exact (hn _ this).1 rfl
  constructor
  · intro r x t e
    have key : ∀ z, (∃ y, name ++ '=' :: (val ++ [sep]) = y ++ z) → splitOn pat (z ++ r) = (z ++ x) :: t := by
      intro z
      induction z with
      | nil => intro _; exact e
      | cons c z ih =>
        intro ⟨y, hy⟩
        have := ih ⟨y ++ [c], by rw [hy]; simp⟩
        exact splitOn_miss (hmiss (c :: z) (by simp) ⟨y, hy⟩ r) this
    exact key _ ⟨[], rfl⟩
  · intro r
    have hsep : (isSpace sep || sep == ',') = true := by rcases hs with rfl | rfl <;> decide
    have key : ∀ w : List Char, w ≠ [] → (∀ c ∈ w, c ≠ ',' ∧ isSpace c = false) → items (w ++ sep :: r) = w :: items r := by
      intro w
      induction w with
      | nil => intro h; exact absurd rfl h
      | cons c w ih =>
        intro _ hc
        obtain ⟨h1, h2⟩ := hc c List.mem_cons_self
        cases w with
        | nil =>
          rw [List.cons_append, List.nil_append, items, if_neg (by simp [h1, h2])]
          simp only [hsep, if_true]
          rw [items.eq_def]
          simp only [hsep, if_true]
        | cons d w =>
          have h3 := ih (by simp) fun e he => hc e (List.mem_cons_of_mem _ he)
          obtain ⟨h4, h5⟩ := hc d (by simp)
          rw [List.cons_append, items.eq_def]
          simp only [h2, Bool.false_or]
          rw [if_neg (by simp [h1])]
          simp only [List.cons_append, h5, Bool.false_or]
          rw [if_neg (by simp [h4])]
          rw [List.cons_append] at h3
          rw [h3]
    have := key (name ++ '=' :: val) (by simp) fun c hc => by
      rcases List.mem_append.1 hc with h | h
      · exact (hn c h).2
      · rcases List.mem_cons.1 h with rfl | h
        · decide
        · exact (hv c h).2
    rw [List.singleton_append, ← this]
    simp

theorem splitOn_none {s : List Char} (h : '=' ∉ s) : splitOn pat s = [s] := by
  induction s with
  | nil => rw [splitOn]
  | cons c s ih =>
    refine splitOn_miss ?_ (ih fun hm => h (List.mem_cons_of_mem _ hm))
    cases hd : dropLit pat (c :: s) with
    | none => rfl
    | some r =>
      rw [dropLit_some hd] at h
      exact absurd (List.mem_append_left _ (by decide)) h

theorem splitOn_line {u i : List Char} {l : List (List Char)} (h : Chunk u l) (hi : '=' ∉ i) : splitOn pat (u ++ (pat ++ i)) = [u, i] := by
  have e : splitOn pat (pat ++ i) = [] :: splitOn pat i := by
    rw [show pat ++ i = 'a' :: ("ctions=".toList ++ i) from rfl, splitOn]
    rw [show dropLit pat ('a' :: ("ctions=".toList ++ i)) = some i from dropLit_append pat i, if_pos (by rfl)]
    rw [show ('a' :: ("ctions=".toList ++ i)).drop (max 1 pat.length) = i from rfl]
  rw [h.quiet _ _ _ e, List.append_nil, splitOn_none hi]

/-! ### One field -/

/-- Specification: an item of a match that is written and read back. -/
structure FieldOK (x : Nat × Nat × Option Nat) : Prop where
  field : x.1 ∈ okFields
  value : InRange x.1 x.2.1
  mask : ∀ m, x.2.2 = some m → InRange x.1 m
  norm : normValue x.1 x.2.1 x.2.2 = x.2

theorem mask_ways {f v m : Nat} (hf : f ∈ okFields) (hv : InRange f v) (hm : InRange f m) :
    ('.' ∈ (fieldForm f).text m ∨ '.' ∉ (fieldForm f).text v) ∧ (':' ∈ (fieldForm f).text m ∨ ':' ∉ (fieldForm f).text v) := by
  obtain ⟨_, -, -, -, -, -, -, -, -, -, -, -, -, h1, h2, h3⟩ := fieldToOvs_facts f hf
  have hn := fun n => digits_no (b := 10) (by omega) (by omega) n
  cases e : fieldForm f with
  | decimal => exact ⟨.inr (hn v).2, .inr (hn v).1⟩
  | hex =>
    have h16 := digits_no (b := 16) (by omega) (by omega) v
    refine ⟨.inr ?_, .inr ?_⟩ <;> simp only [Form.text, formatHex, List.mem_cons, not_or]
    · exact ⟨by decide, by decide, h16.2⟩
    · exact ⟨by decide, by decide, h16.1⟩
  | ethernet =>
    obtain ⟨ps, e1, hl, -, -⟩ := formatEthernet_eq (hm _ (h1 e))
    obtain ⟨qs, e2, -, -, hq⟩ := formatEthernet_eq (hv _ (h1 e))
    refine ⟨.inr ?_, .inl ?_⟩
    · intro h
      rw [Form.text, e2] at h
      rcases mem_join h with h | ⟨p, hp, h⟩
      · exact absurd h (by decide)
      · exact (hq p hp).2.2 h
    · rw [Form.text, e1]
      match ps, hl with
      | p :: q :: rest, _ => simp [joinWith]
  | ipv6 => exact absurd e h3
  | ipv4 =>
    refine ⟨.inl ?_, .inr ?_⟩
    · rw [Form.text, formatIpv4_eq (hm _ (h2 e))]; simp [joinWith]
    · intro h
      rw [Form.text, formatIpv4_eq (hv _ (h2 e))] at h
      rcases mem_join h with h | ⟨p, hp, h⟩
      · exact absurd h (by decide)
      · simp only [List.mem_cons, List.not_mem_nil, or_false] at hp
        rcases hp with rfl | rfl | rfl | rfl <;> exact (hn _).1 h

theorem readValues_field {f v : Nat} {k : Option Nat} (key : List Char) (hf : f ∈ okFields) (hv : InRange f v) (hk : ∀ m, k = some m → InRange f m) :
    readValues key (some ((fieldForm f).text v)) (k.map (fieldForm f).text) = .ok (some v, k) := by
  have ht := form_text hf hv
  have hne : ((fieldForm f).text v).isEmpty = false := by simpa using ht.ne
  cases k with
  | none =>
    simp only [Option.map_none, readValues, hne, ht.read, bind, Except.bind]
    rfl
  | some m =>
    have hm := form_text hf (hk m rfl)
    have hne' : ((fieldForm f).text m).isEmpty = false := by simpa using hm.ne
    obtain ⟨h1, h2⟩ := mask_ways hf hv (hk m rfl)
    simp only [Option.map_some, readValues, hne, hne', Bool.or_self]
    rw [if_neg (by simp), if_neg, if_neg]
    · simp only [ht.read, hm.read, bind, Except.bind]
      rfl
    · rintro ⟨a, -, c⟩
      rcases h2 with h2 | h2
      · exact c h2
      · rw [List.count_eq_zero.2 h2] at a; omega
    · rintro ⟨a, b⟩
      rcases h1 with h1 | h1
      · exact b h1
      · rw [List.count_eq_zero.2 h1] at a; omega

theorem vid_range {v : Nat} (h : InRange fVid v) : v &&& 0x1fff = v := by
  have : v < 2 ^ 13 := h 13 (by decide)
  exact Nat.and_two_pow_sub_one_of_lt_two_pow (n := 13) this

theorem addMatch_field {x : Nat × Nat × Option Nat} (h : FieldOK x) {name : List Char} (hname : fieldToOvs.lookup x.1 = some name) (m : Match) :
    addMatch name (some ((fieldForm x.1).text x.2.1)) (x.2.2.map (fieldForm x.1).text) m = .ok (some (m.append x.1 x.2.1 x.2.2)) := by
  obtain ⟨f, v, k⟩ := x
  obtain ⟨hf, hv, hk, -⟩ := h
  obtain ⟨name', e, n1, -, -, n4, n5, n6, n7, -⟩ := fieldToOvs_facts f hf
  rw [hname] at e
  cases e
  unfold addMatch
  rw [readValues_field name hf hv hk]
  simp only [bind, Except.bind, n5]
  rw [if_neg n6]
  by_cases h : f = fVid
  · rw [if_pos (n4.2 h)]
    subst h
    have hk' : k.map (· &&& 0x1fff) = k := by
      cases k with
      | none => rfl
      | some m => rw [Option.map_some, vid_range (hk m rfl)]
    rw [vid_range hv, hk']
    rfl
  · rw [if_neg fun e => h (n4.1 e), if_neg n7]
    simp only [n1]
    rfl

/-- Value and mask as written. -/
def valueText (t : List Char) : Option (List Char) → List Char
  | none => t
  | some x => t ++ '/' :: x

theorem splitItem_field {key t : List Char} {m : Option (List Char)} (hk : '=' ∉ key) (ht : '=' ∉ t ∧ '/' ∉ t) (hm : ∀ x ∈ m, '=' ∉ x ∧ '/' ∉ x) :
    splitItem (key ++ '=' :: valueText t m) = .ok (key, some t, m) := by
  unfold splitItem
  rw [splitAt_part hk]
  cases m with
  | none => simp only [valueText, splitAt_none ht.1, splitAt_none ht.2]
  | some x =>
    obtain ⟨h1, h2⟩ := hm x rfl
    simp only [valueText]
    rw [splitAt_none (s := t ++ '/' :: x)]
    · simp only [splitAt_part ht.2, splitAt_none h2]
    · simp only [List.mem_append, List.mem_cons, not_or]
      exact ⟨ht.1, by decide, h1⟩

theorem numText_no {t : List Char} {v : Nat} (h : NumText t v) : '=' ∉ t ∧ '/' ∉ t := by
  constructor
  · intro hm; exact (numChar_facts _ (h.chars _ hm)).2.2.2.2.1 rfl
  · intro hm; exact (numChar_facts _ (h.chars _ hm)).2.2.2.2.2.1 rfl

theorem numText_val_item {t : List Char} {v : Nat} (h : NumText t v) : ∀ c ∈ t, c ≠ '=' ∧ c ≠ ',' ∧ isSpace c = false := by
  intro c hc
  obtain ⟨-, -, h1, -, h2, -, h3, -⟩ := numChar_facts c (h.chars c hc)
  exact ⟨h2, h3, h1⟩

theorem field_item {π : Type} {x : Nat × Nat × Option Nat} (h : FieldOK x) : ∃ t, fieldText x = .ok t ∧
    (∀ r : Rule π, flowArgument r t = .ok { r with mat := r.mat.append x.1 x.2.1 x.2.2 }) ∧
    (∀ m, matchItem m t = .ok (m.append x.1 x.2.1 x.2.2)) ∧ ∀ sep, sep = ',' ∨ sep = ' ' → Chunk (t ++ [sep]) [t] := by
  obtain ⟨name, e, -, -, -, -, -, -, -, n8, -, n10, n11, -⟩ := fieldToOvs_facts x.1 h.field
  have hadd := fun m => addMatch_field h e m
  have hv := form_text h.field h.value
  have hm : ∀ m, x.2.2 = some m → NumText ((fieldForm x.1).text m) m := fun m hm => form_text h.field (h.mask m hm)
  have hname : '=' ∉ name := fun hm => (n10 _ hm).2.2.2.1 rfl
  have hsplit : splitItem (name ++ '=' :: withMask (fieldForm x.1).text x.2.1 x.2.2) =
      .ok (name, some ((fieldForm x.1).text x.2.1), x.2.2.map (fieldForm x.1).text) := by
    have := splitItem_field (key := name) (t := (fieldForm x.1).text x.2.1) (m := x.2.2.map (fieldForm x.1).text) hname (numText_no hv) fun y hy => by
      obtain ⟨m, e1, rfl⟩ := Option.map_eq_some_iff.1 hy
      exact numText_no (hm m e1)
    rw [← this]
    unfold withMask
    cases x.2.2 <;> rfl
  have hval : ∀ c ∈ withMask (fieldForm x.1).text x.2.1 x.2.2, c ≠ '=' ∧ c ≠ ',' ∧ isSpace c = false := by
    intro c hc
    unfold withMask at hc
    cases e2 : x.2.2 with
    | none => rw [e2] at hc; exact numText_val_item hv c hc
    | some m =>
      rw [e2] at hc
      rcases List.mem_append.1 hc with hc | hc
      · exact numText_val_item hv c hc
      · rcases List.mem_cons.1 hc with rfl | hc
        · decide
        · exact numText_val_item (hm m e2) c hc
  refine ⟨name ++ '=' :: withMask (fieldForm x.1).text x.2.1 x.2.2, by simp only [fieldText, e], fun r => ?_, fun m => ?_, fun sep hsep => ?_⟩
  · unfold flowArgument
    rw [hsplit]
    simp only [bind, Except.bind, hadd]
    simp only [flowKeys, List.cons_append, List.nil_append, List.mem_cons, not_or] at n8
    obtain ⟨k1, k2, k3, k4, k5, k6, k7, k8⟩ := n8
    rw [if_neg (not_or.2 ⟨k1, k2⟩), if_neg k3, if_neg k8, if_neg (not_or.2 ⟨k4, not_or.2 ⟨k5, k6⟩⟩), if_neg k7]
    rfl
  · unfold matchItem
    rw [hsplit]
    simp only [bind, Except.bind, hadd]
    rfl
  · have := chunk_item (fun c hc => ⟨(n10 c hc).2.2.2.1, (n10 c hc).2.2.2.2.1, (n10 c hc).2.2.2.2.2⟩) hval hsep n11
    rw [List.append_assoc, List.cons_append]
    exact this

/-! ### All fields -/

theorem fields_items {π : Type} : ∀ {l : List (Nat × Nat × Option Nat)}, (∀ x ∈ l, FieldOK x) → ∃ ts, l.mapM fieldText = .ok ts ∧
    (∀ r : Rule π, ts.foldlM flowArgument r = .ok { r with mat := l.foldl (fun m x => m.append x.1 x.2.1 x.2.2) r.mat }) ∧
    (∀ m, ts.foldlM matchItem m = .ok (l.foldl (fun m x => m.append x.1 x.2.1 x.2.2) m)) ∧ Chunk (joinWith ',' ts ++ [' ']) ts
  | [], _ => ⟨[], rfl, fun _ => rfl, fun _ => rfl, chunk_space⟩
  | x :: l, h => by
    obtain ⟨t, e, h1, h2, h3⟩ := field_item (π := π) (h x List.mem_cons_self)
    obtain ⟨ts, es, hs1, hs2, hs3⟩ := fields_items (π := π) fun y hy => h y (List.mem_cons_of_mem _ hy)
    refine ⟨t :: ts, ?_, fun r => ?_, fun m => ?_, ?_⟩
    · rw [List.mapM_cons, e, es]; rfl
    · rw [List.foldlM_cons, h1, List.foldl_cons]
      exact hs1 _
    · rw [List.foldlM_cons, h2, List.foldl_cons]
      exact hs2 _
    · cases ts with
      | nil => exact h3 ' ' (.inr rfl)
      | cons u us =>
        have := (h3 ',' (.inl rfl)).append hs3
        rw [List.append_assoc] at this
        simpa [joinWith] using this

theorem rebuild_items : ∀ (l : List (Nat × Nat × Option Nat)) (m : Match), (∀ x ∈ l, normValue x.1 x.2.1 x.2.2 = x.2) →
    ((m.items ++ l).map (·.1)).Nodup → (l.foldl (fun m x => m.append x.1 x.2.1 x.2.2) m).items = m.items ++ l
  | [], m, _, _ => by simp
  | x :: l, m, h, hn => by
    have hx : x.1 ∉ m.items.map (·.1) := by
      rw [List.map_append, List.nodup_append] at hn
      intro hm
      exact hn.2.2 _ hm x.1 (by simp) rfl
    have hi : (m.append x.1 x.2.1 x.2.2).items = m.items ++ [x] := by
      rw [Match.append, dictSet_new _ hx, h x List.mem_cons_self]
    rw [List.foldl_cons, rebuild_items l _ (fun y hy => h y (List.mem_cons_of_mem _ hy)) (by rw [hi]; simpa using hn), hi]
    simp

theorem inv_foldl : ∀ (l : List (Nat × Nat × Option Nat)) (m : Match), m.Inv → (l.foldl (fun m x => m.append x.1 x.2.1 x.2.2) m).Inv
  | [], _, h => h
  | x :: l, m, h => inv_foldl l _ (inv_append h x.1 x.2.1 x.2.2)

theorem eq_of_items {a b : Match} (ha : a.Inv) (hb : b.Inv) (e : a.items = b.items) : a.eq b = true := by
  unfold Match.eq
  rw [if_pos, (dictEq_iff ha.nodup hb.nodup).2 fun k => by rw [e]]
  apply Nat.eq_of_testBit_eq
  intro i
  rw [ha.req, hb.req, e]

/-! ### The line -/

theorem flow_cookie {π : Type} (r : Rule π) {key t : List Char} {n : Nat} (hk : key = "cookie".toList) (ht : NumText t n) :
    flowArgument r (key ++ '=' :: t) = .ok { r with cookie := some n } := by
  have := splitItem_field (key := key) (t := t) (m := none) (by rw [hk]; decide) (numText_no ht) (by simp)
  unfold flowArgument
  rw [show key ++ '=' :: t = key ++ '=' :: valueText t none from rfl, this]
  simp only [bind, Except.bind]
  rw [if_neg (by rw [hk]; decide), if_neg (by rw [hk]; decide), if_neg (by rw [hk]; decide), if_neg (by rw [hk]; decide), if_pos hk]
  simp only [plainNumber, Option.getD_none, List.isEmpty_nil, if_true, ht.read]
  rfl

theorem flow_table {π : Type} (r : Rule π) {key t : List Char} {n : Nat} (hk : key = "table".toList) (ht : NumText t n) :
    flowArgument r (key ++ '=' :: t) = .ok { r with table := n } := by
  have := splitItem_field (key := key) (t := t) (m := none) (by rw [hk]; decide) (numText_no ht) (by simp)
  unfold flowArgument
  rw [show key ++ '=' :: t = key ++ '=' :: valueText t none from rfl, this]
  simp only [bind, Except.bind]
  rw [if_pos (.inr hk)]
  simp only [plainNumber, Option.getD_none, List.isEmpty_nil, if_true, ht.read]
  rfl

theorem flow_priority {π : Type} (r : Rule π) {key t : List Char} {n : Nat} (hk : key = "priority".toList) (ht : NumText t n) :
    flowArgument r (key ++ '=' :: t) = .ok { r with priority := n } := by
  have := splitItem_field (key := key) (t := t) (m := none) (by rw [hk]; decide) (numText_no ht) (by simp)
  unfold flowArgument
  rw [show key ++ '=' :: t = key ++ '=' :: valueText t none from rfl, this]
  simp only [bind, Except.bind]
  rw [if_neg (by rw [hk]; decide), if_pos hk]
  simp only [plainNumber, Option.getD_none, List.isEmpty_nil, if_true, ht.read]
  rfl

theorem chunk_num {name t : List Char} {v : Nat} (hn : ∀ c ∈ name, c ≠ '=' ∧ c ≠ ',' ∧ isSpace c = false) (ha : ¬ "actions".toList <:+ name)
    (ht : NumText t v) : Chunk (name ++ '=' :: (t ++ [','])) [name ++ '=' :: t] :=
  chunk_item hn (numText_val_item ht) (.inl rfl) ha

end OFE.Ovs
