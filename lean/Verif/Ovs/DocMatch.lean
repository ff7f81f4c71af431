import Verif.Ovs.DocNum

/-!
# Matches as documented are read
-/

namespace OFE.Ovs
open Fmt

theorem docFields_facts : ∀ x ∈ docFields, parseFieldName x.1 = some x.2 ∧ shorthands.lookup x.1 = none ∧ x.1 ≠ "dl_vlan".toList ∧ x.1 ≠ "vlan_tci".toList ∧
    (x.1 = "vlan_vid".toList ↔ x.2 = 6) ∧ '=' ∉ x.1 ∧ (x.2 = 26 ∨ x.2 = 27 → '6' ∈ x.1) ∧ fieldBits x.2 = some (width x.2) ∧ x.1 ∉ flowKeys ∧
    (∀ c ∈ x.1, c ≠ '=' ∧ c ≠ ',' ∧ isSpace c = false ∧ isName c = true ∧ isVal c = true) ∧ ¬ "actions".toList <:+ x.1 ∧ x.1 ≠ [] ∧ x.1 ≠ "mpls_ttl".toList ∧
    x.1 ≠ "nw_ttl".toList := by decide +kernel

theorem docWords_facts : ∀ x ∈ docWords, shorthands.lookup x.1 = some x.2 ∧ '=' ∉ x.1 ∧ x.1 ∉ flowKeys ∧ ∀ y ∈ x.2, fieldBits y.1 = some (width y.1) := by
  decide +kernel

theorem valText_no {t : List Char} {v : Nat} (h : ValText t v) : '=' ∉ t ∧ '/' ∉ t := by
  constructor
  · intro hm; exact (docChar_facts _ (h.chars _ hm)).2.2.2.1 rfl
  · intro hm; exact (docChar_facts _ (h.chars _ hm)).2.2.2.2.1 rfl

theorem readValues_plain {key t : List Char} {v : Nat} (h : ValText t v) : readValues key (some t) none = .ok (some v, none) := by
  have hne : t.isEmpty = false := by simpa using h.ne
  simp only [readValues, hne, h.read, bind, Except.bind]
  rfl

theorem readValues_same {key t u : List Char} {v m : Nat} {k : Kind} (h : Denotes k t v) (h' : Denotes k u m) :
    readValues key (some t) (some u) = .ok (some v, some m) := by
  obtain ⟨ht, mt⟩ := denotes_facts h
  obtain ⟨hu, mu⟩ := denotes_facts h'
  have hne : t.isEmpty = false := by simpa using ht.ne
  have hne' : u.isEmpty = false := by simpa using hu.ne
  simp only [readValues, hne, hne', Bool.or_self]
  rw [if_neg (by simp), if_neg, if_neg]
  · simp only [ht.read, hu.read, bind, Except.bind]
    rfl
  · rintro ⟨a, -, c⟩
    cases k with
    | num => rw [List.count_eq_zero.2 mt.2] at a; omega
    | v4 => rw [List.count_eq_zero.2 mt.2] at a; omega
    | mac => exact c mu.2
    | v6 => exact c mu.2
  · rintro ⟨a, b⟩
    cases k with
    | num => rw [List.count_eq_zero.2 mt.1] at a; omega
    | v4 =>
      have := mu.1
      rw [List.count_eq_zero.2 b] at this; omega
    | mac => rw [List.count_eq_zero.2 mt.1] at a; omega
    | v6 => rw [List.count_eq_zero.2 mt.1] at a; omega

theorem prefix_mask {w n : Nat} (h : n ≤ w) : (2 ^ n - 1) <<< (w - n) = 2 ^ w - 2 ^ (w - n) := by
  rw [Nat.shiftLeft_eq, Nat.sub_mul, ← Nat.pow_add, Nat.one_mul, show n + (w - n) = w from by omega]

theorem readValues_prefix4 {key t u : List Char} {v n : Nat} (h : Denotes .v4 t v) (h' : Denotes .num u n) (hn : n ≤ 32) :
    readValues key (some t) (some u) = .ok (some v, some (2 ^ 32 - 2 ^ (32 - n))) := by
  obtain ⟨ht, mt⟩ := denotes_facts h
  obtain ⟨hu, mu⟩ := denotes_facts h'
  have hne : t.isEmpty = false := by simpa using ht.ne
  have hne' : u.isEmpty = false := by simpa using hu.ne
  simp only [readValues, hne, hne', Bool.or_self]
  rw [if_neg (by simp), if_pos ⟨mt.1, mu.1⟩]
  simp only [hu.read, bind, Except.bind]
  rw [if_pos hn, ht.read, prefix_mask hn]
  rfl

theorem readValues_prefix6 {key t u : List Char} {v n : Nat} (h : Denotes .v6 t v) (hc : 3 ≤ t.count ':') (hk : '6' ∈ key) (h' : Denotes .num u n) (hn : n ≤ 128) :
    readValues key (some t) (some u) = .ok (some v, some (2 ^ 128 - 2 ^ (128 - n))) := by
  obtain ⟨ht, mt⟩ := denotes_facts h
  obtain ⟨hu, mu⟩ := denotes_facts h'
  have hne : t.isEmpty = false := by simpa using ht.ne
  have hne' : u.isEmpty = false := by simpa using hu.ne
  simp only [readValues, hne, hne', Bool.or_self]
  rw [if_neg (by simp), if_neg (by rintro ⟨a, -⟩; rw [List.count_eq_zero.2 mt.1] at a; omega), if_pos ⟨hc, hk, mu.2⟩]
  simp only [hu.read, bind, Except.bind]
  rw [if_pos hn, ht.read, prefix_mask hn]
  rfl

/-- What `_add_match` does once the numbers are known. -/
theorem addMatch_doc {key : List Char} {f v : Nat} {k : Option Nat} {t : List Char} {u : Option (List Char)} (hk : (key, f) ∈ docFields)
    (hr : readValues key (some t) u = .ok (some v, k)) (hv : v < 2 ^ width f) (hm : ∀ m ∈ k, m < 2 ^ width f) (m : Match) :
    addMatch key (some t) u m = .ok (some (m.append f v k)) := by
  obtain ⟨n1, n2, n3, n4, n5, -⟩ := docFields_facts _ hk
  simp only at n1 n2 n3 n4 n5
  unfold addMatch
  rw [hr]
  simp only [bind, Except.bind, n2]
  rw [if_neg n3]
  by_cases h : f = 6
  · rw [if_pos (n5.2 h)]
    subst h
    have hw : width 6 = 13 := by decide +kernel
    rw [hw] at hv hm
    have hk' : k.map (· &&& 0x1fff) = k := by
      cases k with
      | none => rfl
      | some m => rw [Option.map_some, show m &&& 0x1fff = m from Nat.and_two_pow_sub_one_of_lt_two_pow (n := 13) (hm m rfl)]
    rw [show v &&& 0x1fff = v from Nat.and_two_pow_sub_one_of_lt_two_pow (n := 13) hv, hk']
    rfl
  · rw [if_neg fun e => h (n5.1 e), if_neg n4]
    simp only [n1]
    rfl

theorem kindOf_width : ∀ x ∈ docFields, (kindOf x.2 = .v4 → width x.2 = 32) ∧ (x.2 = 26 ∨ x.2 = 27 → width x.2 = 128) := by decide +kernel

theorem byte_lt {p : List Char} {n : Nat} (h : IsByte p n) : n < 256 := h.2.1

theorem denotes_v4_lt {t : List Char} {v : Nat} (h : Denotes .v4 t v) : v < 2 ^ 32 := by
  cases h with
  | @ipv4 ps ns hl hb =>
    match ps, ns, hl, hb with
    | [p0, p1, p2, p3], [n0, n1, n2, n3], _, .cons h0 (.cons h1 (.cons h2 (.cons h3 .nil))) =>
      have := byte_lt h0
      have := byte_lt h1
      have := byte_lt h2
      have := byte_lt h3
      simp only [List.foldl_cons, List.foldl_nil]
      omega

theorem groups_lt {ns : List Nat} (h : ∀ n ∈ ns, n ≤ 0xFFFF) : ∀ x, ns.foldl (fun x g => x * 65536 + g) x < (x + 1) * 65536 ^ ns.length := by
  induction ns with
  | nil => intro x; simp
  | cons n ns ih =>
    intro x
    have h1 := ih (fun m hm => h m (List.mem_cons_of_mem _ hm)) (x * 65536 + n)
    have h2 := h n List.mem_cons_self
    have h3 : (x * 65536 + n + 1) * 65536 ^ ns.length ≤ ((x + 1) * 65536) * 65536 ^ ns.length := Nat.mul_le_mul_right _ (by omega)
    rw [List.length_cons, Nat.pow_succ, Nat.mul_comm (65536 ^ ns.length), ← Nat.mul_assoc]
    exact Nat.lt_of_lt_of_le h1 h3

theorem groups_le {a : List (List Char)} {as : List Nat} (h : List.Forall₂ IsGroup a as) : ∀ n ∈ as, n ≤ 0xFFFF := by
  induction h with
  | nil => simp
  | cons hp _ ih =>
    intro n hn
    rcases List.mem_cons.1 hn with rfl | hn
    · exact (group_read hp).1.2
    · exact ih n hn

theorem denotes_v6_lt {t : List Char} {v : Nat} (h : Denotes .v6 t v) : v < 2 ^ 128 := by
  have key : ∀ {ns : List Nat}, (∀ n ∈ ns, n ≤ 0xFFFF) → ns.length = 8 → groupsValue ns < 2 ^ 128 := by
    intro ns h1 h2
    have := groups_lt h1 0
    rw [h2] at this
    exact this
  cases h with
  | ipv6 hl hb => exact key (groups_le hb) (by rw [← hb.length_eq]; exact hl)
  | @ipv6Short a b as bs ha hb hl =>
    refine key (fun n hn => ?_) ?_
    · rcases List.mem_append.1 hn with hn | hn
      · rcases List.mem_append.1 hn with hn | hn
        · exact groups_le ha n hn
        · rw [(List.mem_replicate.1 hn).2]; omega
      · exact groups_le hb n hn
    · simp only [List.length_append, List.length_replicate, ← ha.length_eq, ← hb.length_eq]; omega

/-- An item read by the two loops that read items. -/
structure ItemReads (t : List Char) (cs : List (Nat × Nat × Option Nat)) : Prop where
  item : ∀ m, matchItem m t = .ok (cs.foldl (fun m x => m.append x.1 x.2.1 x.2.2) m)
  flow : ∀ {π : Type} (r : Rule π), flowArgument r t = .ok { r with mat := cs.foldl (fun m x => m.append x.1 x.2.1 x.2.2) r.mat }
  bits : ∀ x ∈ cs, fieldBits x.1 = some (width x.1)

theorem itemReads {t key : List Char} {v u : Option (List Char)} {cs : List (Nat × Nat × Option Nat)} (hs : splitItem t = .ok (key, v, u))
    (hk : key ∉ flowKeys) (ha : ∀ m, addMatch key v u m = .ok (some (cs.foldl (fun m x => m.append x.1 x.2.1 x.2.2) m)))
    (hb : ∀ x ∈ cs, fieldBits x.1 = some (width x.1)) : ItemReads t cs := by
  refine ⟨fun m => ?_, fun r => ?_, hb⟩
  · unfold matchItem
    rw [hs]
    simp only [bind, Except.bind, ha]
    rfl
  · unfold flowArgument
    rw [hs]
    simp only [bind, Except.bind, ha]
    simp only [flowKeys, List.cons_append, List.nil_append, List.mem_cons, not_or] at hk
    obtain ⟨k1, k2, k3, k4, k5, k6, k7, k8⟩ := hk
    rw [if_neg (not_or.2 ⟨k1, k2⟩), if_neg k3, if_neg k8, if_neg (not_or.2 ⟨k4, not_or.2 ⟨k5, k6⟩⟩), if_neg k7]
    rfl

theorem addMatch_dlVlan {key : List Char} (hkey : key = "dl_vlan".toList) {t : List Char} {v : Nat} (h : ValText t v) (m : Match) :
    addMatch key (some t) none m = .ok (some (if v = 0xffff then m.append 6 0 none else m.append 6 (v &&& 0x1fff ||| 0x1000) none)) := by
  unfold addMatch
  rw [readValues_plain h, show shorthands.lookup key = none from by rw [hkey]; decide +kernel]
  simp only [bind, Except.bind]
  rw [if_pos hkey]
  rfl

theorem addMatch_vlanTci {key : List Char} (hkey : key = "vlan_tci".toList) {t u : List Char} {v k : Nat} (h : Denotes .num t v) (h' : Denotes .num u k)
    (h0 : 0 < k) (hk : k < 0x2000) (m : Match) : addMatch key (some t) (some u) m = .ok (some (m.append 6 (v &&& 0x1fff) (some k))) := by
  have e1 : k &&& 0x1fff = k := Nat.and_two_pow_sub_one_of_lt_two_pow (n := 13) hk
  have e2 : k &&& 0xe000 = 0 := by
    apply Nat.eq_of_testBit_eq
    intro i
    rw [Nat.testBit_and, Nat.zero_testBit]
    by_cases hi : i < 13
    · have : ∀ i : Fin 13, Nat.testBit 0xe000 i.1 = false := by decide
      rw [this ⟨i, hi⟩, Bool.and_false]
    · rw [Nat.testBit_lt_two_pow (Nat.lt_of_lt_of_le hk (Nat.pow_le_pow_right (n := 2) (i := 13) (by omega) (by omega))), Bool.false_and]
  unfold addMatch
  rw [readValues_same h h', show shorthands.lookup key = none from by rw [hkey]; decide +kernel]
  simp only [bind, Except.bind]
  rw [if_neg (by rw [hkey]; decide), if_neg (by rw [hkey]; decide), if_pos hkey, e1, e2, if_pos (by omega : k ≠ 0)]
  rfl

theorem or_1000 {v : Nat} (h : v < 0x1000) : v &&& 0x1fff ||| 0x1000 = v + 0x1000 := by
  rw [show v &&& 0x1fff = v from Nat.and_two_pow_sub_one_of_lt_two_pow (n := 13) (by omega), Nat.or_comm,
    show v + 0x1000 = 2 ^ 12 * 1 + v from by omega, Nat.two_pow_add_eq_or_of_lt (by omega : v < 2 ^ 12) 1]

theorem docItem_reads {t : List Char} {cs : List (Nat × Nat × Option Nat)} (h : DocItem t cs) : ItemReads t cs := by
  have hs1 : ∀ {key t : List Char} {v : Nat}, '=' ∉ key → ValText t v → splitItem (key ++ '=' :: t) = .ok (key, some t, none) := fun hk ht =>
    splitItem_field (m := none) hk (valText_no ht) (by simp)
  have hs2 : ∀ {key t u : List Char} {v m : Nat}, '=' ∉ key → ValText t v → ValText u m → splitItem (key ++ '=' :: (t ++ '/' :: u)) = .ok (key, some t, some u) :=
    fun {key t u v m} hk ht hu => splitItem_field (m := some u) hk (valText_no ht) fun x hx => by cases hx; exact valText_no hu
  cases h with
  | @word t l hw =>
    obtain ⟨w1, w2, w3, w4⟩ := docWords_facts _ hw
    refine itemReads (key := t) (v := none) (u := none) ?_ w3 (fun m => ?_) fun x hx => ?_
    · unfold splitItem
      rw [splitAt_none w2]
    · unfold addMatch
      simp only [readValues, bind, Except.bind, w1]
      rw [if_pos (by simp), List.foldl_map]
      rfl
    · obtain ⟨y, hy, rfl⟩ := List.mem_map.1 hx
      exact w4 y hy
  | @field key t f v hk hd hv =>
    obtain ⟨ht, -⟩ := denotes_facts hd
    obtain ⟨-, -, -, -, -, n6, -, n8, n9, -⟩ := docFields_facts _ hk
    refine itemReads (hs1 n6 ht) n9 (fun m => ?_) (by simpa using n8)
    exact addMatch_doc hk (readValues_plain ht) hv (by simp) m
  | @masked key t u f v k hk hd hd' hv hm =>
    obtain ⟨ht, -⟩ := denotes_facts hd
    obtain ⟨hu, -⟩ := denotes_facts hd'
    obtain ⟨-, -, -, -, -, n6, -, n8, n9, -⟩ := docFields_facts _ hk
    refine itemReads (hs2 n6 ht hu) n9 (fun m => ?_) (by simpa using n8)
    exact addMatch_doc hk (readValues_same hd hd') hv (by simpa using hm) m
  | @prefix4 key t u f v n hk hf hd hd' hn =>
    obtain ⟨ht, -⟩ := denotes_facts hd
    obtain ⟨hu, -⟩ := denotes_facts hd'
    obtain ⟨-, -, -, -, -, n6, -, n8, n9, -⟩ := docFields_facts _ hk
    have hw : width f = 32 := (kindOf_width _ hk).1 hf
    refine itemReads (hs2 n6 ht hu) n9 (fun m => ?_) (by simpa using n8)
    refine addMatch_doc hk (readValues_prefix4 hd hd' hn) (by rw [hw]; exact denotes_v4_lt hd) ?_ m
    intro x hx
    cases hx
    have := Nat.pow_pos (n := 32 - n) (show 0 < 2 by omega)
    rw [hw]; omega
  | @prefix6 key t u f v n hk hf hd hc hd' hn =>
    obtain ⟨ht, -⟩ := denotes_facts hd
    obtain ⟨hu, -⟩ := denotes_facts hd'
    obtain ⟨-, -, -, -, -, n6, n7, n8, n9, -⟩ := docFields_facts _ hk
    have hw : width f = 128 := (kindOf_width _ hk).2 hf
    refine itemReads (hs2 n6 ht hu) n9 (fun m => ?_) (by simpa using n8)
    refine addMatch_doc hk (readValues_prefix6 hd hc (n7 hf) hd' hn) (by rw [hw]; exact denotes_v6_lt hd) ?_ m
    intro x hx
    cases hx
    have := Nat.pow_pos (n := 128 - n) (show 0 < 2 by omega)
    rw [hw]; omega
  | @dlVlan t v hd hv =>
    obtain ⟨ht, -⟩ := denotes_facts hd
    generalize hkey : "dl_vlan".toList = key
    rw [show "dl_vlan=".toList ++ t = key ++ '=' :: t from by rw [← hkey]; rfl]
    refine itemReads (hs1 (by rw [← hkey]; decide) ht) (by rw [← hkey]; decide) (fun m => ?_) (by
      intro x hx; simp only [List.mem_cons, List.not_mem_nil, or_false] at hx; subst hx; exact (by decide +kernel : fieldBits 6 = some (width 6)))
    rw [addMatch_dlVlan hkey.symm ht, if_neg (by omega), or_1000 hv]
    rfl
  | @noVlan t hd =>
    obtain ⟨ht, -⟩ := denotes_facts hd
    generalize hkey : "dl_vlan".toList = key
    rw [show "dl_vlan=".toList ++ t = key ++ '=' :: t from by rw [← hkey]; rfl]
    refine itemReads (hs1 (by rw [← hkey]; decide) ht) (by rw [← hkey]; decide) (fun m => ?_) (by decide +kernel)
    rw [addMatch_dlVlan hkey.symm ht, if_pos rfl]
    rfl
  | @vlanTci t u v k hd hd' hv h0 hk =>
    obtain ⟨ht, -⟩ := denotes_facts hd
    obtain ⟨hu, -⟩ := denotes_facts hd'
    generalize hkey : "vlan_tci".toList = key
    rw [show "vlan_tci=".toList ++ (t ++ '/' :: u) = key ++ '=' :: (t ++ '/' :: u) from by rw [← hkey]; rfl]
    refine itemReads (hs2 (by rw [← hkey]; decide) ht hu) (by rw [← hkey]; decide) (fun m => ?_) (by
      intro x hx; simp only [List.mem_cons, List.not_mem_nil, or_false] at hx; subst hx; exact (by decide +kernel : fieldBits 6 = some (width 6)))
    rw [addMatch_vlanTci hkey.symm hd hd' h0 hk, show (0x1fff : Nat) = 2 ^ 13 - 1 from rfl, Nat.and_two_pow_sub_one_eq_mod]
    rfl

/-! ### All items -/

theorem pieces_items {s : List Char} {l : List (List Char)} (h : Pieces s l) : items s = l := by
  have hsep : ∀ {c : Char}, c ∈ [',', ' ', '\t', '\n'] → (isSpace c || c == ',') = true := by
    intro c hc
    exact (show ∀ c ∈ [',', ' ', '\t', '\n'], (isSpace c || c == ',') = true by decide) c hc
  have hno : ∀ {c : Char}, c ∉ [',', ' ', '\t', '\n', '\r', '\x0b', '\x0c'] → (isSpace c || c == ',') = false := by
    intro c hc
    simp only [List.mem_cons, List.not_mem_nil, or_false, not_or] at hc
    simp [isSpace, hc]
  have key : ∀ (w r : List Char), w ≠ [] → (∀ c ∈ w, c ∉ [',', ' ', '\t', '\n', '\r', '\x0b', '\x0c']) → (∀ c ∈ r.head?, (isSpace c || c == ',') = true) →
      items (w ++ r) = w :: items r := by
    intro w
    induction w with
    | nil => intro _ h; exact absurd rfl h
    | cons c w ih =>
      intro r _ hc hr
      have h1 := hno (hc c List.mem_cons_self)
      cases w with
      | nil =>
        rw [List.cons_append, List.nil_append, items.eq_def]
        simp only [h1, Bool.false_eq_true, if_false]
        cases r with
        | nil => rfl
        | cons d r =>
          have h2 := hr d rfl
          simp only [h2, if_true]
      | cons d w =>
        have h3 := ih r (by simp) (fun e he => hc e (List.mem_cons_of_mem _ he)) hr
        have h4 := hno (hc d (by simp))
        rw [List.cons_append, items.eq_def]
        simp only [h1, Bool.false_eq_true, if_false, List.cons_append, h4]
        rw [List.cons_append] at h3
        rw [h3]
  induction h with
  | nil => rfl
  | sep hc _ ih =>
    rw [items.eq_def]
    simp only [hsep hc, if_true]
    exact ih
  | @last t hne ht =>
    have := key t [] hne ht (by simp)
    simpa [items] using this
  | @cons t s c l hne ht hc _ ih =>
    rw [key t (c :: s) hne ht (by simpa using hsep hc), items.eq_def]
    simp only [hsep hc, if_true]
    rw [ih]

theorem foldlM_items {l : List (List Char × List (Nat × Nat × Option Nat))} (h : ∀ x ∈ l, DocItem x.1 x.2) :
    ∀ m, (l.map (·.1)).foldlM matchItem m = .ok ((l.flatMap (·.2)).foldl (fun m x => m.append x.1 x.2.1 x.2.2) m) := by
  induction l with
  | nil => intro m; rfl
  | cons x l ih =>
    intro m
    rw [List.map_cons, List.foldlM_cons, (docItem_reads (h x List.mem_cons_self)).item, List.flatMap_cons, List.foldl_append]
    exact ih (fun y hy => h y (List.mem_cons_of_mem _ hy)) _

theorem foldlM_flow {π : Type} {l : List (List Char × List (Nat × Nat × Option Nat))} (h : ∀ x ∈ l, DocItem x.1 x.2) :
    ∀ r : Rule π, (l.map (·.1)).foldlM flowArgument r = .ok { r with mat := (l.flatMap (·.2)).foldl (fun m x => m.append x.1 x.2.1 x.2.2) r.mat } := by
  induction l with
  | nil => intro m; rfl
  | cons x l ih =>
    intro r
    rw [List.map_cons, List.foldlM_cons, (docItem_reads (h x List.mem_cons_self)).flow, List.flatMap_cons, List.foldl_append]
    exact ih (fun y hy => h y (List.mem_cons_of_mem _ hy)) _

theorem append_items : ∀ (l : List (Nat × Nat × Option Nat)) (m : Match), ((m.items ++ l).map (·.1)).Nodup →
    (l.foldl (fun m x => m.append x.1 x.2.1 x.2.2) m).items = m.items ++ l.map fun x => (x.1, normValue x.1 x.2.1 x.2.2)
  | [], m, _ => by simp
  | x :: l, m, hn => by
    have hx : x.1 ∉ m.items.map (·.1) := by
      rw [List.map_append, List.nodup_append] at hn
      intro hm
      exact hn.2.2 _ hm x.1 (by simp) rfl
    have hi : (m.append x.1 x.2.1 x.2.2).items = m.items ++ [(x.1, normValue x.1 x.2.1 x.2.2)] := by
      rw [Match.append, dictSet_new _ hx]
    rw [List.foldl_cons, append_items l _ (by rw [hi]; simpa using hn), hi]
    simp

/-- Storing a value under its mask does not change what it matches. -/
theorem matches_norm {f v : Nat} {k : Option Nat} (hb : fieldBits f = some (width f)) (p : Packet) :
    MatchesField p (f, normValue f v k) ↔ MatchesField p (f, v, k) := by
  unfold normValue
  rw [hb]
  cases k with
  | none => exact Iff.rfl
  | some m =>
    simp only
    by_cases hc : width f ≠ 0 ∧ m ≠ 0
    · rw [if_pos hc]
      have hbit : ∀ i, i < width f → (m &&& (2 ^ width f - 1)).testBit i = m.testBit i := by
        intro i hi
        rw [Nat.testBit_and, Nat.testBit_two_pow_sub_one]
        simp [hi]
      have hval : ∀ i, i < width f → m.testBit i = true → (v &&& (m &&& (2 ^ width f - 1))).testBit i = v.testBit i := by
        intro i hi hm
        rw [Nat.testBit_and, hbit i hi, hm, Bool.and_true]
      unfold MatchesField
      by_cases hf : m &&& (2 ^ width f - 1) = 2 ^ width f - 1
      · have hall : ∀ i, i < width f → m.testBit i = true := by
          intro i hi
          rw [← hbit i hi, hf, Nat.testBit_two_pow_sub_one]
          simpa using hi
        simp only [if_pos hf]
        constructor
        · intro h i hi hm
          rw [h i hi (by intro _ e; cases e)]
          exact hval i hi (hall i hi)
        · intro h i hi _
          rw [h i hi (by intro x e; cases e; exact hall i hi)]
          exact (hval i hi (hall i hi)).symm
      · simp only [if_neg hf]
        constructor
        · intro h i hi hm
          have hm' := hm m rfl
          rw [h i hi (by intro x e; cases e; rw [hbit i hi]; exact hm')]
          exact hval i hi hm'
        · intro h i hi hm
          have hm' := hm _ rfl
          rw [hbit i hi] at hm'
          rw [h i hi (by intro x e; cases e; exact hm')]
          exact (hval i hi hm').symm
    · rw [if_neg hc]

end OFE.Ovs
