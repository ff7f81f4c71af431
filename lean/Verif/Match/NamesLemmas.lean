import Verif.Match.Names
import Verif.Props.Match

/-!
# Lemmas: names of fields
-/

namespace OFE.Names

/-- The table that has the given names in this order. -/
def ofNames (names : List String) : Table := ⟨names.zipIdx.map fun x => (x.1, x.2, fieldBits x.2), names⟩

/-- The names of the table at the start. -/
def baseNames : List String := allFields.map (·.1)

theorem baseNames_length : baseNames.length = 56 := by decide +kernel

theorem baseNames_nodup : baseNames.Nodup := by decide +kernel

theorem init_eq : Table.init = ofNames baseNames := by
  unfold Table.init ofNames baseNames
  congr 1

theorem lookup_zipIdx (names : List String) (n : String) (k : Nat) :
    ((names.zipIdx k).map fun x => (x.1, x.2, fieldBits x.2)).lookup n =
      if n ∈ names then some (names.idxOf n + k, fieldBits (names.idxOf n + k)) else none := by
  induction names generalizing k with
  | nil => simp
  | cons a l ih =>
    simp only [List.zipIdx_cons, List.map_cons, List.lookup_cons, List.mem_cons, List.idxOf_cons]
    by_cases h : n = a
    · subst h; simp
    · have h' : (n == a) = false := by simpa using h
      have h'' : (a == n) = false := by simpa using fun e => h e.symm
      rw [h', ih]
      simp only [h, false_or, h'', cond_false]
      split
      · rw [show l.idxOf n + (k + 1) = l.idxOf n + 1 + k from by omega]
      · rfl

theorem lookup_ofNames (names : List String) (n : String) :
    (ofNames names).fields.lookup n = if n ∈ names then some (names.idxOf n, fieldBits (names.idxOf n)) else none := by
  have := lookup_zipIdx names n 0
  simpa [ofNames] using this

/-- Tables that are met: the names of the start come first, none twice. -/
structure Grown (names : List String) : Prop where
  base : baseNames <+: names
  nodup : names.Nodup

theorem grown_base : Grown baseNames := ⟨List.prefix_refl _, baseNames_nodup⟩

/-- The names of the table after a call. -/
def more (names : List String) (n : String) : List String := if n ∈ names then names else names ++ [n]

theorem more_mem (names : List String) (n : String) : n ∈ more names n := by
  unfold more; split <;> simp_all

theorem more_prefix (names : List String) (n : String) : names <+: more names n := by
  unfold more; split
  · exact List.prefix_refl _
  · exact List.prefix_append _ _

theorem grown_length {names : List String} (h : Grown names) : 56 ≤ names.length := by
  have := h.base.length_le
  rwa [baseNames_length] at this

theorem grown_more {names : List String} (h : Grown names) (n : String) : Grown (more names n) := by
  refine ⟨h.base.trans (more_prefix _ _), ?_⟩
  unfold more; split
  · exact h.nodup
  · next hn => exact List.nodup_append.2 ⟨h.nodup, by simp, fun a ha b hb => by simp at hb; subst hb; exact fun e => hn (e ▸ ha)⟩

theorem idxOf_prefix {a b : List String} (h : a <+: b) {n : String} (hn : n ∈ a) : b.idxOf n = a.idxOf n := by
  obtain ⟨c, rfl⟩ := h
  exact List.idxOf_append_of_mem hn

theorem ofNames_append {names : List String} (h : 56 ≤ names.length) (n : String) :
    ofNames (names ++ [n]) = ⟨(ofNames names).fields ++ [(n, names.length, none)], names ++ [n]⟩ := by
  simp [ofNames, List.zipIdx_append, fieldBits_none h]

theorem nameToId_eq {names : List String} (h : Grown names) (n : String) :
    nameToId (ofNames names) n = .ok ((more names n).idxOf n, ofNames (more names n)) := by
  unfold nameToId
  rw [lookup_ofNames]
  by_cases hn : n ∈ names
  · rw [if_pos hn]
    simp [more, hn]
  · rw [if_neg hn]
    have hl := grown_length h
    have hne : names ≠ [] := by intro e; rw [e] at hl; simp at hl
    have e1 : (ofNames names).ordered.getLast? = some (names.getLast hne) := by
      simp [ofNames, List.getLast?_eq_some_getLast hne]
    rw [e1]
    simp only
    rw [lookup_ofNames, if_pos (List.getLast_mem hne)]
    have e2 : names.idxOf (names.getLast hne) = names.length - 1 := by
      have hlt : names.length - 1 < names.length := by omega
      rw [List.getLast_eq_getElem]
      exact h.nodup.idxOf_getElem _ hlt
    have e3 : names.length - 1 + 1 = names.length := by omega
    simp only [e2, e3, more, hn, if_false]
    rw [ofNames_append hl]
    simp [List.idxOf_append, hn, ofNames]

theorem nameIds_eq {names : List String} (h : Grown names) (ns : List String) :
    ∃ names', Grown names' ∧ names <+: names' ∧ (∀ n, n ∈ names' ↔ n ∈ names ∨ n ∈ ns) ∧
      nameIds (ofNames names) ns = .ok (ns.map fun n => names'.idxOf n, ofNames names') := by
  induction ns generalizing names with
  | nil => exact ⟨names, h, List.prefix_refl _, by simp, rfl⟩
  | cons n ns ih =>
    obtain ⟨names', g, p, m, e⟩ := ih (grown_more h n)
    refine ⟨names', g, (more_prefix _ _).trans p, fun x => ?_, ?_⟩
    · rw [m, List.mem_cons]
      unfold more
      split
      · next hn => exact ⟨fun h => h.imp_right .inr, fun h => by rcases h with h | h | h; exacts [.inl h, .inl (h ▸ hn), .inr h]⟩
      · simp only [List.mem_append, List.mem_singleton, or_assoc]
    · rw [nameIds, nameToId_eq h]
      simp only [bind, Except.bind, e, pure, Except.pure, List.map_cons]
      rw [idxOf_prefix p (more_mem _ _)]

theorem normBits_eq (f v : Nat) (mask : Option Nat) : normBits (fieldBits f) v mask = normValue f v mask := by
  unfold normBits normValue
  cases fieldBits f <;> cases mask <;> rfl

/-- An entry with the number of the field for its name. -/
def byNumber (x : String × Nat × Option Nat × Nat) : Nat × Nat × Option Nat := (x.2.2.2, x.2.1, x.2.2.1)

/-- The match with numbers for names. -/
def NMatch.byNumber (m : NMatch) : Match := ⟨m.items.map Names.byNumber, m.required, none⟩

/-- The ids stored are those of the table. -/
def Stored (names : List String) (m : NItems) : Prop := ∀ x ∈ m, x.1 ∈ names ∧ x.2.2.2 = names.idxOf x.1

theorem idxOf_inj {names : List String} {a b : String} (ha : a ∈ names) (h : names.idxOf a = names.idxOf b) : a = b := by
  have h1 : names.idxOf a < names.length := List.idxOf_lt_length_of_mem ha
  have h2 : names.idxOf b < names.length := h ▸ h1
  have e1 : names[names.idxOf a] = a := List.getElem_idxOf h1
  have e2 : names[names.idxOf b] = b := List.getElem_idxOf h2
  rw [← e1, ← e2]
  congr 1

theorem dictSet_byNumber {names : List String} {m : NItems} (hm : Stored names m) {n : String} (hn : n ∈ names) (v : Nat) (mask : Option Nat) :
    (dictSet n (v, mask, names.idxOf n) m).map byNumber = dictSet (names.idxOf n) (v, mask) (m.map byNumber) := by
  induction m with
  | nil => rfl
  | cons x m ih =>
    obtain ⟨h1, h2⟩ := hm x (by simp)
    have ih := ih fun y hy => hm y (List.mem_cons_of_mem _ hy)
    obtain ⟨k, w, mk, id⟩ := x
    simp only at h1 h2
    subst h2
    by_cases hk : k = n
    · subst hk; simp [dictSet, byNumber]
    · have hk' : ¬ names.idxOf k = names.idxOf n := fun e => hk (idxOf_inj h1 e)
      simp [dictSet, byNumber, hk, hk']
      exact ih

theorem mem_dictSet' {κ ν : Type} [DecidableEq κ] {k : κ} {v : ν} {d : List (κ × ν)} {x : κ × ν} (h : x ∈ dictSet k v d) : x ∈ d ∨ x = (k, v) := by
  induction d with
  | nil => simpa [dictSet] using h
  | cons y d ih =>
    obtain ⟨k', v'⟩ := y
    unfold dictSet at h
    split at h
    · next e => subst e; rcases List.mem_cons.1 h with h | h
                · exact .inr h
                · exact .inl (List.mem_cons_of_mem _ h)
    · rcases List.mem_cons.1 h with h | h
      · exact .inl (h ▸ List.mem_cons_self)
      · exact (ih h).imp_left (List.mem_cons_of_mem _)

theorem stored_prefix {a b : List String} (h : a <+: b) {m : NItems} (hm : Stored a m) : Stored b m := fun x hx => by
  obtain ⟨h1, h2⟩ := hm x hx
  exact ⟨h.subset h1, by rw [idxOf_prefix h h1, h2]⟩

theorem append_eq {names : List String} (h : Grown names) {m : NMatch} (hm : Stored names m.items) (x : String × Nat × Option Nat) :
    ∃ m', append (ofNames names, m) x = .ok (ofNames (more names x.1), m') ∧ Stored (more names x.1) m'.items ∧
      m'.byNumber = m.byNumber.append ((more names x.1).idxOf x.1) x.2.1 x.2.2 := by
  unfold append
  simp only [nameToId_eq h, bind, Except.bind, lookup_ofNames, more_mem, if_true, pure, Except.pure]
  have hm' := stored_prefix (more_prefix names x.1) hm
  refine ⟨_, rfl, fun y hy => ?_, ?_⟩
  · rcases mem_dictSet' hy with hy | rfl
    · exact hm' y hy
    · exact ⟨more_mem _ _, rfl⟩
  · simp only [NMatch.byNumber, Match.append, Match.mk.injEq, and_true, normBits_eq]
    exact dictSet_byNumber hm' (more_mem _ _) _ _

theorem appends_eq {names : List String} (h : Grown names) {m : NMatch} (hm : Stored names m.items) (ops : List (String × Nat × Option Nat)) :
    ∃ names' m', ops.foldlM append (ofNames names, m) = .ok (ofNames names', m') ∧ Grown names' ∧ names <+: names' ∧ Stored names' m'.items ∧
      (∀ n, n ∈ names' ↔ n ∈ names ∨ n ∈ ops.map (·.1)) ∧
      m'.byNumber = ops.foldl (fun m x => m.append (names'.idxOf x.1) x.2.1 x.2.2) m.byNumber := by
  induction ops generalizing names m with
  | nil => exact ⟨names, m, rfl, h, List.prefix_refl _, hm, by simp, rfl⟩
  | cons x ops ih =>
    obtain ⟨m1, e1, s1, b1⟩ := append_eq h hm x
    obtain ⟨names', m', e, g, p, s, k, b⟩ := ih (grown_more h x.1) s1
    refine ⟨names', m', ?_, g, (more_prefix _ _).trans p, s, fun n => ?_, ?_⟩
    · rw [List.foldlM_cons, e1]; exact e
    · rw [k, List.map_cons, List.mem_cons]
      unfold more
      split
      · next hn => exact ⟨fun h => h.imp_right .inr, fun h => by rcases h with h | h | h; exacts [.inl h, .inl (h ▸ hn), .inr h]⟩
      · simp only [List.mem_append, List.mem_singleton, or_assoc]
    · rw [b, b1, List.foldl_cons, idxOf_prefix p (more_mem _ _)]

theorem base_iff {names : List String} (h : Grown names) {n : String} (hn : n ∈ names) : n ∈ baseNames ↔ names.idxOf n < 56 := by
  constructor
  · intro hb
    rw [idxOf_prefix h.base hb, ← baseNames_length]
    exact List.idxOf_lt_length_of_mem hb
  · intro hlt
    have h1 : names.idxOf n < baseNames.length := by rw [baseNames_length]; exact hlt
    have h2 : names.idxOf n < names.length := List.idxOf_lt_length_of_mem hn
    have e : baseNames[names.idxOf n] = names[names.idxOf n] := h.base.getElem h1
    rw [List.getElem_idxOf h2] at e
    exact e ▸ List.getElem_mem h1

theorem toWildcardN_eq {names : List String} (h : Grown names) {m : NItems} (hm : Stored names m) :
    toWildcardN Table.init m = toWildcard (m.map byNumber) := by
  unfold toWildcardN toWildcard
  generalize wcFull (bytesNeeded * 8) = wc
  induction m generalizing wc with
  | nil => rfl
  | cons x m ih =>
    obtain ⟨h1, h2⟩ := hm x (by simp)
    rw [List.map_cons, List.foldlM_cons, List.foldlM_cons]
    have e : wildcardStep Table.init wc x = matchStep wc (byNumber x) := by
      unfold wildcardStep
      rw [init_eq, lookup_ofNames]
      by_cases hb : x.1 ∈ baseNames
      · rw [if_pos hb]
        have hlt : baseNames.idxOf x.1 < 56 := by
          rw [← idxOf_prefix h.base hb]; exact (base_iff h h1).1 hb
        rw [fieldBits_eq hlt]
        simp only [byNumber, h2, idxOf_prefix h.base hb]
      · rw [if_neg hb]
        have hge : 56 ≤ (byNumber x).1 := by
          have := mt (base_iff h h1).2 hb
          simp only [byNumber, h2]; omega
        unfold matchStep
        rw [fieldBits_none hge]
    rw [e]
    cases matchStep wc (byNumber x) with
    | error e => rfl
    | ok w => exact ih (fun y hy => hm y (List.mem_cons_of_mem _ hy)) w

end OFE.Names
