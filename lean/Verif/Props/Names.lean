import Verif.Match.NamesLemmas

/-!
# Property C108: names and numbers of fields

`knownNames` are the names of `openflow_desc.py`; `KnownId n f` says that `n` is the name of field number `f` there.
-/

namespace OFE.Names

/-- Specification: `n` is the name of field `f` of OpenFlow 1.3.5 (with the inner copies of tunnel fields). -/
def KnownId (n : String) (f : Nat) : Prop := (allFields.map (·.1))[f]? = some n

theorem knownId_iff {n : String} {f : Nat} : KnownId n f ↔ n ∈ baseNames ∧ baseNames.idxOf n = f := by
  unfold KnownId
  rw [List.getElem?_eq_some_iff]
  constructor
  · rintro ⟨h, rfl⟩
    exact ⟨List.getElem_mem h, baseNames_nodup.idxOf_getElem _ h⟩
  · rintro ⟨h, rfl⟩
    exact ⟨List.idxOf_lt_length_of_mem h, List.getElem_idxOf _⟩

/-- C108: whatever names are asked for, in whatever order, `oxm_name_to_id` never raises; two names get the same number exactly if they are the same; the
names of OpenFlow 1.3.5 keep their numbers and nothing else gets one of them; numbers given out are given again when the name is used later, whatever
happens in between; and `check_oxm_name` knows afterwards the names of OpenFlow and those asked for. -/
theorem C108_one_to_one (ns : List String) :
    ∃ ids t, nameIds Table.init ns = .ok (ids, t) ∧ ids.length = ns.length ∧
      (∀ (i j : Nat) n m a b, ns[i]? = some n → ns[j]? = some m → ids[i]? = some a → ids[j]? = some b → (a = b ↔ n = m)) ∧
      (∀ (i : Nat) n a, ns[i]? = some n → ids[i]? = some a → ∀ f, f < 56 → (a = f ↔ KnownId n f)) ∧
      (∀ (i : Nat) n a, ns[i]? = some n → ids[i]? = some a → ∀ later, ∃ ids' t', nameIds t later = .ok (ids', t') ∧ nameToId t' n = .ok (a, t')) ∧
      ∀ n, checkName t n = true ↔ (∃ f, KnownId n f) ∨ n ∈ ns := by
  obtain ⟨names, g, p, m, e⟩ := nameIds_eq grown_base ns
  have hn : ∀ (i : Nat) n a, ns[i]? = some n → (ns.map fun n => names.idxOf n)[i]? = some a → n ∈ names ∧ a = names.idxOf n := by
    intro i n a h1 h2
    rw [List.getElem?_map, h1] at h2
    exact ⟨(m n).2 (.inr (List.mem_of_getElem? h1)), (Option.some.inj h2).symm⟩
  refine ⟨_, ofNames names, by rw [init_eq, e], by simp, ?_, ?_, ?_, ?_⟩
  · intro i j n k a b h1 h2 h3 h4
    obtain ⟨m1, rfl⟩ := hn i n a h1 h3
    obtain ⟨m2, rfl⟩ := hn j k b h2 h4
    exact ⟨fun h => idxOf_inj m1 h, fun h => by rw [h]⟩
  · intro i n a h1 h3 f hf
    obtain ⟨m1, rfl⟩ := hn i n a h1 h3
    rw [knownId_iff]
    constructor
    · intro h
      have hb := (base_iff g m1).2 (by omega)
      exact ⟨hb, by rw [← idxOf_prefix g.base hb, h]⟩
    · rintro ⟨hb, h⟩
      rw [idxOf_prefix g.base hb, h]
  · intro i n a h1 h3 later
    obtain ⟨m1, rfl⟩ := hn i n a h1 h3
    obtain ⟨names', g', p', -, e'⟩ := nameIds_eq g later
    refine ⟨_, _, e', ?_⟩
    have hmem : n ∈ names' := p'.subset m1
    rw [nameToId_eq g', show more names' n = names' from if_pos hmem, idxOf_prefix p' m1]
  · intro n
    unfold checkName
    rw [lookup_ofNames]
    have : (∃ f, KnownId n f) ↔ n ∈ baseNames := by simp [knownId_iff]
    rw [this, ← m]
    by_cases h : n ∈ names <;> simp [h]

/-- Two unknown names, a known one between them, and the first again. -/
example : nameIds Table.init ["TCP_FLAGS", "ETH_TYPE", "PBB_UCA", "TCP_FLAGS"] =
    .ok ([56, 5, 57, 56], ⟨Table.init.fields ++ [("TCP_FLAGS", 56, none), ("PBB_UCA", 57, none)], Table.init.ordered ++ ["TCP_FLAGS", "PBB_UCA"]⟩) ∧
    KnownId "ETH_TYPE" 5 ∧ checkName Table.init "TCP_FLAGS" = false := by
  refine ⟨by decide +kernel, by unfold KnownId; decide +kernel, by decide +kernel⟩

/-- Specification: the packet agrees with the entries of the fields of OpenFlow 1.3.5. -/
def AgreesKnown (m : NItems) (p : Packet) : Prop := ∀ x ∈ m, ∀ f, KnownId x.1 f → MatchesField p (f, x.2.1, x.2.2.1)

/-- C108: a match built by `append` under any names is the one built under the numbers of the fields (`Match.append` of `Match/Model`), with the same wildcard;
appending never raises. -/
theorem C108_by_number (ops : List (String × Nat × Option Nat)) :
    ∃ t m, ∃ num : String → Nat, ops.foldlM append (Table.init, ⟨[], 0⟩) = .ok (t, m) ∧
      (∀ n ∈ ops.map (·.1), nameToId t n = .ok (num n, t)) ∧
      m.byNumber = ops.foldl (fun m x => m.append (num x.1) x.2.1 x.2.2) Match.empty ∧
      toWildcardN Table.init m.items = toWildcard m.byNumber.items := by
  obtain ⟨names, m, e, g, p, s, k, b⟩ := appends_eq grown_base (m := ⟨[], 0⟩) (fun x hx => by cases hx) ops
  refine ⟨ofNames names, m, fun n => names.idxOf n, by rw [init_eq, e], fun n hn => ?_, b, toWildcardN_eq g s⟩
  rw [nameToId_eq g, show more names n = names from if_pos ((k n).2 (.inr hn))]

example : ([("ETH_TYPE", 0x800, none), ("TCP_FLAGS", 7, some 2), ("ETH_TYPE", 0x806, some 0xffff), ("VLAN_VID", 0x1fff, some 0xff)] :
      List (String × Nat × Option Nat)).foldlM append (Table.init, ⟨[], 0⟩) =
    .ok (⟨Table.init.fields ++ [("TCP_FLAGS", 56, none)], Table.init.ordered ++ ["TCP_FLAGS"]⟩,
      ⟨[("ETH_TYPE", 0x806, none, 5), ("TCP_FLAGS", 7, some 2, 56), ("VLAN_VID", 0xff, some 0xff, 6)], 2 ^ 5 + 2 ^ 6 + 2 ^ 56⟩) := by
  decide +kernel

/-- C108 (partial): a match has a wildcard whatever its fields; the packets are those that agree with the entries of known fields.  Missing: entries of
unknown fields are ignored, see `C108_ignored`. -/
theorem C108_meaning_partial (ops : List (String × Nat × Option Nat)) :
    ∃ t m w, ops.foldlM append (Table.init, ⟨[], 0⟩) = .ok (t, m) ∧ toWildcardN Table.init m.items = .ok w ∧
      WcValid totBits w ∧ PadFull w ∧ ∀ p, Covers totBits w p ↔ AgreesKnown m.items p := by
  obtain ⟨names, m, e, g, p, s, k, b⟩ := appends_eq grown_base (m := ⟨[], 0⟩) (fun x hx => by cases hx) ops
  obtain ⟨w, ew, c, v⟩ := C15_unknown_field (m.items.map byNumber)
  have hnd : ((m.items.map byNumber).map (·.1)).Nodup := by
    have : m.byNumber.items = m.items.map byNumber := rfl
    rw [← this, b]
    have key : ∀ (ops : List (String × Nat × Option Nat)) (a : Match), a.Inv →
        (ops.foldl (fun m x => m.append (names.idxOf x.1) x.2.1 x.2.2) a).Inv := by
      intro ops
      induction ops with
      | nil => exact fun a h => h
      | cons x ops ih => exact fun a h => ih _ (inv_append h _ _ _)
    exact (key ops _ inv_empty).nodup
  refine ⟨ofNames names, m, w, by rw [init_eq, e], by rw [toWildcardN_eq g s, ew], (v hnd).1, (v hnd).2, fun p => (c p).trans ?_⟩
  unfold AgreesKnown
  constructor
  · intro h x hx f hf
    obtain ⟨hb, rfl⟩ := knownId_iff.1 hf
    obtain ⟨h1, h2⟩ := s x hx
    have := h (byNumber x) (List.mem_map_of_mem hx) (by simp only [byNumber, h2]; exact (base_iff g h1).1 hb)
    simpa only [byNumber, h2, idxOf_prefix g.base hb] using this
  · intro h y hy hlt
    obtain ⟨x, hx, rfl⟩ := List.mem_map.1 hy
    obtain ⟨h1, h2⟩ := s x hx
    simp only [byNumber, h2] at hlt
    have hb := (base_iff g h1).2 hlt
    have := h x hx (names.idxOf x.1) (knownId_iff.2 ⟨hb, (idxOf_prefix g.base hb).symm⟩)
    simpa only [byNumber, h2] using this

/-- A packet of ethertype 0x800 agrees with the known entries of the match of the example above it, one of ethertype 0 does not. -/
example : AgreesKnown [("ETH_TYPE", 1, some 1, 5), ("TCP_FLAGS", 7, some 2, 56)] (fun k => decide (k = fieldPos 5)) ∧
    ¬ AgreesKnown [("ETH_TYPE", 1, some 1, 5), ("TCP_FLAGS", 7, some 2, 56)] (fun _ => false) := by
  constructor
  · intro x hx f hf i hi hm
    simp only [List.mem_cons, List.not_mem_nil, or_false] at hx
    rcases hx with rfl | rfl
    · have hf5 : f = 5 := by
        have := (knownId_iff.1 hf).2
        rw [← this]; decide +kernel
      subst hf5
      have h1 := hm 1 rfl
      have : i = 0 := by
        rw [Nat.testBit_one_eq_true_iff_self_eq_zero] at h1; exact h1
      subst this
      simp [Packet.bit]
    · have := (knownId_iff.1 hf).1
      exact absurd this (by decide +kernel)
  · intro h
    have := h ("ETH_TYPE", 1, some 1, 5) (by simp) 5 (by unfold KnownId; decide +kernel) 0 (by decide +kernel) (by intro m hm; cases hm; rfl)
    simp [Packet.bit] at this

/-- C108, negation: a match on an unknown field (here TCP_FLAGS, which Ryu has) is not the empty match, but has the wildcard of all packets: rule.py adds the
field to its own table, and headerspace.py passes over what is not in its table.  The table of rule.py, which is also that of convert_ovs.py, knows
the name from then on. -/
theorem C108_ignored : ∃ t m, append (Table.init, ⟨[], 0⟩) ("TCP_FLAGS", 2, none) = .ok (t, m) ∧ m ≠ ⟨[], 0⟩ ∧
    toWildcardN Table.init m.items = toWildcardN Table.init [] ∧ (∀ w p, toWildcardN Table.init m.items = .ok w → Covers totBits w p) ∧
    checkName Table.init "TCP_FLAGS" = false ∧ checkName t "TCP_FLAGS" = true := by
  have e : toWildcardN Table.init [("TCP_FLAGS", 2, none, 56)] = toWildcardN Table.init [] := by
    have h : wildcardStep Table.init (wcFull (bytesNeeded * 8)) ("TCP_FLAGS", 2, none, 56) = .ok (wcFull (bytesNeeded * 8)) := by
      unfold wildcardStep
      rw [show Table.init.fields.lookup "TCP_FLAGS" = none from by decide +kernel]
    unfold toWildcardN
    rw [List.foldlM_cons, h]
    rfl
  refine ⟨⟨Table.init.fields ++ [("TCP_FLAGS", 56, none)], Table.init.ordered ++ ["TCP_FLAGS"]⟩, ⟨[("TCP_FLAGS", 2, none, 56)], 2 ^ 56⟩,
    by decide +kernel, by decide, e, ?_, by decide +kernel, by decide +kernel⟩
  intro w p h
  rw [e] at h
  obtain ⟨w', ew, c, -⟩ := C15_match_to_wildcard [] (by simp)
  have : w = w' := by
    have h' : toWildcard [] = .ok w := h
    rw [ew] at h'; cases h'; rfl
  subst this
  exact (c p).2 (by simp [MatchesAll])

end OFE.Names
