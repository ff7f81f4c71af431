import Verif.Match.MatchLemmas

/-!
# Properties C15, C16, C17: matches and wildcards

`MatchesAll items p` (Match/Spec.lean) says that packet `p` agrees with every (field, value, mask) entry.
-/

namespace OFE

/-- C15: a match on known fields always has a wildcard, and the wildcard covers exactly the packets satisfying the match; with
distinct fields (a dict) the wildcard is well formed and leaves the padding free. -/
theorem C15_match_to_wildcard (items : MItems) (hk : ∀ x ∈ items, x.1 < 56) :
    ∃ w, toWildcard items = .ok w ∧ (∀ p, Covers totBits w p ↔ MatchesAll items p) ∧
      ((items.map (·.1)).Nodup → WcValid totBits w ∧ PadFull w) := by
  obtain ⟨w, e, -⟩ := toWildcard_ok hk
  exact ⟨w, e, covers_toWildcard hk e, fun hnd => ⟨toWildcard_valid hk hnd e, toWildcard_pad hk e⟩⟩

/-- C15: every match has a wildcard, also with fields that had to be added on the fly; the packets are those that agree with its known fields. -/
theorem C15_unknown_field (items : MItems) :
    ∃ w, toWildcard items = .ok w ∧ (∀ p, Covers totBits w p ↔ ∀ x ∈ items, x.1 < 56 → MatchesField p x) ∧
      ((items.map (·.1)).Nodup → WcValid totBits w ∧ PadFull w) := by
  obtain ⟨w, e, c, v⟩ := C15_match_to_wildcard _ (known_mem (m := items))
  refine ⟨w, by rw [toWildcard_known, e], fun p => (c p).trans ?_, fun hnd => v (known_nodup hnd)⟩
  unfold MatchesAll
  simp only [List.mem_filter, decide_eq_true_eq, and_imp]

/-- VLAN_VID 5, a field number 60 that nobody knows, and ETH_TYPE 0x800: the unknown field is ignored. -/
example : toWildcard [(6, 5, none), (60, 1, some 3), (5, 0x800, none)] = toWildcard [(6, 5, none), (5, 0x800, none)] ∧
    (([(6, 5, none), (60, 1, some 3), (5, 0x800, none)] : MItems).map (·.1)).Nodup := ⟨toWildcard_known _, by decide⟩

/-- C15, layout: the 56 fields and the 3 padding bits tile the 1584 header bits without overlap. -/
theorem C15_layout : bytesNeeded * 8 = 1584 ∧ (∀ f, f < 56 → 0 < width f ∧ 3 ≤ fieldPos f ∧ fieldPos f + width f ≤ 1584) ∧
    (∀ k, 3 ≤ k → k < 1584 → ∃ f, f < 56 ∧ fieldPos f ≤ k ∧ k < fieldPos f + width f) ∧
    (∀ f g k, f < 56 → g < 56 → fieldPos f ≤ k → k < fieldPos f + width f → fieldPos g ≤ k → k < fieldPos g + width g →
      f = g) :=
  ⟨bytesNeeded_eq, fun f hf => ⟨width_pos f hf, fieldPos_ge hf, fieldPos_le hf⟩, fun _ => exists_field,
    fun _ _ _ => field_disjoint⟩

/-- VLAN_VID 5 under mask 7 and ETH_TYPE 0x800: the wildcard constrains bits of both fields and nothing else. -/
example : ∃ w, toWildcard [(6, 5, some 7), (5, 0x800, none)] = .ok w ∧ WcValid totBits w ∧
    Covers totBits w (fun k => decide (k = fieldPos 6) || decide (k = fieldPos 6 + 2) || decide (k = fieldPos 5 + 11)) := by
  obtain ⟨w, e, c, v⟩ := C15_match_to_wildcard [(6, 5, some 7), (5, 0x800, none)] (by decide)
  refine ⟨w, e, (v (by decide)).1, (c _).2 ?_⟩
  have key : ∀ x ∈ ([(6, 5, some 7), (5, 0x800, none)] : MItems), ∀ i, i < width x.1 →
      (cares x i = true → (decide (fieldPos x.1 + i = fieldPos 6) || decide (fieldPos x.1 + i = fieldPos 6 + 2) ||
        decide (fieldPos x.1 + i = fieldPos 5 + 11)) = x.2.1.testBit i) := by decide +kernel
  intro x hx i hi hm
  refine key x hx i hi ?_
  unfold cares
  cases h : x.2.2 with
  | none => rfl
  | some m => exact hm m h

/-- C16: a well formed wildcard with free padding converts to a list of fields (distinct, in normal form) whose
wildcard is the original; as a `Match` object the same entries and cache are stored. -/
theorem C16_round_trip (wc : Nat) (hv : WcValid totBits wc) (hp : PadFull wc) :
    ∃ m, wildcardToMatch wc = .ok m ∧ toWildcard m.items = .ok wc ∧ m.cache = some wc ∧
      (m.items.map (·.1)).Nodup ∧ wildcardToFields wc = .ok m.items ∧
      ∀ p, Covers totBits wc p ↔ MatchesAll m.items p := by
  obtain ⟨m, h1, h2, h3, h4, h5, h6⟩ := wildcardToMatch_ok hv hp
  refine ⟨m, h1, h6, h4, h2.nodup, by rw [h3]; exact wildcardToFields_eq hp, ?_⟩
  exact covers_toWildcard (fun x hx => (h5 x hx).1) h6

/-- C16: `Match.intersection` of two matches that some packet satisfies both of is a match satisfied by exactly the common
packets. -/
theorem C16_intersection (a b : Match) (ha : a.Inv) (hb : b.Inv) (hka : ∀ x ∈ a.items, x.1 < 56)
    (hkb : ∀ x ∈ b.items, x.1 < 56) (hov : ∃ p, MatchesAll a.items p ∧ MatchesAll b.items p) :
    ∃ m, a.intersection b = .ok m ∧ m.Inv ∧ (∀ x ∈ m.items, NormItem x) ∧
      ∀ p, MatchesAll m.items p ↔ MatchesAll a.items p ∧ MatchesAll b.items p := by
  obtain ⟨wa, ea, -⟩ := toWildcard_ok hka
  obtain ⟨wb, eb, -⟩ := toWildcard_ok hkb
  have ca := covers_toWildcard hka ea
  have cb := covers_toWildcard hkb eb
  have va := toWildcard_valid hka ha.nodup ea
  have h0 : 0 < totBits := by simp [totBits]
  have hne : wcIntersect totBits wa wb ≠ 0 := by
    rw [Ne, wcIntersect_eq_zero h0, not_not]
    obtain ⟨p, h1, h2⟩ := hov
    exact ⟨p, (ca p).2 h1, (cb p).2 h2⟩
  have hv := wcValid_wcIntersect (b := wb) va hne
  have hp : PadFull (wcIntersect totBits wa wb) := by
    intro j hj
    unfold wcIntersect at hne ⊢
    simp only at hne ⊢
    split at hne
    · exact absurd rfl hne
    · next h => rw [if_neg h, Nat.testBit_and, toWildcard_pad hka ea j hj, toWildcard_pad hkb eb j hj]; rfl
  obtain ⟨m, h1, h2, h3, h4, h5, h6⟩ := wildcardToMatch_ok hv hp
  have ga : ∃ m', a.getWildcard = .ok (wa, m') := by
    have := getWildcard_eq ha
    rw [ea] at this
    cases hg : a.getWildcard with
    | error e => rw [hg] at this; cases this
    | ok x => rw [hg] at this; cases this; exact ⟨x.2, rfl⟩
  have gb : ∃ m', b.getWildcard = .ok (wb, m') := by
    have := getWildcard_eq hb
    rw [eb] at this
    cases hg : b.getWildcard with
    | error e => rw [hg] at this; cases this
    | ok x => rw [hg] at this; cases this; exact ⟨x.2, rfl⟩
  obtain ⟨ma, ga⟩ := ga
  obtain ⟨mb, gb⟩ := gb
  refine ⟨m, ?_, h2, h5, fun p => ?_⟩
  · unfold Match.intersection
    rw [ga, gb, bytesNeeded_eq]; exact h1
  · rw [← covers_toWildcard (fun x hx => (h5 x hx).1) h6, covers_wcIntersect h0, ca, cb]

/-- C16: for disjoint matches the intersection does not return an "empty match": it raises `KeyError('NONE')`. -/
theorem C16_intersection_disjoint (a b : Match) (ha : a.Inv) (hb : b.Inv) (hka : ∀ x ∈ a.items, x.1 < 56)
    (hkb : ∀ x ∈ b.items, x.1 < 56) (hov : ¬ ∃ p, MatchesAll a.items p ∧ MatchesAll b.items p) :
    a.intersection b = .error .keyError := by
  obtain ⟨wa, ea, -⟩ := toWildcard_ok hka
  obtain ⟨wb, eb, -⟩ := toWildcard_ok hkb
  have h0 : 0 < totBits := by simp [totBits]
  have hz : wcIntersect totBits wa wb = 0 := by
    rw [wcIntersect_eq_zero h0]
    rintro ⟨p, h1, h2⟩
    exact hov ⟨p, (covers_toWildcard hka ea p).1 h1, (covers_toWildcard hkb eb p).1 h2⟩
  have := getWildcard_eq ha
  have := getWildcard_eq hb
  unfold Match.intersection
  cases hg : a.getWildcard with
  | error e => simp_all [Except.map]
  | ok x =>
    cases hg' : b.getWildcard with
    | error e => simp_all [Except.map]
    | ok y =>
      have hx : x.1 = wa := by simp_all [Except.map]
      have hy : y.1 = wb := by simp_all [Except.map]
      show wildcardToMatch (wcIntersect (bytesNeeded * 8) x.1 y.1) = _
      rw [hx, hy, bytesNeeded_eq, hz, wildcardToMatch_zero]

/-- C16: the cover union is a match satisfied by all packets of both, with no unnecessary freedom per bit. -/
theorem C16_union_cover (a b : Match) (ha : a.Inv) (hb : b.Inv) (hka : ∀ x ∈ a.items, x.1 < 56)
    (hkb : ∀ x ∈ b.items, x.1 < 56) :
    ∃ m, a.unionCover b = .ok m ∧ m.Inv ∧
      (∀ p, MatchesAll a.items p ∨ MatchesAll b.items p → MatchesAll m.items p) ∧
      ∀ c : Match, (∀ x ∈ c.items, x.1 < 56) →
        (∀ p, MatchesAll a.items p ∨ MatchesAll b.items p → MatchesAll c.items p) →
        ∀ p, MatchesAll m.items p → MatchesAll c.items p := by
  obtain ⟨wa, ea, -⟩ := toWildcard_ok hka
  obtain ⟨wb, eb, -⟩ := toWildcard_ok hkb
  have ca := covers_toWildcard hka ea
  have cb := covers_toWildcard hkb eb
  have va := toWildcard_valid hka ha.nodup ea
  have vb := toWildcard_valid hkb hb.nodup eb
  have hv : WcValid totBits (wcUnionCover wa wb) := wcValid_union va vb
  have hp : PadFull (wcUnionCover wa wb) := by
    intro j hj
    unfold wcUnionCover
    rw [Nat.testBit_or, toWildcard_pad hka ea j hj]; rfl
  obtain ⟨m, h1, h2, h3, h4, h5, h6⟩ := wildcardToMatch_ok hv hp
  have cm := covers_toWildcard (fun x hx => (h5 x hx).1) h6
  have le1 : wcIsSubset wa (wcUnionCover wa wb) = true := by
    rw [wcIsSubset_iff_le]; intro j h; simp [wcUnionCover, h]
  have le2 : wcIsSubset wb (wcUnionCover wa wb) = true := by
    rw [wcIsSubset_iff_le]; intro j h; simp [wcUnionCover, h]
  have e1 := getWildcard_eq ha
  have e2 := getWildcard_eq hb
  refine ⟨m, ?_, h2, ?_, ?_⟩
  · unfold Match.unionCover
    cases hg : a.getWildcard with
    | error e => simp_all [Except.map]
    | ok x =>
      cases hg' : b.getWildcard with
      | error e => simp_all [Except.map]
      | ok y =>
        have hx : x.1 = wa := by simp_all [Except.map]
        have hy : y.1 = wb := by simp_all [Except.map]
        show wildcardToMatch (wcUnionCover x.1 y.1) = _
        rw [hx, hy, h1]
  · rintro p (h | h)
    · exact (cm p).1 (covers_mono le1 ((ca p).2 h))
    · exact (cm p).1 (covers_mono le2 ((cb p).2 h))
  · intro c hkc hc p hpm
    obtain ⟨wc, ec, -⟩ := toWildcard_ok hkc
    have cc := covers_toWildcard hkc ec
    have s1 : wcIsSubset wa wc = true := (wcIsSubset_iff va).2 fun q hq => (cc q).2 (hc q (Or.inl ((ca q).1 hq)))
    have s2 : wcIsSubset wb wc = true := (wcIsSubset_iff vb).2 fun q hq => (cc q).2 (hc q (Or.inr ((cb q).1 hq)))
    refine (cc p).1 (covers_mono ?_ ((cm p).2 hpm))
    rw [wcIsSubset_iff_le] at *
    intro j hj
    unfold wcUnionCover at hj
    rw [Nat.testBit_or, Bool.or_eq_true] at hj
    rcases hj with hj | hj
    · exact s1 j hj
    · exact s2 j hj

/-- VLAN_VID 5 under mask 7 intersected with VLAN_VID 8 under mask 8 is VLAN_VID 13 under mask 15; with VLAN_VID 1
under mask 6 it is disjoint. -/
example :
    ((Match.empty.append 6 5 (some 7)).intersection (Match.empty.append 6 8 (some 8))).map (·.items) = .ok [(6, 13, some 15)] ∧
    ((Match.empty.append 6 5 (some 7)).intersection (Match.empty.append 6 1 (some 6))).map (·.items) = .error .keyError ∧
    ((Match.empty.append 6 5 (some 7)).unionCover (Match.empty.append 6 1 (some 6))).map (·.items) = .ok [(6, 0, some 2)] := by
  decide +kernel

/-- Operations that read or change a match. -/
inductive MOp where
  | append (f v : Nat) (mask : Option Nat)
  | del (f : Nat)
  | getWildcard

/-- Apply one operation. -/
def Match.step (m : Match) : MOp → Except PyErr Match
  | .append f v mask => .ok (m.append f v mask)
  | .del f => m.del f
  | .getWildcard => m.getWildcard.map (·.2)

/-- C17: after any history of operations the keys are distinct, `required_mask` is the set of keys, and whatever
`get_wildcard` returns (cached or not) is the wildcard of the current entries. -/
theorem C17_cache_coherent (ops : List MOp) (m : Match) (h : ops.foldlM Match.step Match.empty = .ok m) :
    (m.items.map (·.1)).Nodup ∧ (∀ f, m.required.testBit f = true ↔ f ∈ m.items.map (·.1)) ∧
    m.getWildcard.map (·.1) = toWildcard m.items := by
  have key : ∀ m0 : Match, m0.Inv → ops.foldlM Match.step m0 = .ok m → m.Inv := by
    clear h
    induction ops with
    | nil => intro m0 h0 h; cases h; exact h0
    | cons o ops ih =>
      intro m0 h0 h
      rw [List.foldlM_cons] at h
      cases hs : m0.step o with
      | error e => rw [hs] at h; cases h
      | ok m1 =>
        rw [hs] at h
        refine ih m1 ?_ h
        cases o with
        | append f v mask => cases hs; exact inv_append h0 _ _ _
        | del f => exact inv_del h0 hs
        | getWildcard =>
          unfold Match.step at hs
          cases hg : m0.getWildcard with
          | error e => rw [hg] at hs; cases hs
          | ok x => rw [hg] at hs; cases hs; exact (inv_getWildcard h0 hg).1
  have I := key _ inv_empty h
  exact ⟨I.nodup, fun f => by rw [I.req]; simp, getWildcard_eq I⟩

/-- C17: equal matches have the same wildcard (hence the same hash) and the same packets. -/
theorem C17_eq_same_wildcard (a b : Match) (ha : a.Inv) (hb : b.Inv) (h : a.eq b = true) :
    a.getWildcard.map (·.1) = b.getWildcard.map (·.1) ∧ ∀ p, MatchesAll a.items p ↔ MatchesAll b.items p := by
  unfold Match.eq at h
  split at h
  swap
  · cases h
  rw [dictEq_iff ha.nodup hb.nodup] at h
  have hmem : ∀ x, x ∈ a.items ↔ x ∈ b.items := fun x => by
    obtain ⟨k, v⟩ := x
    rw [mem_dict_iff ha.nodup, mem_dict_iff hb.nodup, h]
  have hp : ∀ p, MatchesAll a.items p ↔ MatchesAll b.items p := fun p => by
    unfold MatchesAll; simp only [hmem]
  refine ⟨?_, hp⟩
  rw [getWildcard_eq ha, getWildcard_eq hb]
  obtain ⟨wa, ea, ca, va⟩ := C15_unknown_field a.items
  obtain ⟨wb, eb, cb, vb⟩ := C15_unknown_field b.items
  rw [ea, eb]
  congr 1
  apply wc_ext (va ha.nodup).1 (vb hb.nodup).1
  intro p
  rw [ca, cb]
  simp only [hmem]

/-- C17: a history whose `append`s have in-range exact values and masks that are not empty within the field width yields only
entries in normal form. -/
theorem C17_normal_form (ops : List MOp) (m : Match)
    (hops : ∀ f v mask, MOp.append f v mask ∈ ops → ProperArgs f v mask)
    (h : ops.foldlM Match.step Match.empty = .ok m) : ∀ x ∈ m.items, NormItem x := by
  have key : ∀ m0 : Match, m0.Inv → (∀ x ∈ m0.items, NormItem x) → ops.foldlM Match.step m0 = .ok m →
      ∀ x ∈ m.items, NormItem x := by
    clear h
    induction ops with
    | nil => intro m0 _ h0 h; cases h; exact h0
    | cons o ops ih =>
      intro m0 I h0 h
      rw [List.foldlM_cons] at h
      cases hs : m0.step o with
      | error e => rw [hs] at h; cases h
      | ok m1 =>
        rw [hs] at h
        have ih := ih (fun f v mask hm => hops f v mask (List.mem_cons_of_mem _ hm)) m1
        cases o with
        | append f v mask =>
          cases hs
          refine ih (inv_append I _ _ _) ?_ h
          rintro ⟨k, x⟩ hx
          rw [mem_dict_iff (inv_append I f v mask).nodup] at hx
          unfold Match.append at hx
          rw [lookup_dictSet] at hx
          split at hx
          · next e => subst e; cases hx; exact norm_normValue (hops _ _ _ (by simp))
          · exact h0 _ (mem_of_lookup_eq_some hx)
        | del f =>
          have hs : m0.del f = .ok m1 := hs
          refine ih (inv_del I hs) ?_ h
          unfold Match.del at hs
          split at hs
          · cases hs
          · cases hs
            intro x hx
            exact h0 x (List.mem_of_mem_filter hx)
        | getWildcard =>
          unfold Match.step at hs
          cases hg : m0.getWildcard with
          | error e => rw [hg] at hs; cases hs
          | ok x =>
            rw [hg] at hs; cases hs
            obtain ⟨i1, i2, i3⟩ := inv_getWildcard I hg
            refine ih i1 ?_ h
            rw [i2]; exact h0
  exact key _ inv_empty (by simp [Match.empty]) h

/-- C17: matches in normal form are equal whenever they have the same wildcard, so equality is equality of packet sets. -/
theorem C17_eq_iff_same_packets (a b : Match) (ha : a.Inv) (hb : b.Inv) (hna : ∀ x ∈ a.items, NormItem x)
    (hnb : ∀ x ∈ b.items, NormItem x) : a.eq b = true ↔ ∀ p, MatchesAll a.items p ↔ MatchesAll b.items p := by
  refine ⟨fun h => (C17_eq_same_wildcard a b ha hb h).2, fun h => ?_⟩
  have hka : ∀ x ∈ a.items, x.1 < 56 := fun x hx => (hna x hx).1
  have hkb : ∀ x ∈ b.items, x.1 < 56 := fun x hx => (hnb x hx).1
  obtain ⟨wa, ea, ba⟩ := toWildcard_ok hka
  obtain ⟨wb, eb, bb⟩ := toWildcard_ok hkb
  have hw : wa = wb := by
    apply wc_ext (toWildcard_valid hka ha.nodup ea) (toWildcard_valid hkb hb.nodup eb)
    intro p
    rw [covers_toWildcard hka ea, covers_toWildcard hkb eb, h]
  subst hw
  -- the bits of one field are those of the entry for that field
  have one : ∀ (m : MItems), (∀ x ∈ m, x.1 < 56) → (m.map (·.1)).Nodup → ∀ k c, k < totBits → ∀ f, f < 56 →
      fieldPos f ≤ k → k < fieldPos f + width f →
      (m.all fun x => allows x k c) = match m.lookup f with | none => true | some y => allows (f, y) k c := by
    intro m hk hnd k c _ f hf h1 h2
    rw [Bool.eq_iff_iff, List.all_eq_true]
    cases hl : m.lookup f with
    | none =>
      simp only [iff_true]
      intro x hx
      apply allows_outside
      rintro ⟨g1, g2⟩
      have := field_disjoint (hk x hx) hf g1 g2 h1 h2
      rw [lookup_eq_none_iff] at hl
      exact hl (this ▸ List.mem_map.2 ⟨x, hx, rfl⟩)
    | some y =>
      simp only
      constructor
      · intro hall; exact hall (f, y) (mem_of_lookup_eq_some hl)
      · intro hy x hx
        by_cases hin : fieldPos x.1 ≤ k ∧ k < fieldPos x.1 + width x.1
        · have e := field_disjoint (hk x hx) hf hin.1 hin.2 h1 h2
          have := lookup_eq_some_of_mem hnd hx
          rw [e, hl] at this
          have : x = (f, y) := Prod.ext e (Option.some.inj this).symm
          rw [this]; exact hy
        · exact allows_outside hin
  -- a normal entry constrains at least one bit
  have some_bit : ∀ x, NormItem x → ∃ i, i < width x.1 ∧ ∃ c, allows x (fieldPos x.1 + i) c = false := by
    rintro ⟨f, v, m⟩ ⟨h1, h2, h3⟩
    have hc : ∃ i, i < width f ∧ cares (f, v, m) i = true := by
      cases m with
      | none => exact ⟨0, width_pos f h1, rfl⟩
      | some k =>
        obtain ⟨k0, k1, _⟩ := h3 k rfl
        obtain ⟨i, hi⟩ := Nat.exists_testBit_of_ne_zero k0
        refine ⟨i, ?_, hi⟩
        by_contra hge
        have : k.testBit i = false :=
          Nat.testBit_lt_two_pow (Nat.lt_of_lt_of_le (by simp only at k1; omega : k < 2 ^ width f)
            (Nat.pow_le_pow_right (by omega) (by omega)))
        rw [hi] at this; cases this
    obtain ⟨i, hi, hc⟩ := hc
    refine ⟨i, hi, !v.testBit i, ?_⟩
    unfold allows
    simp [hc, hi]
  have hdict : ∀ f, a.items.lookup f = b.items.lookup f := by
    intro f
    by_cases hf : f < 56
    · have hall : ∀ i, i < width f → ∀ c,
          (match a.items.lookup f with | none => true | some y => allows (f, y) (fieldPos f + i) c) =
          (match b.items.lookup f with | none => true | some y => allows (f, y) (fieldPos f + i) c) := by
        intro i hi c
        have hle := fieldPos_le hf
        have hk : fieldPos f + i < totBits := by omega
        rw [← one a.items hka ha.nodup _ c hk f hf (by omega) (by omega),
          ← one b.items hkb hb.nodup _ c hk f hf (by omega) (by omega)]
        have e1 := ba (fieldPos f + i) c
        have e2 := bb (fieldPos f + i) c
        rw [decide_eq_true hk, Bool.true_and] at e1 e2
        rw [← e1, ← e2]
      cases la : a.items.lookup f with
      | none =>
        cases lb : b.items.lookup f with
        | none => rfl
        | some y =>
          exfalso
          obtain ⟨i, hi, c, hc⟩ := some_bit _ (hnb _ (mem_of_lookup_eq_some lb))
          have := hall i hi c
          rw [la, lb] at this
          simp only at this hc
          rw [hc] at this; cases this
      | some x =>
        cases lb : b.items.lookup f with
        | none =>
          exfalso
          obtain ⟨i, hi, c, hc⟩ := some_bit _ (hna _ (mem_of_lookup_eq_some la))
          have := hall i hi c
          rw [la, lb] at this
          simp only at this hc
          rw [hc] at this; cases this
        | some y =>
          rw [la, lb] at hall
          have := norm_ext (hna _ (mem_of_lookup_eq_some la)) (hnb _ (mem_of_lookup_eq_some lb)) rfl hall
          rw [Prod.mk.injEq] at this
          rw [this.2]
    · have ha' : a.items.lookup f = none := lookup_eq_none_iff.2 fun hm => by
        obtain ⟨x, hx, e⟩ := List.mem_map.1 hm
        have := hka x hx; omega
      have hb' : b.items.lookup f = none := lookup_eq_none_iff.2 fun hm => by
        obtain ⟨x, hx, e⟩ := List.mem_map.1 hm
        have := hkb x hx; omega
      rw [ha', hb']
  unfold Match.eq
  rw [if_pos, (dictEq_iff ha.nodup hb.nodup).2 hdict]
  apply Nat.eq_of_testBit_eq
  intro f
  rw [ha.req, hb.req]
  simp only [← lookup_isSome_iff, hdict]

/-- Without normal form equality is finer than the packet set: an entry with mask 0 constrains nothing but makes the
match different from the empty match (same wildcard and hash, though). -/
theorem C17_mask_zero_not_normal :
    (Match.empty.append 6 5 (some 0)).eq Match.empty = false ∧
    toWildcard (Match.empty.append 6 5 (some 0)).items = toWildcard Match.empty.items := by
  constructor <;> decide +kernel

/-- Two histories leading to equal matches in normal form. -/
example : (([.append 6 0x1ff (some 0xff), .append 5 7 none, .getWildcard, .del 5] : List MOp).foldlM Match.step Match.empty).map
      (fun m => m.items) = .ok [(6, 0xff, some 0xff)] ∧ ProperArgs 6 0x1ff (some 0xff) ∧ ProperArgs 5 7 none := by
  refine ⟨by decide +kernel, ⟨by decide, by decide, ?_⟩, ⟨by decide, fun _ => by decide +kernel, by decide⟩⟩
  intro m hm; cases hm; decide +kernel

example : ∃ w m, toWildcard [(6, 5, some 7), (5, 0x800, none)] = .ok w ∧ wildcardToMatch w = .ok m ∧ toWildcard m.items = .ok w ∧
    ∀ p, MatchesAll [(6, 5, some 7), (5, 0x800, none)] p ↔ MatchesAll m.items p := by
  obtain ⟨w, e, c, v⟩ := C15_match_to_wildcard [(6, 5, some 7), (5, 0x800, none)] (by decide)
  obtain ⟨hv, hp⟩ := v (by decide)
  obtain ⟨m, e1, e2, -, -, -, hm⟩ := C16_round_trip w hv hp
  exact ⟨w, m, e, e1, e2, fun p => (c p).symm.trans (hm p)⟩

end OFE
