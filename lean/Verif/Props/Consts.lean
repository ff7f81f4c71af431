import Verif.OpenFlow.Consts
import Verif.Text.Model

/-! # C95: OpenFlow constants are found under both names -/

namespace OFE.Consts

/-! ### Specification -/

/-- Specification: the name is defined with this value in one of the tables. -/
def Defined (tables : List Table) (k : List Char) (v : Nat) : Prop := ∃ t ∈ tables, (k, v) ∈ t

/-- Specification: no name is defined twice. -/
def Once (tables : List Table) : Prop := (tables.flatten.map (·.1)).Nodup

/-! ### Lemmas -/

theorem set_new {k : List Char} (v : Nat) : ∀ {d : Table}, k ∉ d.map (·.1) → d.set k v = d ++ [(k, v)]
  | [], _ => rfl
  | (k', v') :: rest, h => by
    simp only [List.map_cons, List.mem_cons, not_or] at h
    simp only [Table.set, if_neg (Ne.symm h.1), set_new v h.2, List.cons_append]

theorem set_keys (k : List Char) (v : Nat) : ∀ (d : Table), k ∈ d.map (·.1) → (d.set k v).map (·.1) = d.map (·.1)
  | [], h => by simp at h
  | (k', v') :: rest, h => by
    simp only [Table.set]
    split
    · rename_i h1; simp [h1]
    · rename_i h1
      simp only [List.map_cons, List.mem_cons] at h
      simp only [List.map_cons, set_keys k v rest (h.resolve_left (Ne.symm h1))]

theorem mem_set_keys {k : List Char} {v : Nat} {d : Table} {j : List Char} : j ∈ (d.set k v).map (·.1) ↔ j ∈ d.map (·.1) ∨ j = k := by
  by_cases h : k ∈ d.map (·.1)
  · rw [set_keys k v d h]
    exact ⟨Or.inl, fun h1 => h1.elim id fun e => e ▸ h⟩
  · rw [set_new v h]
    simp

theorem length_set_le (k : List Char) (v : Nat) (d : Table) : (d.set k v).length ≤ d.length + 1 := by
  by_cases h : k ∈ d.map (·.1)
  · have := congrArg List.length (set_keys k v d h)
    simp only [List.length_map] at this
    omega
  · rw [set_new v h]; simp

theorem length_update_le : ∀ (y x : Table), (x.update y).length ≤ x.length + y.length
  | [], x => by simp [Table.update]
  | e :: y, x => by
    have h1 := length_update_le y (x.set e.1 e.2)
    have h2 := length_set_le e.1 e.2 x
    simp only [Table.update, List.foldl_cons, List.length_cons] at *
    omega

theorem update_app : ∀ (y x : Table), (y.map (·.1)).Nodup → (∀ k ∈ y.map (·.1), k ∉ x.map (·.1)) → x.update y = x ++ y
  | [], x, _, _ => by simp [Table.update]
  | (k, v) :: y, x, hn, hd => by
    simp only [List.map_cons, List.nodup_cons] at hn
    have hk : k ∉ x.map (·.1) := hd k (by simp)
    show Table.update (x.set k v) y = _
    rw [set_new v hk, update_app y _ hn.2]
    · simp
    · intro j hj
      simp only [List.map_append, List.mem_append, List.map_cons, List.map_nil, List.mem_singleton, not_or]
      exact ⟨hd j (by simp only [List.map_cons, List.mem_cons]; exact Or.inr hj), fun e => hn.1 (e ▸ hj)⟩

theorem update_short : ∀ (y x : Table), (∃ k ∈ y.map (·.1), k ∈ x.map (·.1)) → (x.update y).length < x.length + y.length
  | [], x, h => by simp at h
  | (k, v) :: y, x, h => by
    show (Table.update (x.set k v) y).length < x.length + (y.length + 1)
    by_cases hk : k ∈ x.map (·.1)
    · have h1 := length_update_le y (x.set k v)
      have h2 := congrArg List.length (set_keys k v x hk)
      simp only [List.length_map] at h2
      omega
    · obtain ⟨j, hj, hx⟩ := h
      simp only [List.map_cons, List.mem_cons] at hj
      have hj' : j ∈ y.map (·.1) := hj.resolve_left fun e => hk (e ▸ hx)
      have := update_short y (x.set k v) ⟨j, hj', mem_set_keys.2 (Or.inl hx)⟩
      have := length_set_le k v x
      omega

theorem get_iff {d : Table} (h : (d.map (·.1)).Nodup) (k : List Char) (v : Nat) : d.get k = some v ↔ (k, v) ∈ d := by
  induction d with
  | nil => simp [Table.get]
  | cons e d ih =>
    simp only [List.map_cons, List.nodup_cons] at h
    by_cases hk : e.1 = k
    · have h1 : Table.get (e :: d) k = some e.2 := by simp [Table.get, hk]
      rw [h1]
      constructor
      · intro h2; cases h2; subst hk; simp
      · intro h2
        rcases List.mem_cons.1 h2 with h2 | h2
        · rw [← h2]
        · exact absurd (List.mem_map.2 ⟨_, h2, hk.symm⟩) h.1
    · have h1 : Table.get (e :: d) k = Table.get d k := by simp [Table.get, hk]
      rw [h1, ih h.2]
      simp only [List.mem_cons]
      constructor
      · exact Or.inr
      · rintro (h2 | h2)
        · rw [← h2] at hk; exact absurd rfl hk
        · exact h2

theorem mergeAll_app : ∀ (tables : List Table) (x : Table), ((x ++ tables.flatten).map (·.1)).Nodup →
    tables.foldl (fun x y => x.bind fun x => mergeDicts x (Table.update [] y)) (some x) = some (x ++ tables.flatten)
  | [], x, _ => by simp
  | t :: tables, x, h => by
    have h' : ((x ++ t ++ tables.flatten).map (·.1)).Nodup := by simpa [List.append_assoc] using h
    have h2 : (x.map (·.1) ++ t.map (·.1)).Nodup := by
      rw [List.map_append, List.map_append] at h'
      exact (List.nodup_append.1 h').1
    obtain ⟨-, h3, h4⟩ := List.nodup_append.1 h2
    have h5 : Table.update [] t = t := by
      rw [update_app t [] h3 (by simp)]; rfl
    have h6 : mergeDicts x t = some (x ++ t) := by
      simp [mergeDicts, update_app t x h3 fun k hk hx => h4 k hx k hk rfl]
    rw [List.foldl_cons, Option.bind_some, h5, h6, mergeAll_app tables _ h']
    simp

theorem mergeAll_once {tables : List Table} (h : Once tables) : mergeAll tables = some tables.flatten := by
  have := mergeAll_app tables [] (by rw [List.nil_append]; exact h)
  rw [List.nil_append] at this
  exact this

/-- A number for each name, to compare names quickly. -/
def code (s : List Char) : Nat := s.foldl (fun n c => n * 128 + c.toNat) 0

theorem nodup_of_code {l : List (List Char)} (h : (l.map code).Nodup) : l.Nodup := by
  have h1 : (l.map code).Pairwise (· ≠ ·) := h
  rw [List.pairwise_map] at h1
  exact h1.imp fun h e => h (by rw [e])

/-- What is checked of the tables, in one theorem because reading the names takes time. -/
theorem checked : (allTables.flatten.map fun e => code e.1).Nodup ∧ (mergedTables.flatten.map fun e => code e.1).Nodup ∧
    (∀ e ∈ mergedTables.flatten, code (e.1.take 6) ≠ code "OFPOFP".toList) ∧ (∀ e ∈ mergedTables.flatten, e.1.take 3 = ['O', 'F', 'P']) ∧
    (∀ e ∈ mergedTables.flatten, code e.1 ≠ code "OFPTC_DEPRECATED_MASK".toList) ∧
    (∀ t ∈ mergedTables, t = oxmOfbMatchFields ∨ ∀ e ∈ t, code (e.1.take 11) ≠ code "OFPXMT_OFB_".toList ∨ 40 ≤ e.2) ∧
    oxmOfbMatchFields = (List.range 40).map fun f => ("OFPXMT_OFB_".toList ++ Str.fieldName f, f) := by
  decide +kernel

theorem all_once : Once allTables := nodup_of_code (by rw [List.map_map]; exact checked.1)

theorem merged_once : Once mergedTables := nodup_of_code (by rw [List.map_map]; exact checked.2.1)

/-! ### C95 -/

/-- C95: merge_dicts fails exactly if the two share a name. -/
theorem C95_merge (x y : Table) (hy : (y.map (·.1)).Nodup) :
    (mergeDicts x y = none ↔ ∃ k, k ∈ x.map (·.1) ∧ k ∈ y.map (·.1)) ∧ ∀ z, mergeDicts x y = some z → z = x ++ y := by
  by_cases h : ∃ k, k ∈ x.map (·.1) ∧ k ∈ y.map (·.1)
  · have h0 := update_short y x (let ⟨k, h1, h2⟩ := h; ⟨k, h2, h1⟩)
    have : mergeDicts x y = none := by simp only [mergeDicts]; exact if_neg (by omega)
    rw [this]
    exact ⟨⟨fun _ => h, fun _ => rfl⟩, fun z hz => by cases hz⟩
  · have : mergeDicts x y = some (x ++ y) := by
      simp [mergeDicts, update_app y x hy fun k h1 h2 => h ⟨k, h2, h1⟩]
    rw [this]
    exact ⟨⟨fun h1 => (by simp at h1), fun h1 => absurd h1 h⟩, fun z hz => by simpa using hz.symm⟩

/-- C95: no constant is defined twice, in the same table or in different ones. -/
theorem C95_once : Once allTables := all_once

/-- C95: building the description does not fail, and what it holds are the constants of the tables that are merged. -/
theorem C95_merged : ∃ all, ofpAll = some all ∧ ∀ k v, all.get k = some v ↔ Defined mergedTables k v := by
  refine ⟨mergedTables.flatten, mergeAll_once merged_once, fun k v => ?_⟩
  rw [get_iff merged_once, List.mem_flatten]
  rfl

/-- C95: value_from_OFP finds a constant of the merged tables under its name and under its name without OFP, and nothing else.
Missing: the constant of ofp_table_config (`C95_not_merged`). -/
theorem C95_value_partial : ∃ all, ofpAll = some all ∧ valueFromOFP all .other = none ∧
    ∀ k v, valueFromOFP all (.str k) = some v ↔ Defined mergedTables k v ∨ Defined mergedTables ("OFP".toList ++ k) v := by
  obtain ⟨all, h1, h2⟩ := C95_merged
  refine ⟨all, h1, rfl, fun k v => ?_⟩
  have key : ∀ v w, Defined mergedTables k v → Defined mergedTables ("OFP".toList ++ k) w → False := by
    rintro v w ⟨t, ht, hk⟩ ⟨t', ht', hk'⟩
    -- both names begin with OFP, so the second begins with OFPOFP
    have q1 : k.take 3 = ['O', 'F', 'P'] := checked.2.2.2.1 _ (List.mem_flatten.2 ⟨t, ht, hk⟩)
    refine checked.2.2.1 _ (List.mem_flatten.2 ⟨t', ht', hk'⟩) (congrArg code ?_)
    have e6 : ("OFP".toList ++ k).take 6 = "OFP".toList ++ k.take 3 := rfl
    show ("OFP".toList ++ k).take 6 = _
    rw [e6, q1]
    decide +kernel
  have un : valueFromOFP all (.str k) = (match all.get ("OFP".toList ++ k) with | some v => some v | none => all.get k) := rfl
  rw [un]
  cases hg : all.get ("OFP".toList ++ k) with
  | some w =>
    have hw := (h2 _ _).1 hg
    show some w = some v ↔ _
    rw [Option.some.injEq]
    constructor
    · rintro rfl; exact Or.inr hw
    · rintro (h | h)
      · exact (key v w h hw).elim
      · have := (h2 _ _).2 h
        rw [hg] at this
        simpa using this
  | none =>
    show all.get k = some v ↔ _
    rw [h2]
    constructor
    · exact Or.inl
    · rintro (h | h)
      · exact h
      · have := (h2 _ _).2 h
        rw [hg] at this
        cases this

/-- C95 fails for OFPTC_DEPRECATED_MASK: its table is not in the list that is merged, so it is not found under either name. -/
theorem C95_not_merged : Defined allTables "OFPTC_DEPRECATED_MASK".toList 3 ∧
    ∀ all, ofpAll = some all → valueFromOFP all (.str "OFPTC_DEPRECATED_MASK".toList) = none ∧ valueFromOFP all (.str "TC_DEPRECATED_MASK".toList) = none := by
  refine ⟨⟨ofpTableConfig, by simp [allTables], by simp [ofpTableConfig]⟩, fun all h => ?_⟩
  have e : all = mergedTables.flatten := by
    have := mergeAll_once merged_once
    rw [show mergeAll mergedTables = ofpAll from rfl, h] at this
    simpa using this
  subst e
  have g1 : Table.get mergedTables.flatten "OFPTC_DEPRECATED_MASK".toList = none := by
    cases hg : Table.get mergedTables.flatten "OFPTC_DEPRECATED_MASK".toList with
    | none => rfl
    | some v => exact absurd rfl (checked.2.2.2.2.1 _ ((get_iff merged_once _ _).1 hg))
  have g2 : ∀ s : List Char, s.take 3 ≠ ['O', 'F', 'P'] → Table.get mergedTables.flatten s = none := by
    intro s hs
    cases hg : Table.get mergedTables.flatten s with
    | none => rfl
    | some v => exact absurd (checked.2.2.2.1 _ ((get_iff merged_once _ _).1 hg)) hs
  have g3 : Table.get mergedTables.flatten ("OFP".toList ++ "OFPTC_DEPRECATED_MASK".toList) = none := by
    cases hg : Table.get mergedTables.flatten ("OFP".toList ++ "OFPTC_DEPRECATED_MASK".toList) with
    | none => rfl
    | some v => exact absurd (by show code (("OFP".toList ++ "OFPTC_DEPRECATED_MASK".toList).take 6) = _; decide +kernel) (checked.2.2.1 _ ((get_iff merged_once _ _).1 hg))
  have e1 : "OFP".toList ++ "TC_DEPRECATED_MASK".toList = "OFPTC_DEPRECATED_MASK".toList := by decide +kernel
  constructor
  · simp only [valueFromOFP, g3, g1]
  · simp only [valueFromOFP, e1, g1]
    exact g2 _ (by decide +kernel)

/-- C95: it is the only one. -/
theorem C95_only_one (k : List Char) (v : Nat) (h : Defined allTables k v) : Defined mergedTables k v ∨ k = "OFPTC_DEPRECATED_MASK".toList := by
  have hs : ∀ t ∈ allTables, t ∈ mergedTables ∨ t = ofpTableConfig := by
    intro t ht
    simp only [allTables, List.mem_cons, List.not_mem_nil, or_false] at ht
    simp only [mergedTables, List.mem_cons, List.not_mem_nil, or_false]
    grind
  obtain ⟨t, ht, hk⟩ := h
  rcases hs t ht with h1 | rfl
  · exact Or.inl ⟨t, h1, hk⟩
  · simp only [ofpTableConfig, List.mem_singleton, Prod.mk.injEq] at hk
    exact Or.inr hk.1

/-- C95: the number of every field is that of its OFPXMT_OFB constant, and there are no other such constants. -/
theorem C95_fields (f : Nat) (name : List Char) :
    (f < 40 ∧ name = Str.fieldName f) ↔ Defined mergedTables ("OFPXMT_OFB_".toList ++ name) f ∧ f < 40 := by
  have h1 := checked.2.2.2.2.2.2
  have h3 : oxmOfbMatchFields ∈ mergedTables := by simp [mergedTables]
  constructor
  · rintro ⟨h, rfl⟩
    refine ⟨⟨_, h3, ?_⟩, h⟩
    rw [h1]
    exact List.mem_map.2 ⟨f, List.mem_range.2 h, rfl⟩
  · rintro ⟨⟨t, ht, hm⟩, h⟩
    refine ⟨h, ?_⟩
    have hin : ∀ g name, (name, g) ∈ oxmOfbMatchFields → name = "OFPXMT_OFB_".toList ++ Str.fieldName g := by
      intro g name hg
      rw [h1] at hg
      obtain ⟨f, -, hf⟩ := List.mem_map.1 hg
      simp only [Prod.mk.injEq] at hf
      obtain ⟨rfl, rfl⟩ := hf
      rfl
    rcases checked.2.2.2.2.2.1 t ht with rfl | e
    · exact List.append_cancel_left (hin _ _ hm)
    · rcases e _ hm with h4 | h4
      · exact absurd (by rfl : code (("OFPXMT_OFB_".toList ++ name).take 11) = code "OFPXMT_OFB_".toList) h4
      · exact absurd h (by simpa using h4)

/-- C95: all tables that are merged are among those that are defined, so `C95_once` is about them too. -/
theorem C95_merged_defined : (∀ t ∈ mergedTables, t ∈ allTables) ∧ allTables.length = 53 ∧ mergedTables.length = 52 := by
  refine ⟨fun t ht => ?_, by simp [allTables], by simp [mergedTables]⟩
  simp only [mergedTables, List.mem_cons, List.not_mem_nil, or_false] at ht
  simp only [allTables, List.mem_cons, List.not_mem_nil, or_false]
  grind

/-- Specification: an enumeration of the standard that counts from 0. -/
def Enumerated (t : Table) : Prop := t.map (·.2) = List.range t.length

/-- Specification: flags of the standard, one bit each from the lowest. -/
def Flags (t : Table) : Prop := t.map (·.2) = (List.range t.length).map (2 ^ ·)

/-- C95: the enumerations that count from 0 in the standard do so here, and so do flags with the bits. -/
theorem C95_values : (∀ t ∈ [
    ofpType, ofpConfigFlags, ofpMatchType, ofpPortReason, oxmOfbMatchFields, ofpFlowModCommand, ofpGroupModCommand, ofpGroupType, ofpPacketInReason,
      ofpFlowRemovedReason, ofpMeterModCommand, ofpHelloFailedCode, ofpBadRequestCode, ofpBadActionCode, ofpBadInstructionCode, ofpBadMatchCode,
      ofpFlowModFailedCode, ofpGroupModFailedCode, ofpPortModFailedCode, ofpTableModFailedCode, ofpQueueOpFailedCode, ofpSwitchConfigFailedCode,
      ofpRoleRequestFailedCode, ofpMeterModFailedCode, ofpTableFeaturesFailedCode, ofpControllerRole], Enumerated t) ∧ ∀ t ∈ [
    ofpHelloElemType, ofpPortState, ofpPortFeatures, ofpIpv6exthdrFlags, ofpFlowModFlags, ofpMeterFlags, ofpMultipartRequestFlags,
      ofpMultipartReplyFlags, ofpGroupCapabilities], Flags t := by
  have h1 : ([
    ofpType, ofpConfigFlags, ofpMatchType, ofpPortReason, oxmOfbMatchFields, ofpFlowModCommand, ofpGroupModCommand, ofpGroupType, ofpPacketInReason,
      ofpFlowRemovedReason, ofpMeterModCommand, ofpHelloFailedCode, ofpBadRequestCode, ofpBadActionCode, ofpBadInstructionCode, ofpBadMatchCode,
      ofpFlowModFailedCode, ofpGroupModFailedCode, ofpPortModFailedCode, ofpTableModFailedCode, ofpQueueOpFailedCode, ofpSwitchConfigFailedCode,
      ofpRoleRequestFailedCode, ofpMeterModFailedCode, ofpTableFeaturesFailedCode, ofpControllerRole].all fun t => decide (t.map (·.2) = List.range t.length)) = true := by decide +kernel
  have h2 : ([
    ofpHelloElemType, ofpPortState, ofpPortFeatures, ofpIpv6exthdrFlags, ofpFlowModFlags, ofpMeterFlags, ofpMultipartRequestFlags,
      ofpMultipartReplyFlags, ofpGroupCapabilities].all fun t => decide (t.map (·.2) = (List.range t.length).map (2 ^ ·))) = true := by decide +kernel
  refine ⟨fun t ht => ?_, fun t ht => ?_⟩
  · have := List.all_eq_true.1 h1 t ht
    rw [decide_eq_true_eq] at this
    exact this
  · have := List.all_eq_true.1 h2 t ht
    rw [decide_eq_true_eq] at this
    exact this

/-- Specification: the reserved numbers of the standard, counted from the end of the numbers of the width of their kind, and the numbers of the
experimenter, which are all ones. -/
def standardNumbers : List (String × Nat) := [
  ("OFPP_MAX", 2 ^ 32 - 2 ^ 8), ("OFPP_IN_PORT", 2 ^ 32 - 8), ("OFPP_TABLE", 2 ^ 32 - 7), ("OFPP_NORMAL", 2 ^ 32 - 6), ("OFPP_FLOOD", 2 ^ 32 - 5),
  ("OFPP_ALL", 2 ^ 32 - 4), ("OFPP_CONTROLLER", 2 ^ 32 - 3), ("OFPP_LOCAL", 2 ^ 32 - 2), ("OFPP_ANY", 2 ^ 32 - 1), ("OFPTT_MAX", 2 ^ 8 - 2),
  ("OFPTT_ALL", 2 ^ 8 - 1), ("OFPVID_PRESENT", 2 ^ 12), ("OFPVID_NONE", 0), ("OFPCML_NO_BUFFER", 2 ^ 16 - 1), ("OFPG_MAX", 2 ^ 32 - 2 ^ 8),
  ("OFPG_ALL", 2 ^ 32 - 4), ("OFPG_ANY", 2 ^ 32 - 1), ("OFPM_MAX", 2 ^ 32 - 2 ^ 16), ("OFPM_SLOWPATH", 2 ^ 32 - 3), ("OFPM_CONTROLLER", 2 ^ 32 - 2),
  ("OFPM_ALL", 2 ^ 32 - 1), ("OFPQ_ALL", 2 ^ 32 - 1), ("OFP_DEFAULT_PRIORITY", 2 ^ 15), ("OFPXMT_OFB_ALL", 2 ^ 40 - 1),
  ("OFPAT_EXPERIMENTER", 2 ^ 16 - 1), ("OFPIT_EXPERIMENTER", 2 ^ 16 - 1), ("OFPMBT_EXPERIMENTER", 2 ^ 16 - 1), ("OFPET_EXPERIMENTER", 2 ^ 16 - 1),
  ("OFPMP_EXPERIMENTER", 2 ^ 16 - 1), ("OFPQT_EXPERIMENTER", 2 ^ 16 - 1), ("OFPXMC_EXPERIMENTER", 2 ^ 16 - 1), ("OFPXMC_OPENFLOW_BASIC", 2 ^ 15)]

/-- C95: the reserved numbers have the values of the standard. -/
theorem C95_reserved : ∀ e ∈ standardNumbers, Defined mergedTables e.1.toList e.2 := by
  have h : (standardNumbers.all fun e => decide ((e.1.toList, e.2) ∈ mergedTables.flatten)) = true := by decide +kernel
  intro e he
  have := List.all_eq_true.1 h e he
  rw [decide_eq_true_eq, List.mem_flatten] at this
  exact this

/-- C95: before the number of the experimenter the error types and the multipart types count from 0, the instructions, bands and queue properties
from 1. -/
theorem C95_before_experimenter : Enumerated ofpErrorType.dropLast ∧ Enumerated ofpMultipartType.dropLast ∧
    ∀ t ∈ [ofpInstructionType, ofpMeterBandType, ofpQueueProperties], t.dropLast.map (·.2) = (List.range t.dropLast.length).map (· + 1) := by
  refine ⟨by unfold Enumerated; decide +kernel, by unfold Enumerated; decide +kernel, fun t ht => ?_⟩
  have h : ([ofpInstructionType, ofpMeterBandType, ofpQueueProperties].all fun t =>
      decide (t.dropLast.map (·.2) = (List.range t.dropLast.length).map (· + 1))) = true := by decide +kernel
  have := List.all_eq_true.1 h t ht
  rw [decide_eq_true_eq] at this
  exact this

/-- C95: every action type has a constant. -/
theorem C95_actions : ∀ name ∈ actionNames, ∃ v, Defined mergedTables ("OFPAT_".toList ++ name.toList) v := by
  have h : (actionNames.all fun name => decide (("OFPAT_".toList ++ name.toList) ∈ ofpActionType.map (·.1))) = true := by decide +kernel
  intro name hn
  have := List.all_eq_true.1 h name hn
  simp only [decide_eq_true_eq, List.mem_map] at this
  obtain ⟨e, he, h2⟩ := this
  exact ⟨e.2, ofpActionType, by simp [mergedTables], h2 ▸ he⟩

example : Defined mergedTables "OFPP_CONTROLLER".toList 0xfffffffd := ⟨ofpPortNo, by simp [mergedTables], by simp [ofpPortNo]⟩
example : mergeDicts [("a".toList, 1)] [("b".toList, 2)] = some [("a".toList, 1), ("b".toList, 2)] ∧ mergeDicts [("a".toList, 1)] [("a".toList, 2)] = none := by
  decide +kernel
example : valueFromOFP ofpPortNo (.str "P_CONTROLLER".toList) = some 0xfffffffd ∧ valueFromOFP ofpPortNo (.str "OFPP_CONTROLLER".toList) = some 0xfffffffd ∧
    valueFromOFP ofpPortNo (.str "CONTROLLER".toList) = none := by decide +kernel

end OFE.Consts
