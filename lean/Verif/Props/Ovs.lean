import Verif.Ovs.RuleLemmas

/-!
# Properties of the Open vSwitch format (C66)
-/

namespace OFE.Ovs
open Fmt

/-- Specification: a rule that can be written: its match was built from fields with a notation, all values and masks are in range, its actions have
a notation (`Writable`), and there is no meter. -/
structure WritableRule {π : Type} (r : Rule π) : Prop where
  mat : r.mat.Inv
  fields : ∀ x ∈ r.mat.items, FieldOK x
  apply : ∃ s, (∀ a ∈ s, Writable a) ∧ ActionList.ofList s = .ok r.inst.apply
  write : ∃ w, (∀ a ∈ w, Writable a) ∧ actionSetOfList w = .ok r.inst.write
  meter : r.inst.meter = none

/-- The part of the line before `actions=`. -/
def head (c t p : Nat) (m : List Char) : List Char :=
  ("cookie".toList ++ '=' :: (formatHex c ++ [','])) ++ [' '] ++ ("table".toList ++ '=' :: (digits 10 t ++ [','])) ++ [' '] ++
    ("priority".toList ++ '=' :: (digits 10 p ++ [','])) ++ (m ++ [' '])

theorem head_eq (c t p m i : List Char) : "cookie=".toList ++ c ++ (", table=".toList ++ t) ++ (", priority=".toList ++ p) ++ ',' :: (m ++ (" actions=".toList ++ i)) =
    ("cookie".toList ++ '=' :: (c ++ [','])) ++ [' '] ++ ("table".toList ++ '=' :: (t ++ [','])) ++ [' '] ++
      ("priority".toList ++ '=' :: (p ++ [','])) ++ (m ++ [' ']) ++ (pat ++ i) := by
  rw [show "cookie=".toList = "cookie".toList ++ ['='] from rfl, show ", table=".toList = [','] ++ ([' '] ++ ("table".toList ++ ['='])) from rfl,
    show ", priority=".toList = [','] ++ ([' '] ++ ("priority".toList ++ ['='])) from rfl, show " actions=".toList = [' '] ++ pat from rfl]
  generalize "cookie".toList = x1
  generalize "table".toList = x2
  generalize "priority".toList = x3
  simp only [List.append_assoc, List.cons_append, List.nil_append]

/-- C66: a rule that is written and read is the same rule; a missing cookie becomes 0.

Partial: without IPv6 addresses, IPV6_FLABEL and meters, and with VLAN ids without the present bit in set-field actions; for those it is false
(`C66_ipv6`, `C66_flabel`, `C66_meter`, `C66_vlan`).  Groups, copy-TTL and PBB actions cannot be written (`C66_not_written`). -/
theorem C66_round_trip_partial {π : Type} (groups : List (Nat × Nat)) (r : Rule π) (h : WritableRule r) :
    ∃ text r', ruleToOvs r = .ok text ∧ ruleFromOvs (π := π) groups text = .ok r' ∧ r'.eq { r with cookie := some (r.cookie.getD 0) } = true := by
  obtain ⟨s, hs, es⟩ := h.apply
  obtain ⟨w, hw, ew⟩ := h.write
  obtain ⟨it, i', e1, e2, e3, e4⟩ := inst_text groups hs es hw ew h.meter
  obtain ⟨ts, f1, f2, -, f4⟩ := fields_items (π := π) h.fields
  have hc1 := chunk_num (name := "cookie".toList) (by decide) (by decide) (hex_text (r.cookie.getD 0))
  have hc2 := chunk_num (name := "table".toList) (by decide) (by decide) (decimal_text r.table)
  have hc3 := chunk_num (name := "priority".toList) (by decide) (by decide) (decimal_text r.priority)
  have hchunk : Chunk (head (r.cookie.getD 0) r.table r.priority (joinWith ',' ts)) _ :=
    ((((hc1.append chunk_space).append hc2).append chunk_space).append hc3).append f4
  have hline : ruleToOvs r = .ok (head (r.cookie.getD 0) r.table r.priority (joinWith ',' ts) ++ (pat ++ it)) := by
    unfold ruleToOvs matchToOvs
    rw [f1, e1]
    exact congrArg Except.ok (head_eq (formatHex (r.cookie.getD 0)) (digits 10 r.table) (digits 10 r.priority) (joinWith ',' ts) it)
  refine ⟨_, { (⟨r.priority, some (r.cookie.getD 0), r.table, r.mat.items.foldl (fun m x => m.append x.1 x.2.1 x.2.2) .empty, .empty, []⟩ : Rule π) with
    inst := i' }, hline, ?_, ?_⟩
  · unfold ruleFromOvs
    rw [show "actions=".toList = pat from rfl, splitOn_line hchunk fun hm => e2 _ hm rfl]
    have hitems : items (head (r.cookie.getD 0) r.table r.priority (joinWith ',' ts)) =
        ["cookie".toList ++ '=' :: formatHex (r.cookie.getD 0), "table".toList ++ '=' :: digits 10 r.table, "priority".toList ++ '=' :: digits 10 r.priority]
          ++ ts := by
      have := hchunk.items []
      rw [List.append_nil] at this
      rw [this]
      simp [items]
    simp only [hitems, List.cons_append, List.nil_append, List.foldlM_cons, flow_cookie _ rfl (hex_text (r.cookie.getD 0)),
      flow_table _ rfl (decimal_text r.table), flow_priority _ rfl (decimal_text r.priority), f2, bind, Except.bind]
    by_cases hit : it = []
    · subst hit
      have : i' = .empty := by cases e3; rfl
      subst this
      rfl
    · rw [if_neg (by simpa using hit), e3]
      rfl
  · have hitems := rebuild_items r.mat.items .empty (fun x hx => (h.fields x hx).norm) (by simpa [Match.empty] using h.mat.nodup)
    have hm := eq_of_items (inv_foldl r.mat.items .empty inv_empty) h.mat (by rw [hitems]; rfl)
    unfold Rule.eq
    simp only [beq_self_eq_true, Bool.true_and, Bool.and_true, hm, e4]

theorem inRange_of {f v w : Nat} (h : fieldBits f = some w) (hv : v < 2 ^ w) : InRange f v := by
  intro w' h'
  rw [h] at h'
  cases h'
  exact hv

/-- ETH_DST 33:33:00:00:00:00/ff:ff:00:00:00:00, VLAN_VID 5 (present), IPV4_SRC 10.0.0.0/255.0.0.0, TCP_DST 80; apply PUSH_VLAN, SET_FIELD VLAN_VID 9,
OUTPUT 3; write DEC_NW_TTL, OUTPUT 1; metadata and goto. -/
def ovsSample : Rule Nat :=
  ⟨5, none, 2, ⟨[(3, 0x333300000000, some 0xffff00000000), (6, 0x1005, none), (11, 0x0a000000, some 0xff000000), (14, 80, none)],
    2 ^ 3 + 2 ^ 6 + 2 ^ 11 + 2 ^ 14, none⟩,
    ⟨some 4, mkList [.pushVlan 0x8100, .setField 6 9, .output 3], mkList [.decNwTtl, .output 1], some (7, some 15), true, none⟩, []⟩

/-- The conditions of C66 hold for the sample. -/
theorem ovsSample_writable : WritableRule ovsSample := by
  refine ⟨⟨by decide, fun f => ?_, by intro w h; cases h⟩, ?_, ⟨[.pushVlan 0x8100, .setField 6 9, .output 3], ?_, ofList_known (show ∀ a ∈ [Action.pushVlan 0x8100, .setField 6 9, .output 3], a.known = true by decide)⟩,
    ⟨[.output 1, .decNwTtl], ?_, by decide +kernel⟩, rfl⟩
  · change Nat.testBit (2 ^ 3 + 2 ^ 6 + 2 ^ 11 + 2 ^ 14) f = decide (f ∈ [3, 6, 11, 14])
    by_cases h : f < 15
    · have : ∀ f : Fin 15, Nat.testBit (2 ^ 3 + 2 ^ 6 + 2 ^ 11 + 2 ^ 14) f.1 = decide (f.1 ∈ [3, 6, 11, 14]) := by decide
      exact this ⟨f, h⟩
    · have h2 : 2 ^ 15 ≤ 2 ^ f := Nat.pow_le_pow_right (by omega) (by omega)
      rw [Nat.testBit_lt_two_pow (by omega)]
      symm
      rw [decide_eq_false_iff_not]
      simp only [List.mem_cons, List.not_mem_nil, or_false]
      omega
  · intro x hx
    simp only [ovsSample, List.mem_cons, List.not_mem_nil, or_false] at hx
    rcases hx with rfl | rfl | rfl | rfl
    · refine ⟨by decide +kernel, inRange_of (w := 48) (by decide) (by decide), fun m hm => ?_, by decide +kernel⟩
      cases hm; exact inRange_of (w := 48) (by decide) (by decide)
    · refine ⟨by decide +kernel, inRange_of (w := 13) (by decide) (by decide), fun m hm => ?_, by decide +kernel⟩
      cases hm
    · refine ⟨by decide +kernel, inRange_of (w := 32) (by decide) (by decide), fun m hm => ?_, by decide +kernel⟩
      cases hm; exact inRange_of (w := 32) (by decide) (by decide)
    · refine ⟨by decide +kernel, inRange_of (w := 16) (by decide) (by decide), fun m hm => ?_, by decide +kernel⟩
      cases hm
  · intro a ha
    simp only [List.mem_cons, List.not_mem_nil, or_false] at ha
    rcases ha with rfl | rfl | rfl
    · trivial
    · exact ⟨by decide +kernel, inRange_of (w := 13) (by decide) (by decide), fun _ => by decide⟩
    · trivial
  · intro a ha
    simp only [List.mem_cons, List.not_mem_nil, or_false] at ha
    rcases ha with rfl | rfl <;> trivial

example : ∃ text r', ruleToOvs ovsSample = .ok text ∧ ruleFromOvs (π := Nat) [] text = .ok r' ∧ r'.eq { ovsSample with cookie := some 0 } = true :=
  C66_round_trip_partial [] ovsSample ovsSample_writable

/-! ### What is lost -/

/-- An IPv6 address is not read back. -/
theorem C66_ipv6 : ∃ t m', matchToOvs (Match.empty.append 26 1 none) = .ok t ∧ matchFromOvs t = .ok m' ∧ m'.eq (Match.empty.append 26 1 none) = false := by
  have e : formatIpv6 1 = "00:00:00:00:00:00:00:00:00:00:00:00:00:00:00:01".toList := by
    simp only [formatIpv6, padHex]
    rw [digits, if_pos (.inl (by omega))]
    decide
  refine ⟨"ipv6_src=00:00:00:00:00:00:00:00:00:00:00:00:00:00:00:01".toList, _, ?_, rfl, ?_⟩
  · rw [show Match.empty.append 26 1 none = ⟨[(26, 1, none)], 2 ^ 26, none⟩ from by decide +kernel]
    simp only [matchToOvs, List.mapM_cons, List.mapM_nil, fieldText, show fieldToOvs.lookup 26 = some "ipv6_src".toList from by decide +kernel,
      show fieldForm 26 = .ipv6 from by decide, withMask, Form.text, e]
    rfl
  · decide +kernel

/-- A match on the IPv6 flow label cannot be written, although Open vSwitch has a notation for it. -/
theorem C66_flabel (v : Nat) : matchToOvs (Match.empty.append 28 v none) = .error .runtimeError := by rfl

/-- Two rules that differ in their meters only have the same text. -/
theorem C66_meter {π : Type} (r : Rule π) (n : Option Nat) : ruleToOvs { r with inst := { r.inst with meter := n } } = ruleToOvs r := rfl

/-- Setting VLAN id `v` with the present bit and without it have the same text. -/
theorem C66_vlan (v : Nat) (h : v < 0x1000) : actionToOvs (.setField fVid (v + 0x1000)) = actionToOvs (.setField fVid v) ∧
    Action.setField fVid (v + 0x1000) ≠ .setField fVid v := by
  refine ⟨?_, by simp⟩
  have : (v + 0x1000) ||| 0x1000 = v ||| 0x1000 := by
    rw [show v + 0x1000 = 2 ^ 12 * 1 + v from by omega, Nat.two_pow_add_eq_or_of_lt (by omega : v < 2 ^ 12) 1]
    apply Nat.eq_of_testBit_eq
    intro i
    simp only [Nat.testBit_or]
    cases v.testBit i <;> cases (2 ^ 12 : Nat).testBit i <;> simp_all
  simp only [actionToOvs, if_pos, this]

/-- The other actions are refused. -/
theorem C66_not_written (g e : Nat) : actionToOvs (.group g) = .error .runtimeError ∧ actionToOvs .copyTtlIn = .error .runtimeError ∧
    actionToOvs .copyTtlOut = .error .runtimeError ∧ actionToOvs (.pushPbb e) = .error .runtimeError ∧ actionToOvs .popPbb = .error .runtimeError :=
  ⟨rfl, rfl, rfl, rfl, rfl⟩

/-- Fields for which Open vSwitch has no name are refused, in a match and in a set-field. -/
theorem C66_no_name (f v : Nat) (h : f ∉ fieldToOvs.map (·.1)) :
    actionToOvs (.setField f v) = .error .runtimeError ∧ ∀ mask, fieldText (f, v, mask) = .error .runtimeError := by
  have : fieldToOvs.lookup f = none := by
    rw [List.lookup_eq_none_iff]
    intro p hp
    have hne : f ≠ p.1 := fun e => h (List.mem_map.2 ⟨p, hp, e.symm⟩)
    simpa using hne
  exact ⟨by simp only [actionToOvs, this], fun mask => by simp only [fieldText, this]⟩
example : actionToOvs (.setField 28 7) = .error .runtimeError := (C66_no_name 28 7 (by decide +kernel)).1

end OFE.Ovs
