import Verif.Ryu.InstLemmas
import Verif.Ovs.InstLemmas
import Verif.Props.Ovs
import Verif.Props.OvsRead
import Verif.Rule.ReqLemmas

/-!
# Properties of Ryu messages (C70, C71)
-/

namespace OFE.Ryu
open Fmt Ovs

/-- Specification: a rule that comes back from Ryu: a match on OpenFlow fields in range whose values are within their masks and, as bytes, do not look like the
text of an address; actions on OpenFlow fields, groups given by numbers; no metadata and no meter. -/
structure RyuRule {π : Type} (heap : Nat → Option GroupObj) (r : Rule π) : Prop where
  mat : r.mat.Inv
  fields : ∀ x ∈ r.mat.items, OxmOK x
  norm : ∀ x ∈ r.mat.items, normValue x.1 x.2.1 x.2.2 = x.2
  masked : ∀ x ∈ r.mat.items, ∀ m, x.2.2 = some m → x.2.1 &&& m = x.2.1
  plain : ∀ x ∈ r.mat.items, PlainValue x.1 x.2.1 ∧ ∀ m, x.2.2 = some m → PlainValue x.1 m
  apply : ∃ s, AllKnown s ∧ NoObjects heap s ∧ ActionList.ofList s = .ok r.inst.apply
  write : ∃ w, AllKnown w ∧ NoObjects heap w ∧ actionSetOfList w = .ok r.inst.write
  wmeta : r.inst.wmeta = none
  meter : r.inst.meter = none

theorem triples_eq {items : List (Nat × Nat × Option Nat)} {ys : List ROxm} (h : List.Forall₂ OxmFor items ys) (hm : ∀ x ∈ items, sentValue x = x.2.1) :
    ys.map ROxm.triple = items := by
  induction h with
  | nil => rfl
  | @cons x o items ys hxo _ ih =>
    rw [List.map_cons, ih fun y hy => hm y (List.mem_cons_of_mem _ hy), ROxm.triple, hxo.field, hxo.value, hm x List.mem_cons_self, hxo.mask]

theorem forall2_mem {α β : Type} {R : α → β → Prop} {a : List α} {b : List β} (h : List.Forall₂ R a b) : ∀ y ∈ b, ∃ x ∈ a, R x y := by
  induction h with
  | nil => simp
  | @cons x z a b hr _ ih =>
    intro y hy
    rcases List.mem_cons.1 hy with rfl | hy
    · exact ⟨x, List.mem_cons_self, hr⟩
    · obtain ⟨x', h1, h2⟩ := ih y hy
      exact ⟨x', List.mem_cons_of_mem _ h1, h2⟩

/-- Instructions that were built by appending actions can be written. -/
theorem instOK_of {heap : Nat → Option GroupObj} {i : Inst} (hm : i.wmeta = none) (ht : i.meter = none)
    (ha : ∃ s, AllKnown s ∧ NoObjects heap s ∧ ActionList.ofList s = .ok i.apply)
    (hw : ∃ w, AllKnown w ∧ NoObjects heap w ∧ actionSetOfList w = .ok i.write) : InstOK heap i ∧ AllKnown i.apply.iter ∧ AllKnown i.write.iter := by
  obtain ⟨s, ks, os, es⟩ := ha
  obtain ⟨w, kw, ow, ew⟩ := hw
  rw [ofList_known ks] at es
  have ea : i.apply = mkList s := (Except.ok.inj es).symm
  obtain ⟨l, el, hset⟩ := actionSet_known kw
  rw [ew] at el
  cases el
  have hperm := (mkList_iter_trace s).perm
  have hwm : ∀ a ∈ i.write.iter, a ∈ w := fun a h => ((hset.content a).1 (hset.iter_perm.mem_iff.1 h)).1.mem
  refine ⟨⟨hm, ht, fun g hg => ow g (hwm _ hg), fun g hg => os g ?_, hset.iter_perm.length_eq.symm, ?_⟩, fun a h => ks a ?_, fun a h => kw a (hwm a h)⟩
  · rw [ea] at hg; exact hperm.mem_iff.2 hg
  · rw [ea]; exact hperm.length_eq
  · rw [ea] at h; exact hperm.mem_iff.2 h

/-- C70: a rule converted to a flow mod and back is the same rule.

Partial: for values that look like addresses (`C70_port`, `C70_address`, `C70_mac`) and for metadata and meters (`C70_not_written`) it is false; `Group` objects come
back as numbers. -/
theorem C70_round_trip_partial {π : Type} (heap : Nat → Option GroupObj) (fuel n : Nat) (r : Rule π) (h : RyuRule heap r) :
    ∃ f r', ruleToRyu heap fuel r n = .ok (f, [], n) ∧ ruleFromRyu (π := π) f = .ok r' ∧ r'.eq r = true := by
  obtain ⟨ys, l, e1, hf, hp⟩ := matchToRyu_ok h.fields
  have hsent : ∀ x ∈ r.mat.items, sentValue x = x.2.1 := by
    intro x hx
    unfold sentValue
    cases e : x.2.2 with
    | none => rfl
    | some m => exact h.masked x hx m e
  have htr := triples_eq hf hsent
  have hlp : (l.map ROxm.triple).Perm r.mat.items := by rw [← htr]; exact hp.map _
  obtain ⟨hi, ka, kw⟩ := instOK_of h.wmeta h.meter h.apply h.write
  obtain ⟨il, e2, hprog, hfine⟩ := instToRyu_ok (vlanOf r.mat) fuel n hi
  have hplain : ∀ x ∈ l, ¬ LooksText x.value ∧ ∀ b, x.mask = some b → ¬ LooksText b := by
    intro o ho
    obtain ⟨x, hx, hxo⟩ := forall2_mem hf o (hp.mem_iff.1 ho)
    obtain ⟨p1, p2⟩ := h.plain x hx
    refine ⟨plain_bytes p1 (by rw [← hsent x hx]; exact hxo.valueBytes), fun b hb => ?_⟩
    have hm := hxo.mask
    rw [hb] at hm
    obtain ⟨b', e, e'⟩ := hxo.maskBytes (beNum b) hm.symm
    rw [hb] at e
    cases e
    exact plain_bytes (p2 _ hm.symm) e'
  obtain ⟨i', e3, ht⟩ := tracks_all il [] .empty tracks_nil (hfine ka kw)
  rw [List.nil_append] at ht
  have emat := oxms_plain .empty hplain
  refine ⟨⟨r.priority, r.cookie, r.table, some l, some il⟩,
    ⟨r.priority, r.cookie, r.table, (l.map ROxm.triple).foldl (fun m x => m.append x.1 x.2.1 x.2.2) .empty, i', []⟩, ?_, ?_, ?_⟩
  · unfold ruleToRyu
    rw [e1]
    simp only [bind, Except.bind, e2]
    rfl
  · unfold ruleFromRyu
    simp only [matchFromRyu, emat, instFromRyu, e3, bind, Except.bind]
    rfl
  · have hn : ((l.map ROxm.triple).map (·.1)).Nodup := (hlp.map _).nodup_iff.2 h.mat.nodup
    have hitems := rebuild_items (l.map ROxm.triple) .empty (fun x hx => h.norm x (hlp.mem_iff.1 hx)) (by simpa [Match.empty] using hn)
    have hm := eq_of_perm (inv_foldl (l.map ROxm.triple) .empty inv_empty) h.mat (by rw [hitems]; exact hlp)
    obtain ⟨s, ks, -, es⟩ := h.apply
    obtain ⟨w, kw', -, ew⟩ := h.write
    obtain ⟨s', ks', hs', es'⟩ := ht.apply
    obtain ⟨w', kw2, hw', ew'⟩ := ht.write
    have q1 := means_unique hs' hprog.apply
    have q2 := means_unique hw' hprog.write
    simp only at q1 q2
    subst q1 q2
    rw [ofList_known ks'] at es'
    rw [ofList_known ks] at es
    have ea : r.inst.apply = mkList s := (Except.ok.inj es).symm
    have ha : i'.apply.eq r.inst.apply = true := by
      obtain ⟨h1, h2⟩ := mkList_iter_levels s
      rw [← Except.ok.inj es', ea]
      exact actionList_eq h1 h2
    obtain ⟨l0, el, hset⟩ := actionSet_known kw'
    rw [ew] at el
    cases el
    obtain ⟨l', el', elv, ell, -⟩ := actionSet_rebuild hset kw'
    rw [ew'] at el'
    have hww : i'.write.eq r.inst.write = true := by
      cases el'
      exact actionList_eq elv ell
    have hI : i'.eq r.inst = true := by
      unfold Inst.eq
      rw [ha, hww, ht.goto, ht.wmeta, ht.clear, ht.meter, h.wmeta, h.meter, ← hprog.goto, ← hprog.wmeta, ← hprog.clear]
      simp
    unfold Rule.eq
    simp only [hm, hI, beq_self_eq_true, Bool.true_and, Bool.and_true]

/-- VLAN_VID 5 (present), ETH_DST 33:33:00:00:00:00/ff:ff:00:00:00:00, IPV4_SRC 10.0.0.0/8, TCP_DST 80; apply PUSH_VLAN, SET_FIELD VLAN_VID 9, OUTPUT 3; write
GROUP 7, OUTPUT 1; clear and goto. -/
def ryuSample : Rule Nat :=
  ⟨5, some 42, 2, ⟨[(6, 0x1005, none), (3, 0x333300000000, some 0xffff00000000), (11, 0x0a000000, some 0xff000000), (14, 80, none)],
    2 ^ 3 + 2 ^ 6 + 2 ^ 11 + 2 ^ 14, none⟩,
    ⟨some 4, mkList [.pushVlan 0x8100, .setField 6 9, .output 3], mkList [.group 7], none, true, none⟩, []⟩

theorem ryuSample_ok : RyuRule (fun _ => none) ryuSample := by
  refine ⟨⟨by decide, fun f => ?_, by intro w h; cases h⟩, ?_, by decide +kernel, ?_, ?_,
    ⟨[.pushVlan 0x8100, .setField 6 9, .output 3], show ∀ a ∈ [Action.pushVlan 0x8100, .setField 6 9, .output 3], a.known = true by decide, fun _ _ => rfl,
      ofList_known (show ∀ a ∈ [Action.pushVlan 0x8100, .setField 6 9, .output 3], a.known = true by decide)⟩,
    ⟨[.output 1, .group 7], show ∀ a ∈ [Action.output 1, .group 7], a.known = true by decide, fun _ _ => rfl, by decide +kernel⟩, rfl, rfl⟩
  · change Nat.testBit (2 ^ 3 + 2 ^ 6 + 2 ^ 11 + 2 ^ 14) f = decide (f ∈ [6, 3, 11, 14])
    by_cases h : f < 15
    · have : ∀ f : Fin 15, Nat.testBit (2 ^ 3 + 2 ^ 6 + 2 ^ 11 + 2 ^ 14) f.1 = decide (f.1 ∈ [6, 3, 11, 14]) := by decide
      exact this ⟨f, h⟩
    · have h2 : 2 ^ 15 ≤ 2 ^ f := Nat.pow_le_pow_right (by omega) (by omega)
      rw [Nat.testBit_lt_two_pow (by omega)]
      symm
      rw [decide_eq_false_iff_not]
      simp only [List.mem_cons, List.not_mem_nil, or_false]
      omega
  · intro x hx
    simp only [ryuSample, List.mem_cons, List.not_mem_nil, or_false] at hx
    rcases hx with rfl | rfl | rfl | rfl
    · exact ⟨by decide, inRange_of (w := 13) (by decide) (by decide), fun m hm => by cases hm⟩
    · refine ⟨by decide, inRange_of (w := 48) (by decide) (by decide), fun m hm => ?_⟩
      cases hm; exact inRange_of (w := 48) (by decide) (by decide)
    · refine ⟨by decide, inRange_of (w := 32) (by decide) (by decide), fun m hm => ?_⟩
      cases hm; exact inRange_of (w := 32) (by decide) (by decide)
    · exact ⟨by decide, inRange_of (w := 16) (by decide) (by decide), fun m hm => by cases hm⟩
  · intro x hx m hm
    simp only [ryuSample, List.mem_cons, List.not_mem_nil, or_false] at hx
    rcases hx with rfl | rfl | rfl | rfl <;> cases hm <;> decide +kernel
  · intro x hx
    simp only [ryuSample, List.mem_cons, List.not_mem_nil, or_false] at hx
    rcases hx with rfl | rfl | rfl | rfl
    · exact ⟨(plain_iff (size := 2) (by decide) (by decide)).2 (by decide +kernel), fun m hm => by cases hm⟩
    · refine ⟨(plain_iff (size := 6) (by decide) (by decide)).2 (by decide +kernel), fun m hm => ?_⟩
      cases hm; exact (plain_iff (size := 6) (by decide) (by decide)).2 (by decide +kernel)
    · refine ⟨(plain_iff (size := 4) (by decide) (by decide)).2 (by decide +kernel), fun m hm => ?_⟩
      cases hm; exact (plain_iff (size := 4) (by decide) (by decide)).2 (by decide +kernel)
    · exact ⟨(plain_iff (size := 2) (by decide) (by decide)).2 (by decide +kernel), fun m hm => by cases hm⟩

example : ∃ f r', ruleToRyu (fun _ => none) 1 ryuSample 3 = .ok (f, [], 3) ∧ ruleFromRyu (π := Nat) f = .ok r' ∧ r'.eq ryuSample = true :=
  C70_round_trip_partial _ 1 3 ryuSample ryuSample_ok

/-- C70: of the values of a field of two bytes (ports, Ethernet types, ...) only one looks like a text: 0x3a3a, two colons. -/
theorem C70_two_bytes (f v : Nat) (hf : oxmSizes[f]? = some 2) (hv : v < 2 ^ 16) : PlainValue f v ↔ v ≠ 0x3a3a := by
  rw [plain_iff hf (by simpa using hv)]
  have hb : toBytes 2 v = [Char.ofNat (v / 256 % 256), Char.ofNat (v % 256)] := rfl
  have hc : ∀ n, n < 256 → (Char.ofNat n = ':' ↔ n = 0x3a) := by
    intro n hn
    constructor
    · intro h
      have := ofNat_byte hn
      rw [h] at this
      exact this.symm
    · rintro rfl; rfl
  rw [hb]
  unfold LooksText
  have hcount : ∀ c d e : Char, [d, e].count c ≤ 2 := fun c d e => List.count_le_length
  constructor
  · rintro h rfl
    exact h (.inl (by decide))
  · rintro h (h1 | h1 | h1 | h1 | h1)
    · have := h1.eq_of_length (by rfl)
      simp only [List.cons.injEq, and_true] at this
      have a1 := (hc _ (by omega)).1 this.1.symm
      have a2 := (hc _ (by omega)).1 this.2.symm
      omega
    all_goals
      have := hcount ':' (Char.ofNat (v / 256 % 256)) (Char.ofNat (v % 256))
      have := hcount '.' (Char.ofNat (v / 256 % 256)) (Char.ofNat (v % 256))
      have := hcount '-' (Char.ofNat (v / 256 % 256)) (Char.ofNat (v % 256))
      omega

example : PlainValue 14 443 := (C70_two_bytes 14 443 (by decide) (by decide)).2 (by decide)

/-! ### What does not come back -/

/-- A rule with a match on one field only. -/
def onlyField (f v : Nat) : Rule Nat := ⟨1, none, 0, Match.empty.append f v none, .empty, []⟩

/-- TCP port 14906: the bytes are `::`, read as the IPv6 address zero. -/
theorem C70_port : ∃ f r', ruleToRyu (fun _ => none) 0 (onlyField 14 14906) 0 = .ok (f, [], 0) ∧ ruleFromRyu (π := Nat) f = .ok r' ∧
    r'.eq (onlyField 14 14906) = false ∧ r'.eq (onlyField 14 0) = true := by
  refine ⟨⟨1, none, 0, some [⟨14, [':', ':'], none⟩], some []⟩, onlyField 14 0, ?_, ?_, ?_, ?_⟩ <;> decide +kernel

/-- The Ethernet address 3a:3a:31:32:33:34: the bytes are `::1234`, read as the IPv6 address ::1234. -/
theorem C70_mac : ∃ f r', ruleToRyu (fun _ => none) 0 (onlyField 3 0x3a3a31323334) 0 = .ok (f, [], 0) ∧ ruleFromRyu (π := Nat) f = .ok r' ∧
    r'.eq (onlyField 3 0x3a3a31323334) = false ∧ r'.eq (onlyField 3 0x1234) = true := by
  refine ⟨⟨1, none, 0, some [⟨3, "::1234".toList, none⟩], some []⟩, onlyField 3 0x1234, ?_, ?_, ?_, ?_⟩ <;> decide +kernel

/-- The IPv4 address 46.46.46.1: the bytes are three dots and a 1, and reading fails. -/
theorem C70_address : ∃ f, ruleToRyu (fun _ => none) 0 (onlyField 11 0x2e2e2e01) 0 = .ok (f, [], 0) ∧ ruleFromRyu (π := Nat) f = .error .valueError := by
  refine ⟨⟨1, none, 0, some [⟨11, ['.', '.', '.', Char.ofNat 1], none⟩], some []⟩, ?_, ?_⟩ <;> decide +kernel

/-- Rules that write metadata or use a meter are not converted. -/
theorem C70_not_written {π : Type} (heap : Nat → Option GroupObj) (fuel n : Nat) (r : Rule π) (h : r.inst.wmeta.isSome ∨ r.inst.meter.isSome) :
    ∀ x, ruleToRyu heap fuel r n ≠ .ok x := by
  intro x hx
  unfold ruleToRyu at hx
  cases hm : matchToRyu r.mat with
  | error e => rw [hm] at hx; cases hx
  | ok l =>
    rw [hm] at hx
    simp only [bind, Except.bind] at hx
    have : ∀ y, instToRyu heap (vlanOf r.mat) fuel r.inst n ≠ .ok y := by
      intro y hy
      unfold instToRyu at hy
      by_cases h1 : r.inst.wmeta.isSome = true
      · rw [if_pos h1] at hy; cases hy
      · rw [if_neg h1] at hy
        simp only [bind, Except.bind, if_pos (h.resolve_left h1)] at hy
        cases h2 : actionsInst heap (vlanOf r.mat) fuel itWrite r.inst.write n with
        | error e => rw [h2] at hy; cases hy
        | ok z =>
          rw [h2] at hy
          simp only at hy
          cases h3 : actionsInst heap (vlanOf r.mat) fuel itApply r.inst.apply z.2.2 with
          | error e => rw [h3] at hy; cases hy
          | ok z' => rw [h3] at hy; cases hy
    cases hi : instToRyu heap (vlanOf r.mat) fuel r.inst n with
    | error e => rw [hi] at hx; cases hx
    | ok y => exact this y hi

example : ∀ x, ruleToRyu (fun _ => none) 0 ({ onlyField 14 80 with inst := { Inst.empty with wmeta := some (7, none) } } : Rule Nat) 0 ≠ .ok x :=
  C70_not_written _ 0 0 _ (.inl rfl)

/-! ### Files -/

/-- Specification: a value inside dicts; every dict has it under its first key. -/
def within (ks : List (String × List (String × Js))) (j : Js) : Js := ks.foldr (fun k j => .dict ((k.1, j) :: k.2)) j

theorem skip_within (ks : List (String × List (String × Js))) (l : List Js) (h : ∀ k ∈ ks, k.1.startsWith "OFP" = false) :
    skipInto (within ks (.list l)) = .ok (.list l) := by
  induction ks with
  | nil => simp [within, skipInto]
  | cons k ks ih =>
    have e : within (k :: ks) (.list l) = .dict ((k.1, within ks (.list l)) :: k.2) := rfl
    rw [e, skipInto, h k List.mem_cons_self]
    exact ih fun x hx => h x (List.mem_cons_of_mem _ hx)

theorem mapM_flow (other : Js → Except PyErr RFlow) (fs : List RFlow) : (fs.map Js.flow).mapM (asFlow other) = .ok fs := by
  induction fs with
  | nil => rfl
  | cons f fs ih => rw [List.map_cons, List.mapM_cons, ih]; rfl

/-- C70: a file with a list of flow messages gives their rules in order, also if the list is nested in dicts as long as the keys do not start with OFP. -/
theorem C70_json {π : Type} (reply : Js → Except PyErr (List RFlow)) (other : Js → Except PyErr RFlow) (ks : List (String × List (String × Js))) (fs : List RFlow)
    (h : ∀ k ∈ ks, k.1.startsWith "OFP" = false) :
    rulesetFromJson (π := π) reply other (within ks (.list (fs.map .flow))) = fs.mapM ruleFromRyu := by
  unfold rulesetFromJson
  rw [skip_within ks _ h]
  simp only [bind, Except.bind]
  rw [mapM_flow other fs]

example : rulesetFromJson (π := Nat) (fun _ => .error .keyError) (fun _ => .error .keyError)
    (within [("flows", [("other", .scalar)]), ("body", [])] (.list ([⟨5, some 42, 2, none, none⟩].map .flow))) =
      [(⟨5, some 42, 2, none, none⟩ : RFlow)].mapM ruleFromRyu :=
  C70_json _ _ [("flows", [("other", .scalar)]), ("body", [])] _ (by decide +kernel)

/-- C70: a file with neither a list nor a message in it, however deep, is refused; so is one with an empty dict. -/
theorem C70_not_flows {π : Type} (reply : Js → Except PyErr (List RFlow)) (other : Js → Except PyErr RFlow) (ks : List (String × List (String × Js)))
    (h : ∀ k ∈ ks, k.1.startsWith "OFP" = false) : rulesetFromJson (π := π) reply other (within ks .scalar) = .error .assertion ∧
      rulesetFromJson (π := π) reply other (within ks (.dict [])) = .error .runtimeError := by
  have hs : ∀ j, skipInto (within ks j) = skipInto j := by
    intro j
    induction ks with
    | nil => rfl
    | cons k ks ih =>
      rw [show within (k :: ks) j = .dict ((k.1, within ks j) :: k.2) from rfl, skipInto, h k List.mem_cons_self]
      exact ih fun x hx => h x (List.mem_cons_of_mem _ hx)
  constructor
  · unfold rulesetFromJson
    rw [hs, show skipInto .scalar = .ok .scalar from by simp [skipInto]]
    rfl
  · unfold rulesetFromJson
    rw [hs, show skipInto (.dict []) = .error .runtimeError from by simp [skipInto]]
    rfl

example : rulesetFromJson (π := Nat) (fun _ => .ok []) (fun _ => .error .keyError) (within [("flows", []), ("n", [])] .scalar) = .error .assertion :=
  (C70_not_flows _ _ [("flows", []), ("n", [])] (by decide +kernel)).1

/-- C70: a ruleset written to a file and read back: the same rules in the same order.  Partial: see `C70_round_trip_partial`. -/
theorem C70_file_partial {π : Type} (heap : Nat → Option GroupObj) (fuel n : Nat) (reply : Js → Except PyErr (List RFlow)) (other : Js → Except PyErr RFlow)
    (rs : List (Rule π)) (h : ∀ r ∈ rs, RyuRule heap r) :
    ∃ fs rs', rulesetToRyu heap fuel rs n = .ok (fs, n) ∧ rulesetFromJson (π := π) reply other (.list (fs.map .flow)) = .ok rs' ∧
      List.Forall₂ (fun r' r => r'.eq r = true) rs' rs := by
  have key : ∃ fs rs', rulesetToRyu heap fuel rs n = .ok (fs, n) ∧ fs.mapM (ruleFromRyu (π := π)) = .ok rs' ∧
      List.Forall₂ (fun r' r => r'.eq r = true) rs' rs := by
    induction rs with
    | nil => exact ⟨[], [], rfl, rfl, .nil⟩
    | cons r rs ih =>
      obtain ⟨fs, rs', h1, h2, h3⟩ := ih fun x hx => h x (List.mem_cons_of_mem _ hx)
      obtain ⟨f, r', e1, e2, e3⟩ := C70_round_trip_partial heap fuel n r (h r List.mem_cons_self)
      refine ⟨f :: fs, r' :: rs', ?_, ?_, .cons e3 h3⟩
      · rw [rulesetToRyu, e1]
        simp only [bind, Except.bind, h1]
        rfl
      · rw [List.mapM_cons, e2, h2]; rfl
  obtain ⟨fs, rs', h1, h2, h3⟩ := key
  refine ⟨fs, rs', h1, ?_, h3⟩
  have := C70_json (π := π) reply other [] fs (by simp)
  exact this.trans h2

example : ∃ fs rs', rulesetToRyu (fun _ => none) 0 [ryuSample, ryuSample] 0 = .ok (fs, 0) ∧
    rulesetFromJson (π := Nat) (fun _ => .error .keyError) (fun _ => .error .keyError) (.list (fs.map .flow)) = .ok rs' ∧
      List.Forall₂ (fun r' r => r'.eq r = true) rs' [ryuSample, ryuSample] :=
  C70_file_partial _ 0 0 _ _ _ (by simpa using ryuSample_ok)

/-! ### Meaning -/

/-- C71, reading: the rule read from a flow message accepts the packets that the message accepts, and its instructions do what those of the message do.

Partial: for fields whose bytes look like the text of an address it is false (`C71_port`), and messages with a meter are not read (`C71_meter`). -/
theorem C71_read_partial {π : Type} (f : RFlow) (q : Prog) (hf : ∀ x ∈ f.mat.getD [], x.field < 40)
    (hplain : ∀ x ∈ f.mat.getD [], ¬ LooksText x.value ∧ ∀ b, x.mask = some b → ¬ LooksText b) (hn : ((f.mat.getD []).map (·.field)).Nodup)
    (hi : ∀ x ∈ f.inst.getD [], x.Fine) (hq : ProgOf (f.inst.getD []) q) :
    ∃ r : Rule π, ruleFromRyu f = .ok r ∧ r.priority = f.priority ∧ r.cookie = f.cookie ∧ r.table = f.table ∧ r.mat.Inv ∧
      (∀ p, r.mat.accepts p ↔ f.accepts p) ∧ (∀ st, SameState (r.inst.run st) (q.run st)) ∧ r.inst.goto = q.goto ∧ r.inst.meter = none := by
  have hmat : matchFromRyu f.mat = .ok (((f.mat.getD []).map ROxm.triple).foldl (fun m x => m.append x.1 x.2.1 x.2.2) .empty) := by
    cases e : f.mat with
    | none => rfl
    | some l =>
      rw [e] at hplain
      exact oxms_plain .empty hplain
  obtain ⟨i, ei, ht⟩ := tracks_all (f.inst.getD []) [] .empty tracks_nil hi
  rw [List.nil_append] at ht
  have hinst : instFromRyu f.inst = .ok i := by
    cases e : f.inst with
    | none => rw [e] at ei; exact ei
    | some l => rw [e] at ei; exact ei
  obtain ⟨h1, h2⟩ := tracks_run ht hq
  refine ⟨⟨f.priority, f.cookie, f.table, ((f.mat.getD []).map ROxm.triple).foldl (fun m x => m.append x.1 x.2.1 x.2.2) .empty, i, []⟩, ?_, rfl, rfl, rfl,
    inv_foldl _ _ inv_empty, fun p => ?_, h1, h2, ht.meter⟩
  · unfold ruleFromRyu
    rw [hmat, hinst]
    rfl
  · rw [accepts_doc]
    · simp only [List.forall_mem_map]
      rfl
    · rw [List.map_map]
      exact hn
    · intro x hx
      obtain ⟨o, ho, rfl⟩ := List.mem_map.1 hx
      exact fieldBits_eq (Nat.lt_of_lt_of_le (hf o ho) (by omega))

/-- A message: TCP_DST 80 and IPV4_SRC 10.0.0.0/8; goto table 4, write metadata 7/15, apply POP_VLAN, SET_FIELD ETH_DST 01:80:c2:00:00:0e (as text), OUTPUT 3, write
GROUP 7, clear. -/
def flowSample : RFlow := ⟨5, some 42, 2, some [⟨11, ['\n', '\x00', '\x00', '\x00'], some ['\xff', '\x00', '\x00', '\x00']⟩, ⟨14, ['\x00', 'P'], none⟩],
  some [.goto 4, .wmeta 7 15, .actions 4 [.plain 18 0, .setField 3 (.text "01:80:c2:00:00:0e".toList), .plain 0 3], .actions 3 [.plain 22 7], .actions 5 []]⟩

/-- What it does. -/
def progSample : Prog := ⟨[.popVlan, .setField 3 0x0180c200000e, .output 3], true, [.group 7], some (7, 15), some 4⟩

theorem flowSample_inst : (∀ x ∈ flowSample.inst.getD [], x.Fine) ∧ ProgOf (flowSample.inst.getD []) progSample := by
  have h1 : ActMeans (.plain 18 0) .popVlan := .plain (f := fun _ => .popVlan) 0 (by simp [wireActions])
  have h2 : ActMeans (.setField 3 (.text "01:80:c2:00:00:0e".toList)) (.setField 3 0x0180c200000e) := .text textMac (by decide)
  have h3 : ActMeans (.plain 0 3) (.output 3) := .plain (f := .output) 3 (by simp [wireActions])
  have h4 : ActMeans (.plain 22 7) (.group 7) := .plain (f := .group) 7 (by simp [wireActions])
  refine ⟨?_, ⟨.cons h1 (.cons h2 (.cons h3 .nil)), .cons h4 .nil, rfl, rfl, rfl⟩⟩
  intro x hx
  simp only [flowSample, Option.getD_some, List.mem_cons, List.not_mem_nil, or_false] at hx
  rcases hx with rfl | rfl | rfl | rfl | rfl
  · trivial
  · trivial
  · intro a ha
    simp only [List.mem_cons, List.not_mem_nil, or_false] at ha
    rcases ha with rfl | rfl | rfl
    · exact ⟨_, h1, rfl⟩
    · exact ⟨_, h2, by decide⟩
    · exact ⟨_, h3, rfl⟩
  · intro a ha
    simp only [List.mem_cons, List.not_mem_nil, or_false] at ha
    subst ha
    exact ⟨_, h4, rfl⟩
  · intro a ha
    cases ha

example : ∃ r : Rule Nat, ruleFromRyu flowSample = .ok r ∧ r.priority = 5 ∧ r.cookie = some 42 ∧ r.table = 2 ∧ r.mat.Inv ∧
    (∀ p, r.mat.accepts p ↔ flowSample.accepts p) ∧ (∀ st, SameState (r.inst.run st) (progSample.run st)) ∧ r.inst.goto = progSample.goto ∧ r.inst.meter = none :=
  C71_read_partial flowSample progSample (by decide) (by
    intro x hx
    simp only [flowSample, Option.getD_some, List.mem_cons, List.not_mem_nil, or_false] at hx
    rcases hx with rfl | rfl
    · refine ⟨by decide, fun b hb => ?_⟩
      cases hb
      decide
    · exact ⟨by decide, fun b hb => by cases hb⟩) (by decide) flowSample_inst.1 flowSample_inst.2

/-- Specification: a rule that can be sent: a match on OpenFlow fields in range, actions on OpenFlow fields, groups given by numbers, no metadata and no meter. -/
structure SendRule {π : Type} (heap : Nat → Option GroupObj) (r : Rule π) : Prop where
  fields : ∀ x ∈ r.mat.items, OxmOK x
  apply : ∃ s, AllKnown s ∧ NoObjects heap s ∧ ActionList.ofList s = .ok r.inst.apply
  write : ∃ w, AllKnown w ∧ NoObjects heap w ∧ actionSetOfList w = .ok r.inst.write
  wmeta : r.inst.wmeta = none
  meter : r.inst.meter = none

theorem oxmFor_matches {x : Nat × Nat × Option Nat} {o : ROxm} (h : OxmFor x o) (p : Packet) :
    MatchesField p (o.field, beNum o.value, o.mask.map beNum) ↔ MatchesField p x := by
  rw [h.field, h.value, h.mask]
  unfold MatchesField sentValue
  cases e : x.2.2 with
  | none => rfl
  | some m =>
    refine forall_congr' fun i => imp_congr_right fun _ => ?_
    constructor
    · intro h1 h2
      have := h1 h2
      simpa [Nat.testBit_and, h2 m rfl] using this
    · intro h1 h2
      have := h1 h2
      simpa [Nat.testBit_and, h2 m rfl] using this

/-- C71, writing: the flow message made from a rule has its priority, cookie and table, accepts the same packets and does the same.

Partial: rules with metadata or meters are refused (`C70_not_written`); for `Group` objects see C72. -/
theorem C71_written_partial {π : Type} (heap : Nat → Option GroupObj) (fuel n : Nat) (r : Rule π) (h : SendRule heap r) :
    ∃ f q, ruleToRyu heap fuel r n = .ok (f, [], n) ∧ f.priority = r.priority ∧ f.cookie = r.cookie ∧ f.table = r.table ∧
      (∀ p, f.accepts p ↔ r.mat.accepts p) ∧ ProgOf (f.inst.getD []) q ∧ (∀ st, q.run st = r.inst.run st) ∧ q.goto = r.inst.goto := by
  obtain ⟨ys, l, e1, hf, hp⟩ := matchToRyu_ok h.fields
  obtain ⟨hi, ka, kw⟩ := instOK_of h.wmeta h.meter h.apply h.write
  obtain ⟨il, e2, hprog, hfine⟩ := instToRyu_ok (vlanOf r.mat) fuel n hi
  refine ⟨⟨r.priority, r.cookie, r.table, some l, some il⟩, ⟨r.inst.apply.iter, r.inst.clear, r.inst.write.iter, none, r.inst.goto⟩, ?_, rfl, rfl, rfl, fun p => ?_, hprog,
    fun st => ?_, rfl⟩
  · unfold ruleToRyu
    rw [e1]
    simp only [bind, Except.bind, e2]
    rfl
  · have : ∀ {items : List (Nat × Nat × Option Nat)} {ys : List ROxm}, List.Forall₂ OxmFor items ys →
        ((∀ o ∈ ys, MatchesField p.hdr (o.field, beNum o.value, o.mask.map beNum)) ↔ ∀ x ∈ items, MatchesField p.hdr x) := by
      intro items ys h
      induction h with
      | nil => simp
      | cons hxo _ ih => simp only [List.forall_mem_cons, ih, oxmFor_matches hxo]
    have h2 := this hf
    unfold RFlow.accepts Match.accepts MatchesAll
    simp only [Option.getD_some]
    rw [← h2]
    exact ⟨fun H o ho => H o (hp.mem_iff.2 ho), fun H o ho => H o (hp.mem_iff.1 ho)⟩
  · unfold Prog.run Inst.run Inst.forward
    rw [h.wmeta]
    rfl

/-- The sample with a value that looks like an address: still sent as it is. -/
example : ∃ f q, ruleToRyu (fun _ => none) 1 { ryuSample with mat := Match.empty.append 14 14906 none } 3 = .ok (f, [], 3) ∧ f.priority = 5 ∧ f.cookie = some 42 ∧
    f.table = 2 ∧ (∀ p, f.accepts p ↔ (Match.empty.append 14 14906 none).accepts p) ∧ ProgOf (f.inst.getD []) q ∧ (∀ st, q.run st = ryuSample.inst.run st) ∧
    q.goto = ryuSample.inst.goto :=
  C71_written_partial _ 1 3 { ryuSample with mat := Match.empty.append 14 14906 none } ⟨by
    intro x hx
    have : x = (14, 14906, none) := by
      have e : (Match.empty.append 14 14906 none).items = [(14, 14906, none)] := by decide +kernel
      rw [show (Match.empty.append 14 14906 none).items = _ from e] at hx
      simpa using hx
    subst this
    exact ⟨by decide, inRange_of (w := 16) (by decide) (by decide), fun m hm => by cases hm⟩, ryuSample_ok.apply, ryuSample_ok.write, rfl, rfl⟩

/-! ### Messages that are read wrongly, or not -/

/-- A message that matches TCP port 14906 is read as a rule that matches TCP port 0: it does not accept a packet that the message accepts. -/
theorem C71_port : ∃ (f : RFlow) (r : Rule Nat) (p : Pkt), ruleFromRyu f = .ok r ∧ f.accepts p ∧ ¬ r.mat.accepts p := by
  refine ⟨⟨1, none, 0, some [⟨14, [':', ':'], none⟩], none⟩, onlyField 14 0, ⟨fun _ _ => 14906, fun _ => 0, 0, fun _ => 0, 0, 0⟩, by decide +kernel, ?_, ?_⟩
  · intro x hx i hi hm
    simp only [Option.getD_some, List.mem_cons, List.not_mem_nil, or_false] at hx
    subst hx
    rw [hdr_bit _ (by decide) hi]
    rfl
  · intro h
    have := h (14, 0, none) (by decide) 1 (by decide) (by intro m hm; cases hm)
    rw [hdr_bit _ (by decide) (by decide)] at this
    revert this
    decide

/-- A message with a meter is not read. -/
theorem C71_meter {π : Type} (f : RFlow) (m : Nat) (h : f.mat = none) (hi : f.inst = some [.meter m]) :
    ruleFromRyu (π := π) f = .error .assertion := by
  unfold ruleFromRyu
  rw [h, hi]
  rfl

/-- A step that always fails makes the whole loop fail. -/
theorem foldlM_fails {α β : Type} (g : β → α → Except PyErr β) {x : α} (hx : ∀ b, ∃ e, g b x = .error e) {l : List α} (h : x ∈ l) (b : β) :
    ∃ e, l.foldlM g b = .error e := by
  induction l generalizing b with
  | nil => cases h
  | cons y l ih =>
    rw [List.foldlM_cons]
    cases e : g b y with
    | error e' => exact ⟨e', rfl⟩
    | ok b' =>
      rcases List.mem_cons.1 h with rfl | h
      · obtain ⟨e', he⟩ := hx b
        rw [he] at e; cases e
      · exact ih h b'

/-- C71: a message with an action of a type that OpenFlow 1.3 does not have (its types are 0, 11, 12 and 15 to 27; 25 sets a field) is refused, whether the action
is to be applied or written. -/
theorem C71_unknown_action {π : Type} (f : RFlow) {il : List RInst} (hi : f.inst = some il) {type : Nat} {l : List RAct} (hl : .actions type l ∈ il)
    (ht : type = itWrite ∨ type = itApply) {t arg : Nat} (ha : .plain t arg ∈ l) (hu : t ∉ [0, 11, 12, 15, 16, 17, 18, 19, 20, 21, 22, 23, 24, 26, 27]) :
    ∃ e, ruleFromRyu (π := π) f = .error e := by
  have h1 : actionFromRyu (.plain t arg) = .error .valueError := by
    simp only [List.mem_cons, List.not_mem_nil, or_false, not_or] at hu
    obtain ⟨u0, u1, u2, u3, u4, u5, u6, u7, u8, u9, u10, u11, u12, u13, u14⟩ := hu
    simp [actionFromRyu, atOutput, atCopyTtlOut, atCopyTtlIn, atSetMplsTtl, atDecMplsTtl, atPushVlan, atPopVlan, atPushMpls, atPopMpls, atSetQueue, atGroup, atSetNwTtl,
      atDecNwTtl, atPushPbb, atPopPbb, u0, u1, u2, u3, u4, u5, u6, u7, u8, u9, u10, u11, u12, u13, u14]
  have h2 : ∀ app, ∃ e, actionsFromRyu app l = .error e := fun app =>
    foldlM_fails _ (fun b => ⟨.valueError, by rw [h1]; rfl⟩) ha _
  have h3 : ∀ b, ∃ e, instStep b (.actions type l) = .error e := by
    intro b
    unfold instStep
    rcases ht with rfl | rfl
    · obtain ⟨e, he⟩ := h2 actionSetAppend
      exact ⟨e, by simp only [if_true, he]; rfl⟩
    · obtain ⟨e, he⟩ := h2 ActionList.append
      exact ⟨e, by simp only [itApply, itWrite, if_true, he]; rfl⟩
  obtain ⟨e, he⟩ := foldlM_fails _ h3 hl .empty
  unfold ruleFromRyu instFromRyu
  rw [hi]
  simp only [he]
  cases matchFromRyu f.mat with
  | error e' => exact ⟨e', rfl⟩
  | ok m => exact ⟨e, rfl⟩

example : ∃ e, ruleFromRyu (π := Nat) ⟨5, none, 0, none, some [.goto 3, .actions itApply [.plain 0 1, .plain 13 2]]⟩ = .error e :=
  C71_unknown_action _ rfl (type := itApply) (l := [.plain 0 1, .plain 13 2]) (by simp) (.inr rfl) (t := 13) (arg := 2) (by simp) (by decide)

example : ruleFromRyu (π := Nat) ⟨5, none, 0, none, some [.meter 1]⟩ = .error .assertion := C71_meter _ 1 rfl rfl

end OFE.Ryu
