import Verif.Rule.TunnelSteps

/-! # C32: the simulated egress of a rule with pushes and pops -/

namespace OFE

variable {π : Type}

/-- What the code can know about a header that is pushed upon: the packet has at most one header of that kind, and if it has one then
the rule matches its fields exactly. -/
def PushedKnown (r : Rule π) (p : Pkt) : Prop :=
  ∀ t, 0 < pushCount t r.inst.apply.iter → ∀ f ∈ t.fields, (∀ d, 1 ≤ d → p.fld f d = 0) ∧
    ((∃ v, r.mat.items.lookup f = some (v, none)) ∨ (r.mat.items.lookup f = none ∧ p.fld f 0 = 0))

theorem pushesOf_eq (t : Tun) {f : Nat} (hf : f ∈ t.fields) (l : List Action) : pushesOf f l = pushCount t l := by
  unfold pushesOf pushCount
  apply List.countP_congr
  intro a _
  cases a.pushes with
  | none => simp
  | some t' =>
    have : ∀ t t' : Tun, ∀ f ∈ t.fields, (f ∈ t'.fields ↔ t' = t) := by
      intro t t'; cases t <;> cases t' <;> decide
    simp [this t t' f hf]

theorem tun_of {f : Nat} (hf : f ∈ tunFields) : ∃ t : Tun, f ∈ t.fields := by
  have : ∀ f ∈ tunFields, f ∈ Tun.vlan.fields ∨ f ∈ Tun.mpls.fields ∨ f ∈ Tun.pbb.fields := by decide
  rcases this f hf with h | h | h <;> exact ⟨_, h⟩

/-- **C32** (partial: at most two pushes of a kind of header, at most one if it is also popped, and pushed-upon headers are known)
`get_goto_egress` succeeds, and it covers, including the inner headers, what becomes of every packet that the rule matches. -/
theorem C32_egress_covers_partial (r : Rule π) (hr : RuleOK r) (p : Pkt) (hm : r.mat.accepts p)
    (h2 : ∀ t, pushCount t r.inst.apply.iter ≤ 2)
    (h1 : ∀ t, popCount t r.inst.apply.iter = 0 ∨ pushCount t r.inst.apply.iter ≤ 1)
    (hk : PushedKnown r p) :
    ∃ m, gotoEgress r none = .ok m ∧ m.accepts (r.inst.forward p) := by
  obtain ⟨s, ks, es⟩ := hr.apply
  have hin : ∀ f ∈ tunFields, r.mat.items.lookup (in1 f) = none ∧ r.mat.items.lookup (in2 f) = none := by
    intro f hf
    obtain ⟨-, -, -, -, -, -, -, l0, l1, l1', l2, l2', -⟩ := tun_ids f hf
    have key : ∀ g, 40 ≤ g → r.mat.items.lookup g = none := by
      intro g hg
      cases hl : r.mat.items.lookup g with
      | none => rfl
      | some x => have := hr.keys _ (mem_of_lookup_eq_some hl); simp only at this; omega
    exact ⟨key _ l1, key _ l2⟩
  have hstart : SimInv p.fld (r.mat, Match.empty) (fun _ => 0) (fun f => ∃ t : Tun, f ∈ t.fields ∧ 0 < pushCount t r.inst.apply.iter) := by
    refine ⟨hr.inv, inv_empty, fun y hy => by have := hr.keys y hy; omega, by simp [Match.empty], (agrees_iff hr.inv).2 hm,
      ⟨fun f hf _ => (hin f hf).1, fun f hf _ => (hin f hf).2⟩, ⟨fun f hf _ => by simp [Match.empty], fun f hf _ => by simp [Match.empty]⟩, ?_⟩
    rintro f hf ⟨t, ht, hp⟩
    obtain ⟨hz, h0⟩ := hk t hp f ht
    exact ⟨h0, .inr ⟨(hin f hf).1, hz 1 (by omega)⟩, .inr ⟨(hin f hf).2, hz 2 (by omega)⟩, fun d hd => hz d (by omega)⟩
  obtain ⟨x, c, e, hs, -⟩ := simStep_all r.inst.apply.iter hstart (fun a ha => known_iter ks es a ha)
    (fun a ha t ht f hf => ⟨t, hf, List.countP_pos_iff.2 ⟨a, ha, by simp [ht]⟩⟩)
    (fun f hf => by
      obtain ⟨t, ht⟩ := tun_of hf
      rw [pushesOf_eq t ht]; have := h2 t; omega)
    (fun a ha t ht f hf => by
      rw [pushesOf_eq t hf]
      rcases h1 t with h | h
      · have : 0 < popCount t r.inst.apply.iter := List.countP_pos_iff.2 ⟨a, ha, by simp [ht]⟩
        omega
      · omega)
  have hcov := simMeta_covers hs.cov r.inst.wmeta
  have hinv : (simMeta r.inst.wmeta x).1.Inv := by
    unfold simMeta
    split
    · exact hs.inv1
    · simp only; split <;> exact inv_append hs.inv1 _ _ _
  refine ⟨(simMeta r.inst.wmeta x).1, ?_, (agrees_iff hinv).1 hcov⟩
  unfold gotoEgress simEgress
  simp only [bind, Except.bind, pure, Except.pure, e]

/-! ### Sample -/

/-- Matches VLAN 5 with PCP 0; pushes a VLAN header with VLAN 6, writes metadata. -/
def samplePush : Rule Unit where
  priority := 1
  cookie := none
  table := 0
  mat := (Match.empty.append 6 0x1005 none).append 7 0 none
  inst := ⟨some 1, ⟨[[.pushVlan 33024], [.setField 6 6]], [.pushVlan 33024, .setField 6 6]⟩, ActionList.empty, some (1, some 3), false, none⟩
  path := []

def samplePushPkt : Pkt := ⟨fun f d => if f = 6 ∧ d = 0 then 0x1005 else 0, fun _ => 0, 0, fun _ => 0, 64, 0⟩

/-- The sample meets the hypotheses of C32 … -/
example : RuleOK samplePush ∧ samplePush.mat.accepts samplePushPkt ∧ (∀ t, pushCount t samplePush.inst.apply.iter ≤ 2) ∧
    (∀ t, popCount t samplePush.inst.apply.iter = 0 ∨ pushCount t samplePush.inst.apply.iter ≤ 1) ∧ PushedKnown samplePush samplePushPkt := by
  refine ⟨⟨inv_append (inv_append inv_empty _ _ _) _ _ _, by decide +kernel, ⟨[.pushVlan 33024, .setField 6 6], by decide, by decide +kernel⟩,
    ⟨[], by decide, by decide +kernel⟩⟩, ?_, fun t => by cases t <;> decide +kernel, fun t => by cases t <;> decide +kernel, ?_⟩
  · intro x hx i hi _
    simp [samplePush, Match.append, Match.empty, dictSet] at hx
    rcases hx with rfl | rfl <;> rw [hdr_bit _ (by decide) hi]
    · have : normValue 6 0x1005 none = (0x1005, none) := by decide
      simp [shown, samplePushPkt, this]
    · have : normValue 7 0 none = (0, none) := by decide
      simp [shown, samplePushPkt, this]
  · intro t ht f hf
    cases t
    · have hf' : f = 6 ∨ f = 7 := by simpa [Tun.fields] using hf
      refine ⟨fun d hd => by simp [samplePushPkt]; omega, .inl ?_⟩
      rcases hf' with rfl | rfl
      · exact ⟨0x1005, by decide +kernel⟩
      · exact ⟨0, by decide +kernel⟩
    · exact absurd ht (by decide +kernel)
    · exact absurd ht (by decide +kernel)

/-- … and its egress knows both VLAN headers: VLAN_VID 6 outside, 5 inside (ids 40, 42 are VLAN_VID1, VLAN_PCP1). -/
example : (gotoEgress samplePush none).map (·.items) =
    .ok [(40, 0x1005, none), (6, 0x1006, none), (42, 0, none), (7, 0, none), (2, 1, some 3)] := by decide +kernel

/-! ### Violations -/

/-- Two pushes with a set-field in between and a pop: VLAN 5 is matched, VLAN 6 is pushed; a third header is pushed and popped. -/
def popAfterTwo : Rule Unit where
  priority := 1
  cookie := none
  table := 0
  mat := (Match.empty.append 6 0x1005 none).append 7 0 none
  inst := ⟨some 1, ⟨[[.pushVlan 33024], [.setField 6 6], [.pushVlan 33024], [.popVlan]], [.pushVlan 33024, .setField 6 6, .pushVlan 33024, .popVlan]⟩,
    ActionList.empty, none, false, none⟩
  path := []

/-- **C32** (table of the fields) The field that `innerId` takes for the copy of `f` at depth `d` is the one with that name (`VLAN_VID1` and so on) and the same width. -/
theorem C32_inner_names : ∀ f, f < 40 → ∀ d, d < 3 → ∀ g, innerId f d = some g →
    (allFields[g]?).map (·.1) = (allFields[f]?).map (fun x => x.1 ++ (["", "1", "2"][d]?).getD "") ∧ (allFields[g]?).map (·.2) = (allFields[f]?).map (·.2) := by
  have h : ∀ f, f < 40 → ∀ d, d < 3 → ((innerId f d).map fun g => decide ((allFields[g]?).map (·.1) = (allFields[f]?).map (fun x => x.1 ++ (["", "1", "2"][d]?).getD "") ∧ (allFields[g]?).map (·.2) = (allFields[f]?).map (·.2))) ≠ some false := by decide +kernel
  intro f hf d hd g hg
  have := h f hf d hd
  rw [hg] at this
  simpa using this

/-- VLAN_VID2 is the third VLAN id. -/
example : innerId 6 2 = some 41 ∧ allFields[41]? = some ("VLAN_VID2", 13) ∧ innerId 5 1 = none := by decide +kernel

/-- **C32 is violated** when a header is popped after two were pushed: `promote_match` moves the second inner header over the first, and
the egress claims VLAN 5 where the packet has VLAN 6.  All headers are known, so this is not a matter of unknown values. -/
theorem C32_pop_after_two_pushes : RuleOK popAfterTwo ∧ popAfterTwo.mat.accepts samplePushPkt ∧ PushedKnown popAfterTwo samplePushPkt ∧
    ∃ m, gotoEgress popAfterTwo none = .ok m ∧ ¬ m.accepts (popAfterTwo.inst.forward samplePushPkt) := by
  refine ⟨⟨inv_append (inv_append inv_empty _ _ _) _ _ _, by decide +kernel,
    ⟨[.pushVlan 33024, .setField 6 6, .pushVlan 33024, .popVlan], by decide, by decide +kernel⟩,
    ⟨[], by decide, by decide +kernel⟩⟩, ?_, ?_, ?_⟩
  · intro x hx i hi _
    simp [popAfterTwo, Match.append, Match.empty, dictSet] at hx
    rcases hx with rfl | rfl <;> rw [hdr_bit _ (by decide) hi]
    · have : normValue 6 0x1005 none = (0x1005, none) := by decide
      simp [shown, samplePushPkt, this]
    · have : normValue 7 0 none = (0, none) := by decide
      simp [shown, samplePushPkt, this]
  · intro t ht f hf
    cases t
    · have hf' : f = 6 ∨ f = 7 := by simpa [Tun.fields] using hf
      refine ⟨fun d hd => by simp [samplePushPkt]; omega, .inl ?_⟩
      rcases hf' with rfl | rfl
      · exact ⟨0x1005, by decide +kernel⟩
      · exact ⟨0, by decide +kernel⟩
    · exact absurd ht (by decide +kernel)
    · exact absurd ht (by decide +kernel)
  · have h : (gotoEgress popAfterTwo none).map (fun m => m.items.lookup 6) = .ok (some (0x1005, none)) := by decide +kernel
    cases e : gotoEgress popAfterTwo none with
    | error x => rw [e] at h; cases h
    | ok m =>
      rw [e] at h
      simp only [Except.map, Except.ok.injEq] at h
      refine ⟨m, rfl, fun hacc => ?_⟩
      have := hacc _ (mem_of_lookup_eq_some h) 0 (by decide) (by simp)
      rw [hdr_bit _ (by decide) (by decide)] at this
      revert this
      decide +kernel

/-- Pushes a VLAN header upon one it knows nothing about. -/
def pushUnknown : Rule Unit where
  priority := 1
  cookie := none
  table := 0
  mat := Match.empty
  inst := ⟨some 1, ⟨[[.pushVlan 33024]], [.pushVlan 33024]⟩, ActionList.empty, none, false, none⟩
  path := []

/-- **C32 is violated** by a push on an unknown header: the new header copies VLAN 5 from the old one, the egress claims VLAN 0. -/
theorem C32_push_unknown : RuleOK pushUnknown ∧ pushUnknown.mat.accepts samplePushPkt ∧
    ∃ m, gotoEgress pushUnknown none = .ok m ∧ ¬ m.accepts (pushUnknown.inst.forward samplePushPkt) := by
  refine ⟨⟨inv_empty, by decide +kernel, ⟨[.pushVlan 33024], by decide, by decide +kernel⟩, ⟨[], by decide, by decide +kernel⟩⟩,
    fun x hx => by simp [pushUnknown, Match.empty] at hx, ?_⟩
  have h : (gotoEgress pushUnknown none).map (fun m => m.items.lookup 6) = .ok (some (0x1000, none)) := by decide +kernel
  cases e : gotoEgress pushUnknown none with
  | error x => rw [e] at h; cases h
  | ok m =>
    rw [e] at h
    simp only [Except.map, Except.ok.injEq] at h
    refine ⟨m, rfl, fun hacc => ?_⟩
    have := hacc _ (mem_of_lookup_eq_some h) 0 (by decide) (by simp)
    rw [hdr_bit _ (by decide) (by decide)] at this
    revert this
    decide +kernel

/-- A third push of a known header is refused (`HEADER_DEPTH` is 2) … -/
example : (demote ((Match.empty.append 6 0x1005 none).append 41 0x1006 none) 6 1).map (·.items) = .error .overflow := by decide +kernel

/-- … and moving the field itself too deep dies of an unassigned variable instead of the intended message. -/
example : (demote (Match.empty.append 6 0x1005 none) 6 3).map (·.items) = .error .nameError := by decide +kernel

end OFE
