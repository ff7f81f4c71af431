import Verif.Rule.Canonical

/-! # C79: equal canonical instructions are interchangeable -/

namespace OFE

/-- Instructions whose apply-actions reach every port at most once (their groups followed) and meet the conditions of C24, and whose write-actions have no
group. -/
structure CanonOK (heap : Nat → Option GroupVal) (k : Nat) (i : Inst) : Prop where
  apply : ∃ s, ActionList.ofList s = .ok i.apply ∧ ModsOK (reached heap k s) ∧ ((reached heap k s).filterMap Action.portOf).Nodup
  write : ∃ s, (∀ a ∈ s, a.known = true) ∧ actionSetOfList s = .ok i.write ∧ ∀ g, Action.group g ∉ s

/-- Specification: both do the same to every packet and to every action set. -/
structure SameInst (heap : Nat → Option GroupVal) (pick : Nat → Nat) (k : Nat) (i j : Inst) : Prop where
  goto : i.goto = j.goto
  meter : i.meter = j.meter
  wmeta : i.wmeta = j.wmeta
  clear : i.clear = j.clear
  write : i.write.iter = j.write.iter
  pkt : ∀ p, (exec i.apply.iter p).1 = (exec j.apply.iter p).1
  sent : ∀ p, (sentG heap pick k i.apply.iter p).Perm (sentG heap pick k j.apply.iter p)

/-- Specification: a switch runs instructions one after another, then the action set; the copies that leave it, groups followed. -/
def pipelineSent (heap : Nat → Option GroupVal) (pick : Nat → Nat) (k : Nat) (is : List Inst) (s : St) : List (Dest × Pkt) :=
  (is.foldl (fun s i => i.run s) s).finish.flatMap (deliver heap pick k)

theorem CanonOK.instOK {heap : Nat → Option GroupVal} {k : Nat} {i : Inst} (h : CanonOK heap k i) : InstOK i := by
  obtain ⟨⟨s, e, hm, -⟩, t, kt, et, -⟩ := h
  exact ⟨⟨s, known_of_reached hm, e⟩, t, kt, et⟩

theorem sent_of_same (heap : Nat → Option GroupVal) (pick : Nat → Nat) (k : Nat) {s t : List Action} (h : SameEffect s t) (p : Pkt) :
    (sentG heap pick k s p).Perm (sentG heap pick k t p) := (h p).2.flatMap_right _

theorem sentG_append (heap : Nat → Option GroupVal) (pick : Nat → Nat) (k : Nat) (s t : List Action) (p : Pkt) :
    sentG heap pick k (s ++ t) p = sentG heap pick k s p ++ sentG heap pick k t (exec s p).1 := by
  unfold sentG
  rw [exec_append]
  simp

/-- **C79** (partial) `canonical` succeeds, and if it is equal for two instructions they jump to the same table, have the same meter and metadata, change every
packet in the same way, send the same packets to the same ports, and leave the same action set behind.  Missing: groups in the write-actions (false,
`C79_wrong_group`), SELECT groups and ports reached twice (false, C25), the lists for which C24 fails. -/
theorem C79_same_partial (heap : Nat → Option GroupVal) (pick : Nat → Nat) (k : Nat) (ht : ∀ g G, heap g = some G → G.RunsAll) (i j : Inst)
    (hi : CanonOK heap k i) (hj : CanonOK heap k j) :
    ∃ a b, i.canonical heap k = .ok a ∧ j.canonical heap k = .ok b ∧ (a.eq b = true → SameInst heap pick k i j) := by
  obtain ⟨⟨s1, e1, m1, n1⟩, u1, ku1, w1, g1⟩ := hi
  obtain ⟨⟨s2, e2, m2, n2⟩, u2, ku2, w2, g2⟩ := hj
  obtain ⟨i1, a1, -⟩ := perOutputG_spec heap pick k ht s1 m1 n1
  obtain ⟨i2, a2, -⟩ := perOutputG_spec heap pick k ht s2 m2 n2
  have f1 := ofList_ok e1
  have f2 := ofList_ok e2
  rw [← f1] at a1
  rw [← f2] at a2
  have v1 := setInv_of ku1 w1
  have v2 := setInv_of ku2 w2
  obtain ⟨j1, -, b1, -⟩ := view_set heap k v1 ku1 g1
  obtain ⟨j2, -, b2, -⟩ := view_set heap k v2 ku2 g2
  refine ⟨⟨i.clear, i.goto, i.meter, i.wmeta, i1, j1⟩, ⟨j.clear, j.goto, j.meter, j.wmeta, i2, j2⟩, ?_, ?_, fun h => ?_⟩
  · unfold Inst.canonical; rw [a1, b1]; rfl
  · unfold Inst.canonical; rw [a2, b2]; rfl
  · simp only [Canon.eq, Bool.and_eq_true, beq_iff_eq] at h
    obtain ⟨⟨⟨⟨⟨c1, c2⟩, c3⟩, c4⟩, c5⟩, c6⟩ := h
    have hs := (C25_groups_partial heap pick k ht s1 s2 _ _ e1 e2 m1 m2 n1 n2).2.1 i1 i2 a1 a2 c5
    have x1 := C56_canonical_effect s1 _ e1
    have x2 := C56_canonical_effect s2 _ e2
    refine ⟨c2, c3, c4, c1, view_inj heap k v1 v2 ku1 ku2 g1 g2 b1 b2 c6, fun p => ?_, fun p => ?_⟩
    · rw [(x1 p).1, (hs p).1, (x2 p).1]
    · exact (sent_of_same heap pick k x1 p).trans ((hs p).2.trans (sent_of_same heap pick k x2 p).symm)

/-- **C79** Instructions that do the same are interchangeable in every pipeline: whatever instructions come before and after. -/
theorem C79_context (heap : Nat → Option GroupVal) (pick : Nat → Nat) (k : Nat) (i j : Inst) (h : SameInst heap pick k i j) (before after : List Inst) (s : St) :
    (pipelineSent heap pick k (before ++ i :: after) s).Perm (pipelineSent heap pick k (before ++ j :: after) s) := by
  unfold pipelineSent
  rw [List.foldl_append, List.foldl_append, List.foldl_cons, List.foldl_cons]
  generalize before.foldl (fun s i => i.run s) s = s
  have key : ∀ (l : List Inst) (x y : St), x.pkt = y.pkt → x.writes = y.writes →
      (x.sent.flatMap (deliver heap pick k)).Perm (y.sent.flatMap (deliver heap pick k)) →
      ((l.foldl (fun s i => i.run s) x).finish.flatMap (deliver heap pick k)).Perm ((l.foldl (fun s i => i.run s) y).finish.flatMap (deliver heap pick k)) := by
    intro l
    induction l with
    | nil =>
      intro x y h1 h2 h3
      simp only [List.foldl_nil, St.finish, List.flatMap_append, h1, h2]
      exact h3.append_right _
    | cons c l ih =>
      intro x y h1 h2 h3
      refine ih _ _ ?_ ?_ ?_
      · simp only [Inst.run, h1]
      · simp only [Inst.run, h2]
      · simp only [Inst.run, List.flatMap_append, h1]
        exact h3.append_right _
  refine key after _ _ ?_ ?_ ?_
  · simp only [Inst.run, Inst.forward, h.pkt, h.wmeta]
  · simp only [Inst.run, h.clear, h.write]
  · simp only [Inst.run, List.flatMap_append]
    exact (h.sent s.pkt).append_left _

theorem merge_fields {a b r : Inst} (h : a.merge b = .ok r) : r.goto = b.goto ∧ r.clear = (a.clear || b.clear) ∧ r.wmeta = none ∧ r.meter = none := by
  have fin : ∀ w : ActionList, (do let apply ← a.apply.add b.apply; return (⟨b.goto, apply, w, none, a.clear || b.clear, none⟩ : Inst)) = Except.ok r →
      r.goto = b.goto ∧ r.clear = (a.clear || b.clear) ∧ r.wmeta = none ∧ r.meter = none := by
    intro w h
    cases ha : a.apply.add b.apply with
    | error e => rw [ha] at h; cases h
    | ok x => rw [ha] at h; cases h; exact ⟨rfl, rfl, rfl, rfl⟩
  unfold Inst.merge at h
  by_cases hc : b.clear = true
  · simp only [if_pos hc] at h
    exact fin _ h
  · simp only [if_neg hc] at h
    cases hw : actionSetAdd a.write b.write with
    | error e => rw [hw] at h; cases h
    | ok w => rw [hw] at h; exact fin _ h

theorem write_det {a b : Inst} (ha : InstOK a) (hb : InstOK b) (h : ∀ x, InSet a.write.iter x ↔ InSet b.write.iter x) : a.write.iter = b.write.iter := by
  obtain ⟨-, s, ks, es⟩ := ha
  obtain ⟨-, t, kt, et⟩ := hb
  have v1 := setInv_of ks es
  have v2 := setInv_of kt et
  exact setInv_det v1 v2 ks fun x => (setInv_inSet v1 x).symm.trans ((h x).trans (setInv_inSet v2 x))

/-- **C79** Merging with the same instructions, before or after, succeeds for both and keeps them interchangeable. -/
theorem C79_merge (heap : Nat → Option GroupVal) (pick : Nat → Nat) (k : Nat) (i j c : Inst) (hi : InstOK i) (hj : InstOK j) (hc : InstOK c)
    (h : SameInst heap pick k i j) :
    (∃ u v, i.merge c = .ok u ∧ j.merge c = .ok v ∧ SameInst heap pick k u v) ∧
    ∃ u v, c.merge i = .ok u ∧ c.merge j = .ok v ∧ SameInst heap pick k u v := by
  constructor
  · obtain ⟨u, e1, o1, -, s1, w1⟩ := merge_inst hi hc
    obtain ⟨v, e2, o2, -, s2, w2⟩ := merge_inst hj hc
    obtain ⟨a1, b1, c1, d1⟩ := merge_fields e1
    obtain ⟨a2, b2, c2, d2⟩ := merge_fields e2
    refine ⟨u, v, e1, e2, a1.trans a2.symm, d1.trans d2.symm, c1.trans c2.symm, by rw [b1, b2, h.clear], ?_, fun p => ?_, fun p => ?_⟩
    · refine write_det o1 o2 fun x => ?_
      have x1 := w1 [] x
      have x2 := w2 [] x
      simp only [ite_self, List.nil_append] at x1 x2
      rw [x1, x2, h.write]
    · rw [(s1 p).1, (s2 p).1, exec_append, exec_append]; simp only [h.pkt p]
    · refine (sent_of_same heap pick k s1 p).trans (List.Perm.trans ?_ (sent_of_same heap pick k s2 p).symm)
      rw [sentG_append, sentG_append, h.pkt p]
      exact (h.sent p).append_right _
  · obtain ⟨u, e1, o1, -, s1, w1⟩ := merge_inst hc hi
    obtain ⟨v, e2, o2, -, s2, w2⟩ := merge_inst hc hj
    obtain ⟨a1, b1, c1, d1⟩ := merge_fields e1
    obtain ⟨a2, b2, c2, d2⟩ := merge_fields e2
    refine ⟨u, v, e1, e2, by rw [a1, a2, h.goto], d1.trans d2.symm, c1.trans c2.symm, by rw [b1, b2, h.clear], ?_, fun p => ?_, fun p => ?_⟩
    · refine write_det o1 o2 fun x => ?_
      have x1 := w1 [] x
      have x2 := w2 [] x
      simp only [ite_self, List.nil_append] at x1 x2
      rw [x1, x2, h.write, h.clear]
    · rw [(s1 p).1, (s2 p).1, exec_append, exec_append]; simp only [h.pkt]
    · refine (sent_of_same heap pick k s1 p).trans (List.Perm.trans ?_ (sent_of_same heap pick k s2 p).symm)
      rw [sentG_append, sentG_append]
      exact (h.sent _).append_left _

/-- Apply: the nested groups of `exHeap`, write: a set. -/
def exI : Inst := ⟨some 3, mkList [.setField 6 7, .group 2, .output 3], mkList [.popVlan, .setField 3 1, .output 4], none, false, some 9⟩
/-- The same with the groups not nested, and redundant actions. -/
def exJ : Inst := ⟨some 3, mkList [.setField 6 4, .pushVlan 0x8100, .popVlan, .setField 6 7, .output 3, .group 3],
  mkList [.popVlan, .setField 3 1, .output 4], none, false, some 9⟩

example : CanonOK (exHeap .all) 2 exI := by
  refine ⟨⟨[.setField 6 7, .group 2, .output 3], by decide +kernel, ?_, by decide⟩, [.output 4, .setField 3 1, .popVlan], by decide, by decide +kernel, by simp⟩
  rw [show reached (exHeap .all) 2 [.setField 6 7, .group 2, .output 3] =
    [.setField 6 7, .setField 3 9, .setField 6 5, .output 1, .output 2, .output 3] by decide]
  exact ⟨by decide, by simp, by simp, by simp⟩
example : ((exI.canonical (exHeap .all) 2).toOption.bind fun a => (exJ.canonical (exHeap .all) 2).toOption.map (a.eq ·)) = some true := by decide +kernel
example : ¬ ((exI.canonical (exHeap .all) 2).toOption.bind fun a =>
    ({exJ with write := mkList [.popVlan, .output 4]}.canonical (exHeap .all) 2).toOption.map (a.eq ·)) = some true := by decide +kernel

/-- A group that only sends to port 1. -/
def oneHeap : Nat → Option GroupVal := fun g => if g = 1 then some ⟨.indirect, [[.output 1]]⟩ else none

/-- **C79** is false with a group in the write-actions.  Writing a GROUP that sends to port 1 and writing OUTPUT 1 have the same canonical form.  If a later table
writes OUTPUT 2, the first still sends to port 1 (a GROUP beats the OUTPUT), the second to port 2; the merged instructions are not equal either. -/
theorem C79_wrong_group : ∃ (i j c : Inst) (a b : Canon), InstOK i ∧ InstOK j ∧ InstOK c ∧ (∀ g G, oneHeap g = some G → G.RunsAll) ∧
    i.canonical oneHeap 1 = .ok a ∧ j.canonical oneHeap 1 = .ok b ∧ a.eq b = true ∧
    (∀ pick p, (pipelineSent oneHeap pick 1 [i, c] ⟨p, [], []⟩).map (·.1) = [.port 1] ∧ (pipelineSent oneHeap pick 1 [j, c] ⟨p, [], []⟩).map (·.1) = [.port 2]) ∧
    ∃ u v a b, i.merge c = .ok u ∧ j.merge c = .ok v ∧ u.canonical oneHeap 1 = .ok a ∧ v.canonical oneHeap 1 = .ok b ∧ a.eq b = false := by
  refine ⟨⟨some 1, .empty, mkList [.group 1], none, false, none⟩, ⟨some 1, .empty, mkList [.output 1], none, false, none⟩,
    ⟨none, .empty, mkList [.output 2], none, false, none⟩,
    ⟨false, some 1, none, none, [(.pass, [])], [(.port 1, [.output 1]), (.pass, [])]⟩, ⟨false, some 1, none, none, [(.pass, [])], [(.port 1, [.output 1]), (.pass, [])]⟩,
    ⟨⟨[], by simp, rfl⟩, [.group 1], by decide, by decide +kernel⟩, ⟨⟨[], by simp, rfl⟩, [.output 1], by decide, by decide +kernel⟩,
    ⟨⟨[], by simp, rfl⟩, [.output 2], by decide, by decide +kernel⟩, ?_, ?_, ?_, by decide +kernel, fun pick p => ⟨?_, ?_⟩, ?_⟩
  · intro g G h
    unfold oneHeap at h
    split at h
    · cases h; exact .inr rfl
    · cases h
  · rfl
  · rfl
  · have hf : finalSet [.group 1, .output 2] = [.group 1] := by decide +kernel
    have hi : (mkList [.group 1]).iter = [.group 1] := by decide +kernel
    have hi2 : (mkList [.output 2]).iter = [.output 2] := by decide +kernel
    have he : ActionList.empty.iter = [] := rfl
    simp [pipelineSent, St.finish, Inst.run, hi, hi2, he, hf, exec, emit, deliver, oneHeap, GroupVal.run]
  · have hf : finalSet [.output 1, .output 2] = [.output 2] := by decide +kernel
    have hi : (mkList [.output 1]).iter = [.output 1] := by decide +kernel
    have hi2 : (mkList [.output 2]).iter = [.output 2] := by decide +kernel
    have he : ActionList.empty.iter = [] := rfl
    simp [pipelineSent, St.finish, Inst.run, hi, hi2, he, hf, exec, emit, deliver]
  · exact ⟨⟨none, .empty, mkList [.group 1], none, false, none⟩, ⟨none, .empty, mkList [.output 2], none, false, none⟩,
      ⟨false, none, none, none, [(.pass, [])], [(.port 1, [.output 1]), (.pass, [])]⟩, ⟨false, none, none, none, [(.pass, [])], [(.port 2, [.output 2]), (.pass, [])]⟩,
      by decide +kernel, by decide +kernel, by rfl, by rfl, by decide +kernel⟩

end OFE
