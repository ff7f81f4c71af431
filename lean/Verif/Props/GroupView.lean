import Verif.Actions.GroupLemmas

/-! # C25: the per-output view of actions with groups -/

namespace OFE

section
variable [Writes]

theorem reached_perm (heap : Nat → Option GroupVal) (k : Nat) {s t : List Action} (h : s.Perm t) : (reached heap k s).Perm (reached heap k t) := by
  rw [reached_eq, reached_eq]
  exact h.flatMap_right _

/-- The view of a list with groups that reaches every port at most once: what is sent and what is passed on. -/
theorem perOutputG_spec (heap : Nat → Option GroupVal) (pick : Nat → Nat) (k : Nat) (ht : ∀ g G, heap g = some G → G.RunsAll) (s : List Action)
    (h : ModsOK (reached heap k s)) (hn : ((reached heap k s).filterMap Action.portOf).Nodup) :
    ∃ items, (mkList s).perOutputPtG heap k = .ok items ∧ (items.map Prod.fst).Nodup ∧ OutKey.pass ∈ items.map Prod.fst ∧
      (∀ p, (emitted (dictDel .pass items) p).Perm (sentG heap pick k s p)) ∧ ∀ t, (OutKey.pass, t) ∈ items → ∀ p, (exec t p).1 = (exec s p).1 := by
  have hp := (mkList_iter_trace s).perm
  have hrp := reached_perm heap k hp
  have hi : ModsOK (reached heap k (mkList s).iter) := h.perm fun x hx => hrp.mem_iff.2 hx
  obtain ⟨o1, o2⟩ := outs_spec heap k (mkList s).iter
  have hni : ((outsG heap k (mkList s).iter).map Prod.fst).Nodup := by rw [o1]; exact (hrp.filterMap _).nodup_iff.1 hn
  obtain ⟨res, e, hv⟩ := perOutputIter_ok heap k _ hi hni
  have hkm : AllKnown (modsG (mkList s).iter) := fun a ha => hi.known a (mods_reached a ha).1
  have hv' := hv.pass (known_mk hkm)
  obtain ⟨items, ei, hk, he, hpass⟩ := itemsG_ok hi (ms := modsG (mkList s).iter) (fun a ha => mods_reached a ha) _ _ hv' o2 (by
    intro v hm
    have h1 := lookup_eq_some_of_mem hv'.keys hm
    rw [lookup_dictSet, if_pos rfl] at h1
    exact (Option.some.inj h1).symm)
  have hsame := C56_canonical_effect s _ (ofList_known (known_of_reached h))
  refine ⟨items, ?_, by rw [hk]; exact hv'.keys, ?_, fun p => ?_, fun t hm p => ?_⟩
  · unfold ActionList.perOutputPtG
    rw [e]; exact ei
  · rw [hk, mem_keys_dictSet]; exact .inl rfl
  · rw [he p, ← (deliver_outs heap pick ht k _ p).1]
    exact (hsame p).2.flatMap_right _
  · rw [(hpass t hm p).1, ← (deliver_outs heap pick ht k _ p).2]
    exact (hsame p).1

/-- **C25** (partial) The same with groups: if the groups are all of type ALL or INDIRECT and every port is reached at most once, also through nested
groups, then lists with the same view send the same packets to the same ports, and if the views with pass-through are equal the packet passed on is the same
as well.  Missing: ports reached twice (false, `C25_wrong_repeated_port`), SELECT and FF groups (false, `C25_wrong_select`), and the lists for which C24
fails. -/
theorem C25_groups_partial (heap : Nat → Option GroupVal) (pick : Nat → Nat) (k : Nat) (ht : ∀ g G, heap g = some G → G.RunsAll) (s t : List Action)
    (l m : ActionList) (hl : ActionList.ofList s = .ok l) (hm : ActionList.ofList t = .ok m) (h1 : ModsOK (reached heap k s)) (h2 : ModsOK (reached heap k t))
    (hn1 : ((reached heap k s).filterMap Action.portOf).Nodup) (hn2 : ((reached heap k t).filterMap Action.portOf).Nodup) :
    (l.equivEqualG heap k m = .ok true → ∀ p, (sentG heap pick k s p).Perm (sentG heap pick k t p)) ∧
    (∀ a b, l.perOutputPtG heap k = .ok a → m.perOutputPtG heap k = .ok b → sameItems a b = true →
      ∀ p, (exec s p).1 = (exec t p).1 ∧ (sentG heap pick k s p).Perm (sentG heap pick k t p)) ∧
    ∃ r, l.equivEqualG heap k m = .ok r := by
  have hl := ofList_ok hl
  have hm := ofList_ok hm
  subst hl hm
  obtain ⟨i1, a1, b1, c1, d1, e1⟩ := perOutputG_spec heap pick k ht s h1 hn1
  obtain ⟨i2, a2, b2, c2, d2, e2⟩ := perOutputG_spec heap pick k ht t h2 hn2
  have hv1 : (mkList s).perOutputG heap k = .ok (dictDel .pass i1) := by unfold ActionList.perOutputG; rw [a1]; rfl
  have hv2 : (mkList t).perOutputG heap k = .ok (dictDel .pass i2) := by unfold ActionList.perOutputG; rw [a2]; rfl
  have heq : (mkList s).equivEqualG heap k (mkList t) = .ok (sameItems (dictDel .pass i1) (dictDel .pass i2)) := by
    unfold ActionList.equivEqualG; rw [hv1, hv2]; rfl
  have hperm : (dictDel .pass i1).Perm (dictDel .pass i2) → ∀ p, (sentG heap pick k s p).Perm (sentG heap pick k t p) := fun hp p =>
    ((d1 p).symm.trans (hp.flatMap_right _)).trans (d2 p)
  refine ⟨fun h => ?_, fun a b ha hb h p => ?_, _, heq⟩
  · rw [heq] at h
    injection h with h
    exact hperm (sameItems_perm (List.Nodup.of_map _ (nodup_dictDel _ b1)) (List.Nodup.of_map _ (nodup_dictDel _ b2)) h)
  · rw [a1] at ha; injection ha with ha
    rw [a2] at hb; injection hb with hb
    subst ha hb
    have hp := sameItems_perm (List.Nodup.of_map _ b1) (List.Nodup.of_map _ b2) h
    obtain ⟨x, hx, ex⟩ := List.mem_map.1 c1
    obtain ⟨key, tup⟩ := x
    simp only at ex
    subst ex
    exact ⟨(e1 tup hx p).symm.trans (e2 tup (hp.mem_iff.1 hx) p), hperm (hp.filter _) p⟩

end

/-- Group 1 has two buckets, one that sets the VLAN; group 2 is an INDIRECT group with group 1 in it; group 3 does the same without nesting. -/
def exHeap (ty : GType) : Nat → Option GroupVal
  | 1 => some ⟨ty, [[.setField 6 5, .output 1], [.output 2]]⟩
  | 2 => some ⟨.indirect, [[.setField 3 9, .group 1]]⟩
  | 3 => some ⟨.all, [[.setField 3 9, .output 2], [.setField 3 9, .setField 6 5, .output 1]]⟩
  | _ => none

example : ∀ g G, exHeap .all g = some G → G.RunsAll := by
  intro g G h
  unfold exHeap at h
  split at h <;> cases h
  · exact .inl rfl
  · exact .inr rfl
  · exact .inl rfl
example : reached (exHeap .all) 2 [.setField 6 7, .group 2, .output 3] =
    [.setField 6 7, .setField 3 9, .setField 6 5, .output 1, .output 2, .output 3] := by decide
example : ModsOK (reached (exHeap .all) 2 [.setField 6 7, .group 2, .output 3]) := by
  rw [show reached (exHeap .all) 2 [.setField 6 7, .group 2, .output 3] =
    [.setField 6 7, .setField 3 9, .setField 6 5, .output 1, .output 2, .output 3] by decide]
  exact ⟨by decide, by simp, by simp, by simp⟩
example : (mkList [.setField 6 7, .group 2, .output 3]).equivEqualG (exHeap .all) 2
    (mkList [.setField 6 7, .output 3, .setField 3 9, .output 2, .setField 6 5, .output 1]) = .ok true := by decide +kernel

/-- A SELECT group (1) and an ALL group with the same buckets. -/
def selHeap (g : Nat) : Option GroupVal := some ⟨if g = 1 then .select else .all, [[.output 1], [.output 2]]⟩

/-- **C25** is false with SELECT (and FF) groups: the type of a group is not looked at, so a SELECT group over ports 1 and 2, which sends one copy, has the same
view as the same ALL group, and as OUTPUT 1, OUTPUT 2, whichever bucket the switch picks. -/
theorem C25_wrong_select : ∃ (heap : Nat → Option GroupVal) (s t u : List Action), ModsOK (reached heap 1 s) ∧ ModsOK (reached heap 1 t) ∧ ModsOK (reached heap 1 u) ∧
    (mkList s).equivEqualG heap 1 (mkList t) = .ok true ∧ (mkList s).equivEqualG heap 1 (mkList u) = .ok true ∧
    ∀ pick p, (sentG heap pick 1 s p).length ≤ 1 ∧ (sentG heap pick 1 t p).length = 2 ∧ (sentG heap pick 1 u p).length = 2 := by
  have hm : ModsOK [.output 1, .output 2] := ⟨by decide, by simp, by simp, by simp⟩
  refine ⟨selHeap, [.group 1], [.group 2], [.output 1, .output 2], hm, hm, hm, by decide +kernel, by decide +kernel, fun pick p => ⟨?_, ?_, ?_⟩⟩
  · have : ∀ i : Nat, ([[Action.output 1], [Action.output 2]][i]?).toList = [] ∨
        ∃ n, ([[Action.output 1], [Action.output 2]][i]?).toList = [[Action.output n]] := by
      intro i
      match i with
      | 0 => exact .inr ⟨1, rfl⟩
      | 1 => exact .inr ⟨2, rfl⟩
      | i + 2 => exact .inl rfl
    rcases this (pick 1) with h | ⟨n, h⟩ <;> simp [sentG, h, exec, emit, deliver, GroupVal.run, selHeap]
  · simp [sentG, exec, emit, deliver, GroupVal.run, selHeap]
  · simp [sentG, exec, emit, deliver]

theorem loopG_bad {grp : Nat → Except PyErr (List (OutKey × ActionList))} {g : Nat} (hg : ∀ v, grp g ≠ .ok v) :
    ∀ (xs : List Action) (cur : ActionList) (res : List (OutKey × ActionList)), .group g ∈ xs → ∀ v, perOutputLoopG grp xs cur res ≠ .ok v := by
  intro xs
  induction xs with
  | nil => intro _ _ h; cases h
  | cons a xs ih =>
    intro cur res hm v e
    by_cases ha : a = .group g
    · subst ha
      simp only [perOutputLoopG] at e
      cases eg : grp g with
      | ok r => exact hg r eg
      | error y => rw [eg] at e; cases e
    · have hm' : .group g ∈ xs := (List.mem_cons.1 hm).resolve_left fun h => ha h.symm
      have key : ∀ {β : Type} (x : Except PyErr β) (f : β → Except PyErr (List (OutKey × ActionList) × ActionList)),
          (do let y ← x; f y) = .ok v → ∃ y, f y = .ok v := by
        intro β x f h
        cases x with
        | error y => cases h
        | ok y => exact ⟨y, h⟩
      unfold perOutputLoopG at e
      split at e
      · next h => cases h
      · next h => cases h; obtain ⟨y, hy⟩ := key _ _ e; exact ih _ _ hm' v hy
      · next h =>
        cases h
        obtain ⟨y, hy⟩ := key _ _ e
        obtain ⟨z, hz⟩ := key _ _ hy
        exact ih _ _ hm' v hz
      · next h => cases h; obtain ⟨y, hy⟩ := key _ _ e; exact ih _ _ hm' v hy

/-- **C25** A list that names a group which there is none of (a bare number) has no view, wherever the group stands in it: it is equal to no list. -/
theorem C25_bare_group (heap : Nat → Option GroupVal) (k g : Nat) (hn : heap g = none) (s : List Action) (l : ActionList)
    (hl : ActionList.ofList s = .ok l) (hs : .group g ∈ s) :
    (∀ v, l.perOutputPtG heap k ≠ .ok v) ∧ ∀ (m : ActionList) v, l.equivEqualG heap k m ≠ .ok v := by
  have hl := ofList_ok hl
  subst hl
  have hm : .group g ∈ (mkList s).iter := (mkList_iter_trace s).perm.mem_iff.1 hs
  have h1 : ∀ v, perOutputIter heap k (mkList s).iter ≠ .ok v := by
    intro v e
    cases k with
    | zero =>
      unfold perOutputIter at e
      cases h : perOutputLoopG (fun _ => .error .fuel) (mkList s).iter ActionList.empty [] with
      | ok x => exact loopG_bad (g := g) (fun v h => by cases h) _ _ _ hm _ h
      | error y => rw [h] at e; cases e
    | succ k =>
      unfold perOutputIter at e
      cases h : perOutputLoopG (groupRes heap (perOutputIter heap k)) (mkList s).iter ActionList.empty [] with
      | ok x => exact loopG_bad (g := g) (fun v h => by simp only [groupRes, hn] at h; cases h) _ _ _ hm _ h
      | error y => rw [h] at e; cases e
  have h2 : ∀ v, (mkList s).perOutputPtG heap k ≠ .ok v := by
    intro v e
    unfold ActionList.perOutputPtG at e
    cases h : perOutputIter heap k (mkList s).iter with
    | ok x => exact h1 x h
    | error y => rw [h] at e; cases e
  refine ⟨h2, fun m v e => ?_⟩
  unfold ActionList.equivEqualG ActionList.perOutputG at e
  cases h : (mkList s).perOutputPtG heap k with
  | ok x => exact h2 x h
  | error y => rw [h] at e; cases e

/-- Group 4 is not there. -/
example : exHeap .all 4 = none ∧ Action.group 4 ∈ [.output 1, .group 4] ∧
    (mkList [.output 1, .group 4]).perOutputPtG (exHeap .all) 2 = .error .attributeError := by
  refine ⟨rfl, by decide, by decide +kernel⟩

end OFE
