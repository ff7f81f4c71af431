import Verif.Actions.Remove
import Mathlib.Data.List.Perm.Subperm

/-!
# C19, C20, C21, C22: action lists
-/

namespace OFE

/-- **C19** Iterating an `ActionList` built by appending `s` yields a permutation of `s`, and any two actions that the dependency
table orders (the same action twice included) keep their relative order: the projection of the two sequences on the
pair is the same. -/
theorem C19_canonical_order (s : List Action) (l : ActionList) (h : ActionList.ofList s = .ok l) :
    l.iter.Perm s ∧ l.len = s.length ∧ ∀ a b, depends a b = .ok true →
      l.iter.filter (fun z => decide (z = a ∨ z = b)) = s.filter (fun z => decide (z = a ∨ z = b)) := by
  have hl := ofList_ok h
  subst hl
  have ht := mkList_iter_trace s
  refine ⟨ht.perm.symm, rfl, fun a b hab => ?_⟩
  exact (ht.filter_pair dependsB_symm a b (by simp [dependsB, hab])).symm

/-- **C19** Every sequence of actions with table entries can be appended; … -/
theorem C19_known_ok (s : List Action) (h : ∀ a ∈ s, a.known = true) : ∃ l, ActionList.ofList s = .ok l :=
  ⟨_, ofList_known h⟩

/-- … and appending a set-field of an inner tunnel header (no table entry) to a list that is not empty is a `KeyError`. -/
theorem C19_inner_field_keyError (s : List Action) (l : ActionList) (h : ActionList.ofList s = .ok l) (hne : s ≠ [])
    (f v : Nat) (hf : 40 ≤ f) : l.append (.setField f v) = .error .keyError := by
  have hl := ofList_ok h
  subst hl
  have : (mkList s).levels.flatten ≠ [] := by
    intro h0
    have := (mkList_iter_trace s).perm.symm
    unfold ActionList.iter at this
    rw [h0] at this
    exact hne (List.Perm.nil_eq this).symm
  unfold ActionList.append
  rw [_append_unknown this (by simp [Action.known]; omega)]
  rfl

example : ActionList.ofList [.output 1, .setField 6 5, .pushVlan 0x8100, .setField 11 7, .output 2] =
    .ok ⟨[[.output 1], [.setField 11 7, .setField 6 5], [.pushVlan 0x8100], [.output 2]],
      [.output 1, .setField 6 5, .pushVlan 0x8100, .setField 11 7, .output 2]⟩ := by decide +kernel
example : depends (.setField 6 5) (.pushVlan 0x8100) = .ok true := by decide +kernel
example : ActionList.ofList [.output 1, .setField 40 5] = .error .keyError := by decide +kernel

/-- **C20** Two action lists compare equal exactly when the appended sequences can be turned into one another by swapping neighbours
that do not depend on each other. -/
theorem C20_eq_iff_trace (s t : List Action) (l m : ActionList) (hl : ActionList.ofList s = .ok l)
    (hm : ActionList.ofList t = .ok m) : l.eq m = true ↔ TraceEq dependsB s t := by
  have hl := ofList_ok hl
  have hm := ofList_ok hm
  subst hl hm
  rw [← levelsOf_eq_iff lt_strictTotal dependsB_symm]
  unfold ActionList.eq
  constructor
  · intro h
    split at h
    · cases h
    · exact beq_iff_eq.1 h
  · intro h
    have ht := (levelsOf_eq_iff lt_strictTotal dependsB_symm s t).1 h
    rw [if_neg]
    · exact beq_iff_eq.2 h
    · simp only [ne_eq, Decidable.not_not]; exact ht.perm.length_eq

/-- **C20** Equal lists have the same level structure, hence the same hash (`hash(tuple(self))`), the same iteration and compare
equal with the same lists. -/
theorem C20_eq_same_levels (s t : List Action) (l m : ActionList) (hl : ActionList.ofList s = .ok l)
    (hm : ActionList.ofList t = .ok m) (h : l.eq m = true) : l.levels = m.levels ∧ l.iter = m.iter := by
  have ht := (C20_eq_iff_trace s t l m hl hm).1 h
  have hl := ofList_ok hl
  have hm := ofList_ok hm
  subst hl hm
  have : (mkList s).levels = (mkList t).levels := foldl_trace lt_strictTotal dependsB_symm ht (by simp [LvSorted])
  exact ⟨this, by unfold ActionList.iter; rw [this]⟩

example : TraceEq dependsB [.setField 6 5, .output 1, .setField 11 7] [.setField 6 5, .output 1, .setField 11 7] := .refl _
example : TraceEq dependsB [.setField 6 5, .setField 11 7, .output 1] [.setField 11 7, .setField 6 5, .output 1] :=
  .single (l := []) (by decide +kernel)
example : ¬ TraceEq dependsB [.setField 6 5, .output 1] [.output 1, .setField 6 5] := fun h => by
  have := (C20_eq_iff_trace _ _ _ _ (ofList_known (by unfold AllKnown; decide))
    (ofList_known (by unfold AllKnown; decide))).2 h
  revert this; decide +kernel

/-- C22 for actions with table entries. -/
theorem concat_known (s t : List Action) (a b c : ActionList) (ha : ActionList.ofList s = .ok a) (hb : ActionList.ofList t = .ok b)
    (hc : ActionList.ofList (s ++ t) = .ok c) (hk : ∀ x ∈ s ++ t, x.known = true) :
    ∃ r, a.add b = .ok r ∧ a.iadd b = .ok r ∧ a.copy b.iter [] = .ok r ∧ r.levels = c.levels ∧ r.eq c = true ∧ c.eq r = true := by
  have ha := ofList_ok ha
  have hb := ofList_ok hb
  have hc := ofList_ok hc
  subst ha hb hc
  have hs : AllKnown s := fun x hx => hk x (List.mem_append_left _ hx)
  have ht : AllKnown t := fun x hx => hk x (List.mem_append_right _ hx)
  have htr := mkList_iter_trace t
  have hti : AllKnown (mkList t).iter := allKnown_of_trace htr ht
  have hf := foldlM_append_known (mkList t).iter hti (mkList s) (allKnown_levels hs)
  refine ⟨_, ?_, hf, ?_, ?_, ?_, ?_⟩
  · unfold ActionList.add ActionList.copy
    rw [if_neg (by simp)]
    simp only [List.foldlM_nil]
    exact hf
  · unfold ActionList.copy
    rw [if_neg (by simp)]
    simp only [List.foldlM_nil]
    exact hf
  all_goals
    have hlev : (mkList t).iter.foldl (appendLv dependsB Action.lt) (mkList s).levels = (mkList (s ++ t)).levels := by
      rw [mkList_append]
      exact (foldl_trace lt_strictTotal dependsB_symm htr (mkList_sorted s)).symm
  · exact hlev
  · unfold ActionList.eq ActionList.iter ActionList.len
    rw [if_neg]
    · simp only [beq_iff_eq]; rw [← hlev]; rfl
    · have := htr.perm.length_eq
      simp only [mkList, List.length_append]
      simp only [mkList, ActionList.iter] at this
      omega
  · unfold ActionList.eq ActionList.iter ActionList.len
    rw [if_neg]
    · simp only [beq_iff_eq]; rw [← hlev]; rfl
    · have := htr.perm.length_eq
      simp only [mkList, List.length_append]
      simp only [mkList, ActionList.iter] at this
      omega

/-- **C22** `a + b`, `a += b` and `a.copy(add=b)` succeed whenever the list can be built from `a`'s sequence followed by `b`'s;
they have the levels of that list and compare equal to it. -/
theorem C22_concat (s t : List Action) (a b c : ActionList) (ha : ActionList.ofList s = .ok a) (hb : ActionList.ofList t = .ok b)
    (hc : ActionList.ofList (s ++ t) = .ok c) :
    ∃ r, a.add b = .ok r ∧ a.iadd b = .ok r ∧ a.copy b.iter [] = .ok r ∧ r.levels = c.levels ∧ r.eq c = true ∧ c.eq r = true := by
  rcases ofList_ok_known hc with hk | ⟨x, hx⟩
  · exact concat_known s t a b c ha hb hc hk
  · have ha := ofList_ok ha
    have hb := ofList_ok hb
    have hc := ofList_ok hc
    subst ha hb hc
    rcases List.append_eq_singleton_iff.1 hx with ⟨rfl, rfl⟩ | ⟨rfl, rfl⟩
    · exact ⟨_, rfl, rfl, rfl, rfl, by simp [ActionList.eq, ActionList.len, mkList, levelsOf, appendLv, putLevel, ActionList.iter],
        by simp [ActionList.eq, ActionList.len, mkList, levelsOf, appendLv, putLevel, ActionList.iter]⟩
    · exact ⟨_, rfl, rfl, rfl, rfl, by simp [ActionList.eq], by simp [ActionList.eq]⟩

example : ∀ x ∈ [Action.setField 6 5, .output 1] ++ [.setField 3 9, .pushVlan 0x8100], x.known = true := by decide

/-! ## Removal -/

/-- `remove` in a list in which the part of the sequence before the offset is, up to swaps, the levels before the one of `x`. -/
theorem remove_of_prefix (s : List Action) (hk : AllKnown s) (x : Action) (hx : x ∈ s) (k : Nat)
    (hs : ∃ v, (mkList s).levels[k]? = some v ∧ x ∈ v) (hb : x ∉ ((mkList s).levels.take k).flatten)
    (hp : TraceEq dependsB ((s.erase x).take ((mkList s).levels.take k).flatten.length) ((mkList s).levels.take k).flatten) :
    (mkList s).remove x = .ok (mkList (s.erase x)) := by
  obtain ⟨v, hv, hxv⟩ := hs
  have hm : x ∈ (mkList s).levels.flatten := List.mem_flatten.2 ⟨v, List.mem_of_getElem? hv, hxv⟩
  obtain ⟨r, hr⟩ := Option.isSome_iff_exists.1 (removeScan_isSome x (mkList s).levels [] 0 hm)
  obtain ⟨k', v', h1, h2, h3, h4⟩ := removeScan_spec x _ _ _ _ hr
  have hkk : k' = k := by
    rcases Nat.lt_trichotomy k' k with h | h | h
    · exfalso
      apply hb
      refine List.mem_flatten.2 ⟨v', ?_, h3⟩
      exact List.mem_of_getElem? (i := k') (by rw [List.getElem?_take, if_pos h]; exact h2)
    · exact h
    · exfalso
      apply h4
      refine List.mem_flatten.2 ⟨v, ?_, hxv⟩
      exact List.mem_of_getElem? (i := k) (by rw [List.getElem?_take, if_pos h]; exact hv)
  subst hkk
  unfold ActionList.remove
  rw [if_pos (by exact hx)]
  simp only [hr, h1]
  rw [show (mkList s).orig = s from rfl]
  have hkn : AllKnown (s.erase x) := fun y hy => hk y (List.mem_of_mem_erase hy)
  have hkl : AllKnown ([] ++ (mkList s).levels.take k').flatten := by
    intro y hy
    refine allKnown_levels hk y ?_
    obtain ⟨w, hw, hyw⟩ := List.mem_flatten.1 hy
    exact List.mem_flatten.2 ⟨w, List.mem_of_mem_take (by simpa using hw), hyw⟩
  rw [foldlM_lvAppend_known _ (fun y hy => hkn y (List.mem_of_mem_drop hy)) _ hkl]
  show Except.ok _ = Except.ok _
  congr 1
  simp only [mkList, ActionList.mk.injEq, and_true, List.nil_append, Nat.zero_add]
  conv => rhs; rw [← List.take_append_drop ((mkList s).levels.take k').flatten.length (s.erase x)]
  rw [levelsOf_append]
  have h5 : levelsOf dependsB Action.lt ((s.erase x).take ((mkList s).levels.take k').flatten.length) = (mkList s).levels.take k' := by
    rw [levelsOf, foldl_trace lt_strictTotal dependsB_symm hp (by simp [LvSorted])]
    exact levelsOf_take lt_strictTotal dependsB_symm s k'
  rw [h5]
  rfl

/-- **C21** (partial) `remove(x)` gives the list built without the first `x` if `x` does not depend on anything before it (it
sits in the first level), or if the actions were appended in canonical order, as when rebuilt from an iteration.
Missing: all other lists, see `C21_remove_wrong`. -/
theorem C21_remove_partial (s : List Action) (l : ActionList) (hl : ActionList.ofList s = .ok l) (hk : ∀ a ∈ s, a.known = true)
    (x : Action) (hx : x ∈ s) (h : (∃ v ∈ l.levels.head?, x ∈ v) ∨ l.iter = s) :
    l.remove x = ActionList.ofList (s.erase x) := by
  have hl := ofList_ok hl
  subst hl
  rw [ofList_known fun y hy => hk y (List.mem_of_mem_erase hy)]
  rcases h with ⟨v, hv, hxv⟩ | h
  · refine remove_of_prefix s hk x hx 0 ⟨v, ?_, hxv⟩ (by simp) (by simpa using TraceEq.refl _)
    rw [← List.head?_eq_getElem?]; exact hv
  · have hm : x ∈ (mkList s).levels.flatten := by unfold ActionList.iter at h; rw [h]; exact hx
    obtain ⟨r, hr⟩ := Option.isSome_iff_exists.1 (removeScan_isSome x (mkList s).levels [] 0 hm)
    obtain ⟨k, v, h1, h2, h3, h4⟩ := removeScan_spec x _ _ _ _ hr
    refine remove_of_prefix s hk x hx k ⟨v, h2, h3⟩ h4 ?_
    have : s.erase x = ((mkList s).levels.take k).flatten ++ ((mkList s).levels.drop k).flatten.erase x := by
      conv => lhs; rw [← h]; unfold ActionList.iter; rw [← List.take_append_drop k (mkList s).levels]
      rw [List.flatten_append, List.erase_append_right _ h4]
    rw [this]
    simpa using TraceEq.refl _

example : ∃ v ∈ (mkList [.setField 6 5, .pushVlan 0x8100, .setField 11 7]).levels.head?, Action.setField 11 7 ∈ v := by
  decide +kernel
example : (mkList [.setField 11 7, .setField 6 5, .pushVlan 0x8100, .setField 6 8]).iter =
    [.setField 11 7, .setField 6 5, .pushVlan 0x8100, .setField 6 8] := by decide +kernel

/-- **C21** The claim is false in general: removing `SET_FIELD VLAN_VID=5` from PUSH_VLAN, SET_FIELD VLAN_VID=5, PUSH_VLAN,
SET_FIELD ETH_DST=9 drops the second push and doubles the last set-field. -/
theorem C21_remove_wrong : ∃ (s : List Action) (x : Action) (l r m : ActionList), x ∈ s ∧ (∀ a ∈ s, a.known = true) ∧
    ActionList.ofList s = .ok l ∧ l.remove x = .ok r ∧ ActionList.ofList (s.erase x) = .ok m ∧ r.eq m = false ∧
    ¬ r.iter.Perm r.orig := by
  refine ⟨[.pushVlan 0x8100, .setField 6 5, .pushVlan 0x8100, .setField 3 9], .setField 6 5,
    ⟨[[.pushVlan 0x8100, .setField 3 9], [.setField 6 5], [.pushVlan 0x8100]],
      [.pushVlan 0x8100, .setField 6 5, .pushVlan 0x8100, .setField 3 9]⟩,
    ⟨[[.pushVlan 0x8100, .setField 3 9], [.setField 3 9]],
      [.pushVlan 0x8100, .pushVlan 0x8100, .setField 3 9]⟩,
    ⟨[[.pushVlan 0x8100, .setField 3 9], [.pushVlan 0x8100]], [.pushVlan 0x8100, .pushVlan 0x8100, .setField 3 9]⟩,
    by decide, by decide, by decide +kernel, by decide +kernel, by decide +kernel, by decide +kernel, by decide +kernel⟩

/-- **C21** The other route, `copy(remove=[x, y, ...])` with at least two items, rebuilds and is right for every list. -/
theorem C21_copy_remove_many (s add : List Action) (l : ActionList) (hl : ActionList.ofList s = .ok l) (rem : List Action)
    (hlen : 2 ≤ rem.length) (hsub : rem.Subperm s) : l.copy add rem = ActionList.ofList (s.diff rem ++ add) := by
  have hl := ofList_ok hl
  subst hl
  unfold ActionList.copy
  rw [if_pos (by omega)]
  have : ∀ (rem s : List Action), rem.Subperm s → rem.foldlM (fun (acc : List Action) r =>
      if r ∈ acc then (Except.ok (acc.erase r) : Except PyErr _) else .error .valueError) s = .ok (s.diff rem) := by
    intro rem
    induction rem with
    | nil => intro s _; rfl
    | cons r rem ih =>
      intro s h
      have hr : r ∈ s := h.subset List.mem_cons_self
      rw [List.foldlM_cons, if_pos hr]
      have hp : rem.Subperm (s.erase r) := by
        have := h.erase r
        simpa using this
      show List.foldlM _ (s.erase r) rem = _
      rw [ih _ hp, List.diff_cons]
  show (List.foldlM _ s rem >>= _) = _
  rw [this rem s hsub]
  rfl

example : [Action.setField 6 5, .setField 3 9].Subperm [.pushVlan 0x8100, .setField 6 5, .pushVlan 0x8100, .setField 3 9] := by
  decide

end OFE
