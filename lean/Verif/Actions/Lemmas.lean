import Verif.Actions.Foata

/-! # The concrete dependency test and order -/

namespace OFE

theorem dependsB_symm (a b : Action) : dependsB a b = dependsB b a := by
  unfold dependsB depends
  cases h1 : actionDeps a.toType <;> cases h2 : actionDeps b.toType <;> try rfl
  rename_i d1 d2
  simp only
  rw [Bool.or_comm (a.isSet && _), Bool.or_comm (d2.contains a.toType)]

theorem actionDeps_isSome (a : Action) : (actionDeps a.toType).isSome = a.known := by
  cases a <;> try rfl
  rename_i f v
  simp only [Action.toType, Action.known]
  unfold actionDeps
  split <;> simp_all
  rename_i h f' _ _ _ _ _ _ _ _ _
  by_cases hf : h < 40 <;> simp [hf]

theorem depends_known {a b : Action} (ha : a.known = true) (hb : b.known = true) : depends a b = .ok (dependsB a b) := by
  rw [← actionDeps_isSome] at ha hb
  obtain ⟨d1, h1⟩ := Option.isSome_iff_exists.1 ha
  obtain ⟨d2, h2⟩ := Option.isSome_iff_exists.1 hb
  unfold dependsB depends
  rw [h1, h2]
  simp only
  by_cases h : (a.isSet && d2.contains (.t 10) || b.isSet && d1.contains (.t 10)) = true
  · rw [if_pos h]
  · rw [if_neg h]

theorem depends_unknown {a b : Action} (h : a.known = false ∨ b.known = false) : depends a b = .error .keyError := by
  rw [← actionDeps_isSome, ← actionDeps_isSome] at h
  unfold depends
  rcases h with h | h
  · have : actionDeps a.toType = none := by simpa using h
    rw [this]
  · have : actionDeps b.toType = none := by simpa using h
    rw [this]
    cases actionDeps a.toType <;> rfl

theorem typeRanks : (List.range 16).map typeRank = [0, 8, 7, 6, 9, 10, 11, 1, 2, 3, 12, 13, 14, 15, 4, 5] := by
  decide +kernel

theorem typeRank_eq (i : Nat) (h : i < 16) : typeRank i = [0, 8, 7, 6, 9, 10, 11, 1, 2, 3, 12, 13, 14, 15, 4, 5].getD i 0 := by
  have h1 : ((List.range 16).map typeRank)[i]? = some (typeRank i) := by simp [h]
  rw [typeRanks] at h1
  rw [List.getD_eq_getElem?_getD, h1]; rfl

theorem key_inj {a b : Action} (h : a.key = b.key) : a = b := by
  have t0 := typeRank_eq 0 (by omega)
  have t1 := typeRank_eq 1 (by omega)
  have t2 := typeRank_eq 2 (by omega)
  have t3 := typeRank_eq 3 (by omega)
  have t4 := typeRank_eq 4 (by omega)
  have t5 := typeRank_eq 5 (by omega)
  have t6 := typeRank_eq 6 (by omega)
  have t7 := typeRank_eq 7 (by omega)
  have t8 := typeRank_eq 8 (by omega)
  have t9 := typeRank_eq 9 (by omega)
  have t10 := typeRank_eq 10 (by omega)
  have t11 := typeRank_eq 11 (by omega)
  have t12 := typeRank_eq 12 (by omega)
  have t13 := typeRank_eq 13 (by omega)
  have t14 := typeRank_eq 14 (by omega)
  have t15 := typeRank_eq 15 (by omega)
  simp only [List.getD_cons_zero, List.getD_cons_succ] at t0 t1 t2 t3 t4 t5 t6 t7 t8 t9 t10 t11 t12 t13 t14 t15
  cases a <;> cases b <;> simp only [Action.key, Action.ty, t0, t1, t2, t3, t4, t5, t6, t7, t8, t9, t10, t11, t12, t13, t14, t15,
    List.cons.injEq, Action.setField.injEq, Action.popMpls.injEq, Action.pushMpls.injEq, Action.pushPbb.injEq,
    Action.pushVlan.injEq, Action.setMplsTtl.injEq, Action.setNwTtl.injEq, Action.setQueue.injEq, Action.group.injEq,
    Action.output.injEq, and_true, true_and, reduceCtorEq, and_false] at h ⊢
  all_goals first | exact h | (exact absurd h.1 (by decide)) | (exact absurd h (by decide)) | (exact ⟨h.2.1, h.2.2⟩)

theorem lt_strictTotal : StrictTotal Action.lt where
  irrefl a := by simp only [Action.lt, decide_eq_false_iff_not]; exact List.lt_irrefl _
  trans a b c h1 h2 := by
    simp only [Action.lt, decide_eq_true_eq] at *
    exact List.lt_trans h1 h2
  tri a b h1 h2 := by
    simp only [Action.lt, decide_eq_false_iff_not] at *
    exact key_inj (List.le_antisymm (List.not_lt.1 h2) (List.not_lt.1 h1))

/-- All items known. -/
def AllKnown (s : List Action) : Prop := ∀ a ∈ s, a.known = true

theorem _append_known {ls : List (List Action)} {i : Action} (hl : AllKnown ls.flatten) (hi : i.known = true) :
    ActionList._append ls i = .ok (appendLv dependsB Action.lt ls i) := by
  unfold ActionList._append
  rw [if_neg]
  simp only [List.any_eq_true, not_exists, not_and]
  intro x hx
  rw [depends_known (hl x hx) hi]; simp

theorem _append_unknown {ls : List (List Action)} {i : Action} (hne : ls.flatten ≠ []) (hi : i.known = false) :
    ActionList._append ls i = .error .keyError := by
  unfold ActionList._append
  rw [if_pos]
  simp only [List.any_eq_true]
  obtain ⟨x, hx⟩ := List.exists_mem_of_ne_nil _ hne
  exact ⟨x, hx, by rw [depends_unknown (.inr hi)]⟩

theorem allKnown_appendLv {ls : List (List Action)} {i : Action} (hl : AllKnown ls.flatten) (hi : i.known = true) :
    AllKnown (appendLv dependsB Action.lt ls i).flatten := by
  intro x hx
  rw [appendLv_eq, mem_putLevel] at hx
  rcases hx with rfl | hx
  · exact hi
  · exact hl x hx

theorem foldlM_append_known (s : List Action) (hs : AllKnown s) (l : ActionList) (hl : AllKnown l.levels.flatten) :
    s.foldlM ActionList.append l = .ok ⟨s.foldl (appendLv dependsB Action.lt) l.levels, l.orig ++ s⟩ := by
  induction s generalizing l with
  | nil => cases l; simp only [List.foldlM_nil, List.foldl_nil, List.append_nil]; rfl
  | cons a s ih =>
    have ha := hs a List.mem_cons_self
    have hs' : AllKnown s := fun x hx => hs x (List.mem_cons_of_mem _ hx)
    have h1 : ActionList.append l a = .ok ⟨appendLv dependsB Action.lt l.levels a, l.orig ++ [a]⟩ := by
      unfold ActionList.append; rw [_append_known hl ha]; rfl
    rw [List.foldlM_cons, h1]
    show List.foldlM ActionList.append _ s = _
    rw [ih hs' _ (allKnown_appendLv hl ha)]
    simp

theorem foldlM_lvAppend_known (s : List Action) (hs : AllKnown s) (ls : List (List Action)) (hl : AllKnown ls.flatten) :
    s.foldlM ActionList._append ls = .ok (s.foldl (appendLv dependsB Action.lt) ls) := by
  induction s generalizing ls with
  | nil => rfl
  | cons a s ih =>
    have ha := hs a List.mem_cons_self
    have hs' : AllKnown s := fun x hx => hs x (List.mem_cons_of_mem _ hx)
    rw [List.foldlM_cons, _append_known hl ha]
    exact ih hs' _ (allKnown_appendLv hl ha)

/-- The list built from a known sequence. -/
def mkList (s : List Action) : ActionList := ⟨levelsOf dependsB Action.lt s, s⟩

theorem ofList_known {s : List Action} (hs : AllKnown s) : ActionList.ofList s = .ok (mkList s) := by
  unfold ActionList.ofList
  rw [foldlM_append_known s hs _ (by simp [ActionList.empty, AllKnown])]
  rfl

theorem allKnown_of_trace {s t : List Action} (h : TraceEq dependsB s t) (hs : AllKnown s) : AllKnown t :=
  fun x hx => hs x (h.perm.mem_iff.2 hx)

theorem mkList_iter_trace (s : List Action) : TraceEq dependsB s (mkList s).iter := levelsOf_flatten s

theorem allKnown_levels {s : List Action} (hs : AllKnown s) : AllKnown (mkList s).levels.flatten :=
  allKnown_of_trace (mkList_iter_trace s) hs

theorem mkList_append (s t : List Action) :
    (mkList (s ++ t)).levels = t.foldl (appendLv dependsB Action.lt) (mkList s).levels := by
  simp [mkList, levelsOf, List.foldl_append]

theorem mkList_sorted (s : List Action) : LvSorted Action.lt (mkList s).levels := foldl_sorted lt_strictTotal s (by simp [LvSorted])

end OFE
