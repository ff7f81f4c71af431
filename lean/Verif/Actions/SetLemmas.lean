import Verif.Actions.ActionSet
import Verif.Actions.Remove

/-! # Action sets: lemmas -/

namespace OFE
section
variable {α : Type} {dep lt : α → α → Bool}

theorem lvl_map (φ : α → α) (i : α) (ls : List (List α)) (h : ∀ x ∈ ls.flatten, dep (φ x) (φ i) = dep x i) :
    lvl dep (φ i) (ls.map (·.map φ)) = lvl dep i ls := by
  induction ls with
  | nil => rfl
  | cons v rest ih =>
    have hv : (v.map φ).any (fun x => dep x (φ i)) = v.any fun x => dep x i := by
      rw [List.any_map]
      apply Bool.eq_iff_iff.2
      simp only [List.any_eq_true, Function.comp]
      constructor
      · rintro ⟨x, hx, hd⟩; exact ⟨x, hx, by rw [← h x (by simp [hx])]; exact hd⟩
      · rintro ⟨x, hx, hd⟩; exact ⟨x, hx, by rw [h x (by simp [hx])]; exact hd⟩
    simp only [List.map_cons, lvl, hv, ih fun x hx => h x (by simp only [List.flatten_cons, List.mem_append]; exact .inr hx)]

theorem insort_map (φ : α → α) (i : α) (v : List α) (h : ∀ x ∈ v, lt (φ i) (φ x) = lt i x) :
    insort lt (φ i) (v.map φ) = (insort lt i v).map φ := by
  induction v with
  | nil => rfl
  | cons y ys ih =>
    simp only [List.map_cons, insort, h y List.mem_cons_self]
    split
    · rfl
    · rw [ih fun x hx => h x (List.mem_cons_of_mem _ hx)]; rfl

theorem putLevel_map (φ : α → α) (i : α) (ls : List (List α)) (hd : ∀ x ∈ ls.flatten, dep (φ x) (φ i) = dep x i)
    (hl : ∀ x ∈ ls.flatten, dep x i = false → lt (φ i) (φ x) = lt i x) :
    putLevel lt (φ i) (lvl dep (φ i) (ls.map (·.map φ))) (ls.map (·.map φ)) =
      (putLevel lt i (lvl dep i ls) ls).map (·.map φ) := by
  rw [lvl_map φ i ls hd]
  induction ls with
  | nil => rfl
  | cons v rest ih =>
    have hdr : ∀ x ∈ rest.flatten, dep (φ x) (φ i) = dep x i :=
      fun x hx => hd x (by simp only [List.flatten_cons, List.mem_append]; exact .inr hx)
    have hlr : ∀ x ∈ rest.flatten, dep x i = false → lt (φ i) (φ x) = lt i x :=
      fun x hx => hl x (by simp only [List.flatten_cons, List.mem_append]; exact .inr hx)
    by_cases h0 : lvl dep i rest = 0
    · by_cases h1 : (v.any fun x => dep x i) = true
      · have hv : lvl dep i (v :: rest) = 1 := by simp [lvl, h0, h1]
        have := ih hdr hlr
        rw [h0] at this
        rw [hv]
        simp only [List.map_cons, putLevel, this]
      · have hv : lvl dep i (v :: rest) = 0 := by simp [lvl, h0, h1]
        rw [hv]
        simp only [List.map_cons, putLevel]
        rw [insort_map φ i v fun x hx => hl x (by simp [hx]) (lvl_zero hv x (by simp [hx]))]
    · have hv : lvl dep i (v :: rest) = lvl dep i rest + 1 := by simp [lvl, h0]
      rw [hv]
      simp only [List.map_cons, putLevel, ih hdr hlr]

/-- Renaming items without changing dependencies or the order among independent items renames the levels. -/
theorem levelsOf_map (φ : α → α) (s : List α) (hn : s.Nodup) (hd : ∀ x ∈ s, ∀ y ∈ s, x ≠ y → dep (φ x) (φ y) = dep x y)
    (hl : ∀ x ∈ s, ∀ y ∈ s, x ≠ y → dep x y = false → lt (φ y) (φ x) = lt y x) :
    levelsOf dep lt (s.map φ) = (levelsOf dep lt s).map (·.map φ) := by
  rw [← List.reverse_reverse s] at *
  generalize s.reverse = r at *
  induction r with
  | nil => rfl
  | cons i r ih =>
    rw [List.reverse_cons] at *
    have hmem : ∀ x, x ∈ (levelsOf dep lt r.reverse).flatten ↔ x ∈ r.reverse := fun x =>
      ((levelsOf_flatten (dep := dep) (lt := lt) r.reverse).perm.mem_iff).symm
    have hn' := List.nodup_append.1 hn
    have hne : ∀ x ∈ r.reverse, x ≠ i := fun x hx => hn'.2.2 x hx i (by simp)
    rw [List.map_append, levelsOf_append, levelsOf_append,
      ih hn'.1 (fun x hx y hy => hd x (by simp_all) y (by simp_all)) (fun x hx y hy => hl x (by simp_all) y (by simp_all))]
    simp only [List.map_cons, List.map_nil, List.foldl_cons, List.foldl_nil, appendLv_eq]
    apply putLevel_map
    · intro x hx
      rw [hmem] at hx
      exact hd x (List.mem_append_left _ hx) i (by simp) (hne x hx)
    · intro x hx h
      rw [hmem] at hx
      exact hl x (List.mem_append_left _ hx) i (by simp) (hne x hx) h
end

/-- Put `item` for `rem`. -/
def subst1 (rem item : Action) (y : Action) : Action := if y = rem then item else y

theorem replaceFirst_eq_map {rem item : Action} {l : List Action} (h : l.Nodup) : replaceFirst rem item l = l.map (subst1 rem item) := by
  induction l with
  | nil => rfl
  | cons y ys ih =>
    have hn := List.nodup_cons.1 h
    unfold replaceFirst
    split
    · rename_i hy
      subst hy
      simp only [List.map_cons, subst1, if_true, List.cons.injEq, true_and]
      rw [List.map_congr_left (g := id)]
      · simp
      · intro z hz
        have : z ≠ y := fun h => hn.1 (h ▸ hz)
        simp [subst1, this]
    · rename_i hy
      rw [ih hn.2]; simp [subst1, hy]

theorem map_subst1_of_notMem {rem item : Action} {l : List Action} (h : rem ∉ l) : l.map (subst1 rem item) = l := by
  rw [List.map_congr_left (g := id)]
  · simp
  · intro z hz
    have : z ≠ rem := fun h' => h (h' ▸ hz)
    simp [subst1, this]

theorem replaceLevels_eq_map {rem item : Action} {ls : List (List Action)} (h : ls.flatten.Nodup) :
    replaceLevels rem item ls = ls.map (·.map (subst1 rem item)) := by
  induction ls with
  | nil => rfl
  | cons v vs ih =>
    rw [List.flatten_cons] at h
    have hn := List.nodup_append.1 h
    unfold replaceLevels
    split
    · rename_i hv
      rw [replaceFirst_eq_map hn.1]
      simp only [List.map_cons, List.cons.injEq, true_and]
      rw [List.map_congr_left (g := id)]
      · simp
      · intro w hw
        apply map_subst1_of_notMem
        intro hr
        exact hn.2.2 rem hv rem (List.mem_flatten.2 ⟨w, hw, hr⟩) rfl
    · rename_i hv
      rw [ih hn.2.1, List.map_cons, map_subst1_of_notMem hv]

/-! ## Slots -/

theorem sameSlot_iff {a x : Action} : sameSlot a x = true ↔ a.toType = x.toType := by
  cases a <;> cases x <;> simp [sameSlot, Action.ty, Action.toType]

theorem ty_eq_of_slot {a x : Action} (h : a.toType = x.toType) : a.ty = x.ty := by
  cases a <;> cases x <;> simp_all [Action.ty, Action.toType]

theorem isSet_eq_of_slot {a x : Action} (h : a.toType = x.toType) : a.isSet = x.isSet := by
  cases a <;> cases x <;> simp_all [Action.ty, Action.toType, Action.isSet]

theorem depends_slot {a a' b : Action} (h : a.toType = a'.toType) : depends a b = depends a' b := by
  unfold depends; rw [h, isSet_eq_of_slot h]

theorem dependsB_slot {a a' b : Action} (h : a.toType = a'.toType) : dependsB a b = dependsB a' b := by
  unfold dependsB; rw [depends_slot h]

theorem key_head (a : Action) : ∃ r, a.key = typeRank a.ty :: r := by
  cases a <;> exact ⟨_, rfl⟩

theorem typeRank_inj {i j : Nat} (hi : i < 16) (hj : j < 16) (h : typeRank i = typeRank j) : i = j := by
  rw [typeRank_eq i hi, typeRank_eq j hj] at h
  have : ∀ i, i < 16 → ∀ j, j < 16 → [0, 8, 7, 6, 9, 10, 11, 1, 2, 3, 12, 13, 14, 15, 4, 5].getD i 0 =
    [0, 8, 7, 6, 9, 10, 11, 1, 2, 3, 12, 13, 14, 15, 4, 5].getD j 0 → i = j := by decide
  exact this i hi j hj h

theorem ty_lt (a : Action) : a.ty < 16 := by cases a <;> simp only [Action.ty] <;> decide

theorem lt_of_ty_ne {a x : Action} (h : a.ty ≠ x.ty) : Action.lt a x = decide (typeRank a.ty < typeRank x.ty) := by
  obtain ⟨r, hr⟩ := key_head a
  obtain ⟨r', hr'⟩ := key_head x
  have : typeRank a.ty ≠ typeRank x.ty := fun hh => h (typeRank_inj (ty_lt a) (ty_lt x) hh)
  unfold Action.lt
  rw [hr, hr', decide_eq_decide, List.cons_lt_cons_iff]
  simp [this]

/-- Comparing with an action of another slot only looks at the slot. -/
theorem lt_slot {a a' x : Action} (h : a.toType = a'.toType) (hx : a.toType ≠ x.toType) :
    Action.lt a x = Action.lt a' x ∧ Action.lt x a = Action.lt x a' := by
  by_cases ht : a.ty = x.ty
  · have hs : ∃ f v g w, a = .setField f v ∧ x = .setField g w := by
      cases a <;> cases x <;> simp_all [Action.ty, Action.toType]
    obtain ⟨f, v, g, w, rfl, rfl⟩ := hs
    have hs' : ∃ v', a' = .setField f v' := by
      cases a' <;> simp_all [Action.toType]
    obtain ⟨v', rfl⟩ := hs'
    have hne : f ≠ g := fun hh => hx (by simp [Action.toType, hh])
    have hne' : g ≠ f := fun hh => hne hh.symm
    unfold Action.lt
    constructor <;> rw [decide_eq_decide] <;> simp only [Action.key, List.cons_lt_cons_iff, hne, hne', false_and, or_false]
  · have ht' : a'.ty ≠ x.ty := by rw [← ty_eq_of_slot h]; exact ht
    rw [lt_of_ty_ne ht, lt_of_ty_ne ht', lt_of_ty_ne (Ne.symm ht), lt_of_ty_ne (Ne.symm ht'), ty_eq_of_slot h]
    exact ⟨rfl, rfl⟩

/-! ## Invariant -/

/-- `a` is the last action of its slot in `s`. -/
def LastOf (s : List Action) (a : Action) : Prop := ∃ l r, s = l ++ a :: r ∧ ∀ b ∈ r, b.toType ≠ a.toType

theorem lastOf_concat {s : List Action} {a b : Action} :
    LastOf (s ++ [a]) b ↔ b = a ∨ (b.toType ≠ a.toType ∧ LastOf s b) := by
  constructor
  · rintro ⟨l, r, h, hr⟩
    rcases List.eq_nil_or_concat r with rfl | ⟨r', c, rfl⟩
    · left
      have := List.append_inj' h rfl
      simpa using this.2.symm
    · right
      rw [List.concat_eq_append] at h hr
      have h' : s ++ [a] = (l ++ b :: r') ++ [c] := by simpa using h
      have := List.append_inj' h' rfl
      have hc : a = c := by simpa using this.2
      subst hc
      refine ⟨fun hh => hr a (by simp) hh.symm, l, r', this.1, fun x hx => hr x (by simp [hx])⟩
  · rintro (rfl | ⟨hne, l, r, rfl, hr⟩)
    · exact ⟨s, [], by simp, by simp⟩
    · refine ⟨l, r ++ [a], by simp, fun x hx => ?_⟩
      rcases List.mem_append.1 hx with hx | hx
      · exact hr x hx
      · simp at hx; subst hx; exact fun h => hne h.symm

theorem LastOf.mem {s : List Action} {a : Action} (h : LastOf s a) : a ∈ s := by
  obtain ⟨l, r, rfl, _⟩ := h; simp

theorem exists_lastOf {s : List Action} {a : Action} (h : a ∈ s) : ∃ b, LastOf s b ∧ b.toType = a.toType := by
  rw [← List.reverse_reverse s] at *
  generalize s.reverse = r at *
  induction r with
  | nil => simp at h
  | cons c r ih =>
    rw [List.reverse_cons] at *
    by_cases hc : c.toType = a.toType
    · exact ⟨c, lastOf_concat.2 (.inl rfl), hc⟩
    · rcases List.mem_append.1 h with h | h
      · obtain ⟨b, hb, hs⟩ := ih h
        exact ⟨b, lastOf_concat.2 (.inr ⟨fun hh => hc (hh ▸ hs), hb⟩), hs⟩
      · simp at h; exact absurd (by rw [h]) hc

theorem setScan_ret {a : Action} {xs : List Action} (h : setScan a xs = .ret) : a.isOutput = true ∧ ∃ x ∈ xs, x.isGroup = true := by
  induction xs with
  | nil => cases h
  | cons x xs ih =>
    unfold setScan at h
    split at h
    · cases h
    split at h
    · obtain ⟨h1, y, hy, h2⟩ := ih h; exact ⟨h1, y, List.mem_cons_of_mem _ hy, h2⟩
    split at h
    · cases h
    split at h
    · rename_i hc
      simp only [Bool.and_eq_true] at hc
      exact ⟨hc.1, x, List.mem_cons_self, hc.2⟩
    · obtain ⟨h1, y, hy, h2⟩ := ih h; exact ⟨h1, y, List.mem_cons_of_mem _ hy, h2⟩

theorem setScan_rem {a x : Action} {xs : List Action} (h : setScan a xs = .rem x) :
    x ∈ xs ∧ (x.toType = a.toType ∨ (a.isGroup = true ∧ x.isOutput = true)) := by
  induction xs with
  | nil => cases h
  | cons y xs ih =>
    unfold setScan at h
    split at h
    · rename_i hc
      injection h with h; subst h
      exact ⟨List.mem_cons_self, .inl (sameSlot_iff.1 hc).symm⟩
    split at h
    · obtain ⟨h1, h2⟩ := ih h; exact ⟨List.mem_cons_of_mem _ h1, h2⟩
    split at h
    · rename_i hc
      simp only [Bool.and_eq_true] at hc
      injection h with h; subst h
      exact ⟨List.mem_cons_self, .inr hc⟩
    split at h
    · cases h
    · obtain ⟨h1, h2⟩ := ih h; exact ⟨List.mem_cons_of_mem _ h1, h2⟩

theorem setScan_none {a : Action} {xs : List Action} (h : setScan a xs = .none) : ∀ x ∈ xs, x.toType ≠ a.toType ∧
    ¬ (a.isGroup = true ∧ x.isOutput = true) ∧ ¬ (a.isOutput = true ∧ x.isGroup = true) := by
  induction xs with
  | nil => simp
  | cons y xs ih =>
    unfold setScan at h
    split at h
    · cases h
    rename_i hs
    have hs' : y.toType ≠ a.toType := fun hh => hs (sameSlot_iff.2 hh.symm)
    split at h
    · rename_i hty
      intro x hx
      rcases List.mem_cons.1 hx with rfl | hx
      · refine ⟨hs', ?_, ?_⟩
        · rintro ⟨h1, h2⟩; cases a <;> cases x <;> simp_all [Action.isGroup, Action.isOutput, Action.ty]
        · rintro ⟨h1, h2⟩; cases a <;> cases x <;> simp_all [Action.isGroup, Action.isOutput, Action.ty]
      · exact ih h x hx
    split at h
    · cases h
    rename_i h1
    split at h
    · cases h
    rename_i h2
    intro x hx
    rcases List.mem_cons.1 hx with rfl | hx
    · exact ⟨hs', by simpa using h1, by simpa using h2⟩
    · exact ih h x hx

/-- The invariant of an action set with history `s`. -/
structure SetInv (s : List Action) (l : ActionList) : Prop where
  levels : l.levels = levelsOf dependsB Action.lt l.orig
  slots : l.orig.Pairwise fun a b => a.toType ≠ b.toType
  sorted : l.orig.Pairwise fun a b => a.ty ≤ b.ty
  content : ∀ a, a ∈ l.orig ↔ LastOf s a ∧ (a.isOutput = true → ∀ g ∈ s, g.isGroup = false)

theorem SetInv.iter_perm {s : List Action} {l : ActionList} (h : SetInv s l) : l.iter.Perm l.orig := by
  unfold ActionList.iter
  rw [h.levels]
  exact (levelsOf_flatten l.orig).perm.symm

theorem SetInv.nodup {s : List Action} {l : ActionList} (h : SetInv s l) : l.orig.Nodup :=
  h.slots.imp fun hab hh => hab (by rw [hh])

theorem group_slot {a b : Action} (h : a.toType = b.toType) : a.isGroup = b.isGroup ∧ a.isOutput = b.isOutput := by
  cases a <;> cases b <;> simp_all [Action.isGroup, Action.isOutput, Action.toType, Action.ty]

theorem slot_of_output {a b : Action} (ha : a.isOutput = true) (hb : b.isOutput = true) : a.toType = b.toType := by
  cases a <;> cases b <;> simp_all [Action.isOutput, Action.toType, Action.ty]

theorem slot_of_group {a b : Action} (ha : a.isGroup = true) (hb : b.isGroup = true) : a.toType = b.toType := by
  cases a <;> cases b <;> simp_all [Action.isGroup, Action.toType, Action.ty]

/-- A group in the history is in the set. -/
theorem SetInv.group {s : List Action} {l : ActionList} (h : SetInv s l) {g : Action} (hg : g ∈ s) (hgg : g.isGroup = true) :
    ∃ x ∈ l.orig, x.isGroup = true := by
  obtain ⟨b, hb, hs⟩ := exists_lastOf hg
  have hbg : b.isGroup = true := by rw [(group_slot hs).1, hgg]
  refine ⟨b, (h.content b).2 ⟨hb, fun ho => ?_⟩, hbg⟩
  cases b <;> simp_all [Action.isGroup, Action.isOutput]

theorem sortByType_perm (l : List Action) : (sortByType l).Perm l := by
  have : ∀ (l acc : List Action), (l.foldl (fun acc x => insort (fun a b => decide (a.ty < b.ty)) x acc) acc).Perm (acc ++ l) := by
    intro l
    induction l with
    | nil => intro acc; simp
    | cons x l ih =>
      intro acc
      refine (ih _).trans ?_
      exact ((insort_perm x acc).append_right l).trans (by simpa using (List.perm_middle (l₁ := acc) (l₂ := l) (a := x)).symm)
  simpa [sortByType] using this l []

theorem insort_ty_sorted (x : Action) {l : List Action} (h : l.Pairwise fun a b => a.ty ≤ b.ty) :
    (insort (fun a b => decide (a.ty < b.ty)) x l).Pairwise fun a b => a.ty ≤ b.ty := by
  induction l with
  | nil => simp [insort]
  | cons y ys ih =>
    have hy := List.pairwise_cons.1 h
    unfold insort
    split
    · rename_i hlt
      simp only [decide_eq_true_eq] at hlt
      refine List.pairwise_cons.2 ⟨?_, h⟩
      intro z hz
      rcases List.mem_cons.1 hz with rfl | hz
      · omega
      · have := hy.1 z hz; omega
    · rename_i hlt
      simp only [decide_eq_true_eq] at hlt
      refine List.pairwise_cons.2 ⟨?_, ih hy.2⟩
      intro z hz
      rcases mem_insort.1 hz with rfl | hz
      · omega
      · exact hy.1 z hz

theorem sortByType_sorted (l : List Action) : (sortByType l).Pairwise fun a b => a.ty ≤ b.ty := by
  have : ∀ (l acc : List Action), acc.Pairwise (fun a b => a.ty ≤ b.ty) →
      (l.foldl (fun acc x => insort (fun a b => decide (a.ty < b.ty)) x acc) acc).Pairwise fun a b => a.ty ≤ b.ty := by
    intro l
    induction l with
    | nil => exact fun _ h => h
    | cons x l ih => exact fun acc h => ih _ (insort_ty_sorted x h)
  exact this l [] .nil

theorem foldlM_lvAppend_ok (s : List Action) (ls ls' : List (List Action)) (h : s.foldlM ActionList._append ls = .ok ls') :
    ls' = s.foldl (appendLv dependsB Action.lt) ls := by
  induction s generalizing ls with
  | nil => injection h with h; exact h.symm
  | cons a s ih =>
    rw [List.foldlM_cons] at h
    cases h1 : ActionList._append ls a with
    | error e => rw [h1] at h; cases h
    | ok m =>
      rw [h1] at h
      rw [ih m h, _append_ok h1]; rfl

theorem pairwise_map_subst {R : Action → Action → Prop} {rem item : Action} {l : List Action} (h : l.Pairwise R)
    (h1 : ∀ y ∈ l, y ≠ rem → R rem y → R item y) (h2 : ∀ y ∈ l, y ≠ rem → R y rem → R y item) (hn : l.Nodup) :
    (l.map (subst1 rem item)).Pairwise R := by
  rw [List.pairwise_map]
  have hn' := List.Pairwise.and h hn
  refine List.Pairwise.imp_of_mem ?_ hn'
  intro a b ha hb ⟨hab, hne⟩
  unfold subst1
  by_cases h3 : a = rem
  · subst h3
    rw [if_pos rfl, if_neg (fun h => hne h.symm)]
    exact h1 b hb (fun h => hne h.symm) hab
  · rw [if_neg h3]
    by_cases h4 : b = rem
    · subst h4; rw [if_pos rfl]; exact h2 a ha h3 hab
    · rw [if_neg h4]; exact hab

theorem mem_map_subst {rem item b : Action} {l : List Action} (hr : rem ∈ l) :
    b ∈ l.map (subst1 rem item) ↔ b = item ∨ (b ∈ l ∧ b ≠ rem) := by
  simp only [List.mem_map, subst1]
  constructor
  · rintro ⟨y, hy, rfl⟩
    by_cases h : y = rem
    · simp [h]
    · simp [h, hy]
  · rintro (rfl | ⟨hb, hne⟩)
    · exact ⟨rem, hr, by simp⟩
    · exact ⟨b, hb, by simp [hne]⟩

theorem actionDeps_group_output {a x : Action} (ha : a.isGroup = true) (hx : x.isOutput = true) (y : Action) :
    dependsB x y = dependsB a y := by
  have h1 : ∃ g, a = .group g := by cases a <;> simp_all [Action.isGroup]
  have h2 : ∃ n, x = .output n := by cases x <;> simp_all [Action.isOutput]
  obtain ⟨g, rfl⟩ := h1
  obtain ⟨n, rfl⟩ := h2
  have h3 : dependsB (.output n) y = dependsB (.output 0) y := dependsB_slot rfl
  have h4 : dependsB (.group g) y = dependsB (.group 0) y := dependsB_slot rfl
  rw [h3, h4]
  have key : ∀ y : TypeKey, ∀ d, actionDeps y = some d → d.contains (.t 15) = d.contains (.t 14) := by
    intro y d h
    revert h
    unfold actionDeps
    split <;> intro h <;> first
      | (injection h with h; subst h; decide)
      | cases h
      | (split at h <;> [(injection h with h; subst h; simp); cases h])
  unfold dependsB depends
  have e1 : actionDeps (Action.output 0).toType = actionDeps (Action.group 0).toType := rfl
  rw [e1]
  cases h5 : actionDeps (Action.group 0).toType with
  | none => rfl
  | some d1 =>
    cases h6 : actionDeps y.toType with
    | none => rfl
    | some d2 =>
      simp only
      have := key _ _ h6
      simp only [show (Action.output 0).toType = .t 15 from rfl, show (Action.group 0).toType = .t 14 from rfl, this]
      rfl

theorem output_indep {x y : Action} (hx : x.isOutput = true) (hk : y.known = true) (h : dependsB y x = false) :
    y.isOutput = true ∨ y.isGroup = true := by
  have h2 : ∃ n, x = .output n := by cases x <;> simp_all [Action.isOutput]
  obtain ⟨n, rfl⟩ := h2
  cases y with
  | setField f v =>
    exfalso
    rw [dependsB_symm] at h
    have : depends (.output n) (.setField f v) = .ok true := by
      have hs := actionDeps_isSome (.setField f v)
      rw [hk] at hs
      obtain ⟨d, hd⟩ := Option.isSome_iff_exists.1 hs
      unfold depends
      rw [hd]
      rfl
    simp [dependsB, this] at h
  | output m => exact .inl rfl
  | group g => exact .inr rfl
  | _ => exfalso; revert h; simp [dependsB, depends, Action.toType, Action.ty, actionDeps, setAll, List.range, List.range.loop]

theorem slot_inj {l : List Action} (h : l.Pairwise fun a b => a.toType ≠ b.toType) {x y : Action} (hx : x ∈ l) (hy : y ∈ l)
    (hxy : x.toType = y.toType) : x = y := by
  induction l with
  | nil => simp at hx
  | cons a l ih =>
    have h' := List.pairwise_cons.1 h
    rcases List.mem_cons.1 hx with hx1 | hx1
    · rcases List.mem_cons.1 hy with hy1 | hy1
      · rw [hx1, hy1]
      · exact absurd hxy (hx1 ▸ h'.1 y hy1)
    · rcases List.mem_cons.1 hy with hy1 | hy1
      · exact absurd hxy.symm (hy1 ▸ h'.1 x hx1)
      · exact ih h'.2 hx1 hy1

theorem setInv_append {s : List Action} {l : ActionList} (h : SetInv s l) (hs : AllKnown s) (a : Action) (ha : a.known = true) :
    ∃ l', actionSetAppend l a = .ok l' ∧ SetInv (s ++ [a]) l' := by
  have hperm := h.iter_perm
  have hmem : ∀ x, x ∈ l.iter ↔ x ∈ l.orig := fun x => hperm.mem_iff
  have hnd := h.nodup
  have hmems : ∀ x ∈ l.orig, x ∈ s := fun x hx => ((h.content x).1 hx).1.mem
  have hslot : ∀ x ∈ l.orig, ∀ y ∈ l.orig, x.toType = y.toType → x = y := by
    intro x hx y hy hxy
    exact slot_inj h.slots hx hy hxy
  unfold actionSetAppend
  cases hscan : setScan a l.iter with
  | ret =>
    obtain ⟨hao, g, hg, hgg⟩ := setScan_ret hscan
    rw [hmem] at hg
    refine ⟨l, rfl, h.levels, h.slots, h.sorted, fun b => ?_⟩
    rw [h.content, lastOf_concat]
    by_cases hb : b.isOutput = true
    · constructor
      · rintro ⟨_, h2⟩
        have := h2 hb g (hmems g hg); rw [hgg] at this; cases this
      · rintro ⟨_, h2⟩
        have := h2 hb g (List.mem_append_left _ (hmems g hg)); rw [hgg] at this; cases this
    · have hne : b.toType ≠ a.toType := fun hh => hb (by rw [(group_slot hh).2, hao])
      have hne' : b ≠ a := fun hh => hne (by rw [hh])
      simp [hb, hne, hne']
  | rem x =>
    obtain ⟨hx, hcase⟩ := setScan_rem hscan
    rw [hmem] at hx
    have hfl : l.levels.flatten.Nodup := (hperm.nodup_iff).2 hnd
    refine ⟨_, rfl, ?_⟩
    rw [replaceLevels_eq_map hfl, replaceFirst_eq_map hnd]
    have hdep : ∀ y, dependsB x y = dependsB a y := by
      rcases hcase with hc | ⟨hc1, hc2⟩
      · exact fun y => dependsB_slot hc
      · exact actionDeps_group_output hc1 hc2
    have hnogrp : x.isOutput = true → ∀ g ∈ s, g.isGroup = false := ((h.content x).1 hx).2
    have hty : ∀ y ∈ l.orig, y ≠ x → (x.ty ≤ y.ty → a.ty ≤ y.ty) ∧ (y.ty ≤ x.ty → y.ty ≤ a.ty) := by
      intro y hy hne
      rcases hcase with hc | ⟨hc1, hc2⟩
      · rw [ty_eq_of_slot hc]; exact ⟨id, id⟩
      · have h1 : a.ty = 14 := by cases a <;> simp_all [Action.isGroup, Action.ty]
        have h2 : x.ty = 15 := by cases x <;> simp_all [Action.isOutput, Action.ty]
        have h3 : y.ty ≠ 15 := by
          intro h3
          have : y.isOutput = true := by cases y <;> simp_all [Action.isOutput, Action.ty]
          exact hne (hslot y hy x hx (slot_of_output this hc2))
        have := ty_lt y
        omega
    have hnewslot : ∀ y ∈ l.orig, y ≠ x → y.toType ≠ a.toType := by
      intro y hy hne hh
      rcases hcase with hc | ⟨hc1, hc2⟩
      · exact hne (hslot y hy x hx (hh.trans hc.symm))
      · have hyg : y.isGroup = true := by rw [(group_slot hh).1, hc1]
        have := hnogrp hc2 y (hmems y hy); rw [hyg] at this; cases this
    refine ⟨?_, ?_, ?_, ?_⟩
    · show _ = levelsOf dependsB Action.lt (l.orig.map (subst1 x a))
      rw [levelsOf_map (subst1 x a) l.orig hnd, h.levels]
      · intro y hy z hz hne
        unfold subst1
        by_cases h1 : y = x
        · subst h1
          rw [if_pos rfl, if_neg (fun h => hne h.symm), hdep]
        · rw [if_neg h1]
          by_cases h2 : z = x
          · subst h2; rw [if_pos rfl, dependsB_symm, ← hdep, dependsB_symm]
          · rw [if_neg h2]
      · intro y hy z hz hne hd
        have key : ∀ w ∈ l.orig, w ≠ x → dependsB w x = false → Action.lt a w = Action.lt x w ∧ Action.lt w a = Action.lt w x := by
          intro w hw hne hdw
          rcases hcase with hc | ⟨hc1, hc2⟩
          · have := lt_slot hc (x := w) (fun hh => hne (hslot w hw x hx hh.symm))
            exact ⟨this.1.symm, this.2.symm⟩
          · exfalso
            rcases output_indep hc2 (hs w (hmems w hw)) hdw with h1 | h1
            · exact hne (hslot w hw x hx (slot_of_output h1 hc2))
            · have := hnogrp hc2 w (hmems w hw); rw [h1] at this; cases this
        unfold subst1
        by_cases h1 : y = x
        · subst h1
          rw [if_pos rfl, if_neg (fun h => hne h.symm)]
          exact (key z hz (fun h => hne h.symm) (by rw [dependsB_symm]; exact hd)).2
        · rw [if_neg h1]
          by_cases h2 : z = x
          · subst h2; rw [if_pos rfl]; exact (key y hy h1 hd).1
          · rw [if_neg h2]
    · exact pairwise_map_subst h.slots (fun y hy hne _ => fun hh => hnewslot y hy hne hh.symm) (fun y hy hne _ => hnewslot y hy hne) hnd
    · exact pairwise_map_subst h.sorted (fun y hy hne => (hty y hy hne).1) (fun y hy hne => (hty y hy hne).2) hnd
    · intro b
      show b ∈ l.orig.map (subst1 x a) ↔ _
      rw [mem_map_subst hx, lastOf_concat]
      constructor
      · rintro (rfl | ⟨hb, hne⟩)
        · refine ⟨.inl rfl, fun ho g hg => ?_⟩
          have hxo : x.isOutput = true := by
            rcases hcase with hc | ⟨hc1, hc2⟩
            · rw [(group_slot hc).2, ho]
            · exact hc2
          rcases List.mem_append.1 hg with hg | hg
          · exact hnogrp hxo g hg
          · simp at hg; subst hg; cases g <;> simp_all [Action.isGroup, Action.isOutput]
        · have hc := (h.content b).1 hb
          refine ⟨.inr ⟨hnewslot b hb hne, hc.1⟩, fun ho g hg => ?_⟩
          rcases List.mem_append.1 hg with hg | hg
          · exact hc.2 ho g hg
          · simp at hg; subst hg
            rcases hcase with hc' | ⟨hc1, hc2⟩
            · rw [← (group_slot hc').1]; exact hc.2 ho x (hmems x hx)
            · exact absurd (hslot b hb x hx (slot_of_output ho hc2)) hne
      · rintro ⟨rfl | ⟨hne, hl⟩, hg⟩
        · exact .inl rfl
        · right
          have hb : b ∈ l.orig := (h.content b).2 ⟨hl, fun ho g hgs => hg ho g (List.mem_append_left _ hgs)⟩
          refine ⟨hb, ?_⟩
          rintro rfl
          rcases hcase with hc | ⟨hc1, hc2⟩
          · exact hne hc
          · have := hg hc2 a (by simp); rw [hc1] at this; cases this
  | none =>
    have hno := setScan_none hscan
    have hno' : ∀ x ∈ l.orig, _ := fun x hx => hno x ((hmem x).2 hx)
    have hp : (sortByType (l.orig ++ [a])).Perm (a :: l.orig) := (sortByType_perm _).trans (by simp)
    have hk : AllKnown (sortByType (l.orig ++ [a])) := by
      intro x hx
      rcases List.mem_cons.1 (hp.mem_iff.1 hx) with rfl | hx
      · exact ha
      · exact hs x (hmems x hx)
    have hrun := foldlM_lvAppend_known _ hk [] (by simp [AllKnown])
    simp only [hrun]
    refine ⟨_, rfl, rfl, ?_, sortByType_sorted _, ?_⟩
    · refine (List.Perm.pairwise_iff (fun {a b} hab hh => hab hh.symm) hp).2 ?_
      exact List.pairwise_cons.2 ⟨fun x hx hh => (hno' x hx).1 hh.symm, h.slots⟩
    · intro b
      show b ∈ sortByType (l.orig ++ [a]) ↔ _
      rw [hp.mem_iff, List.mem_cons, lastOf_concat]
      constructor
      · rintro (rfl | hb)
        · refine ⟨.inl rfl, fun ho g hg => ?_⟩
          rcases List.mem_append.1 hg with hg | hg
          · cases hgg : g.isGroup with
            | false => rfl
            | true =>
              obtain ⟨y, hy, hyg⟩ := h.group hg hgg
              exact absurd ⟨ho, hyg⟩ (hno' y hy).2.2
          · simp at hg; subst hg; cases g <;> simp_all [Action.isGroup, Action.isOutput]
        · have hc := (h.content b).1 hb
          refine ⟨.inr ⟨(hno' b hb).1, hc.1⟩, fun ho g hg => ?_⟩
          rcases List.mem_append.1 hg with hg | hg
          · exact hc.2 ho g hg
          · simp at hg; subst hg
            cases hgg : g.isGroup with
            | false => rfl
            | true => exact absurd ⟨hgg, ho⟩ (hno' b hb).2.1
      · rintro ⟨rfl | ⟨hne, hl⟩, hg⟩
        · exact .inl rfl
        · exact .inr ((h.content b).2 ⟨hl, fun ho g hgs => hg ho g (List.mem_append_left _ hgs)⟩)

theorem setInv_ofList : ∀ (t s : List Action) (l : ActionList), SetInv s l → AllKnown (s ++ t) →
    ∃ l', t.foldlM actionSetAppend l = .ok l' ∧ SetInv (s ++ t) l'
  | [], s, l, h, _ => ⟨l, rfl, by simpa using h⟩
  | a :: t, s, l, h, hk => by
    obtain ⟨l1, h1, h2⟩ := setInv_append h (fun x hx => hk x (List.mem_append_left _ hx)) a (hk a (by simp))
    obtain ⟨l', h3, h4⟩ := setInv_ofList t (s ++ [a]) l1 h2 (by simpa using hk)
    refine ⟨l', ?_, by simpa using h4⟩
    rw [List.foldlM_cons, h1]; exact h3

theorem setInv_empty : SetInv [] ActionList.empty := by
  refine ⟨rfl, .nil, .nil, fun a => ?_⟩
  constructor
  · intro h; simp [ActionList.empty] at h
  · rintro ⟨h, _⟩; simpa using h.mem

end OFE
