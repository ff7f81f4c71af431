import Verif.Actions.Lemmas

/-! # Level structures that are their own normal form; removal -/

namespace OFE
variable {α : Type} {dep lt : α → α → Bool}

theorem _append_ok {ls ls' : List (List Action)} {i : Action} (h : ActionList._append ls i = .ok ls') :
    ls' = appendLv dependsB Action.lt ls i := by
  unfold ActionList._append at h
  split at h
  · cases h
  · injection h with h; exact h.symm

theorem foldlM_append_ok (s : List Action) (l l' : ActionList) (h : s.foldlM ActionList.append l = .ok l') :
    l' = ⟨s.foldl (appendLv dependsB Action.lt) l.levels, l.orig ++ s⟩ := by
  induction s generalizing l with
  | nil =>
    simp only [List.foldlM_nil] at h
    injection h with h; subst h; simp
  | cons a s ih =>
    rw [List.foldlM_cons] at h
    cases h1 : ActionList.append l a with
    | error e => rw [h1] at h; cases h
    | ok m =>
      rw [h1] at h
      have h2 := ih m h
      unfold ActionList.append at h1
      cases h3 : ActionList._append l.levels a with
      | error e => rw [h3] at h1; cases h1
      | ok lv =>
        rw [h3] at h1
        injection h1 with h1
        subst h1
        rw [h2, _append_ok h3]; simp

/-- Whatever is built from a sequence is the level structure of that sequence. -/
theorem ofList_ok {s : List Action} {l : ActionList} (h : ActionList.ofList s = .ok l) : l = mkList s := by
  have := foldlM_append_ok s _ _ h
  rw [this]; simp [mkList, levelsOf, ActionList.empty]

theorem putLevel_ne_nil {α : Type} {lt : α → α → Bool} (i : α) (k : Nat) (ls : List (List α)) : (putLevel lt i k ls).flatten ≠ [] := by
  intro h
  have : i ∈ (putLevel lt i k ls).flatten := mem_putLevel.2 (.inl rfl)
  rw [h] at this; simp at this

/-- A list that could be built has only known actions, or is a single action. -/
theorem ofList_ok_known {s : List Action} {l : ActionList} (h : ActionList.ofList s = .ok l) : AllKnown s ∨ ∃ a, s = [a] := by
  have key : ∀ (s : List Action) (l m : ActionList), s.foldlM ActionList.append l = .ok m → l.levels.flatten ≠ [] →
      ∀ a ∈ s, a.known = true := by
    intro s
    induction s with
    | nil => simp
    | cons a s ih =>
      intro l m h hne b hb
      rw [List.foldlM_cons] at h
      cases ha : a.known with
      | false =>
        unfold ActionList.append at h
        rw [_append_unknown hne ha] at h; cases h
      | true =>
        cases h1 : ActionList.append l a with
        | error e => rw [h1] at h; cases h
        | ok l' =>
          rw [h1] at h
          rcases List.mem_cons.1 hb with rfl | hb
          · exact ha
          refine ih l' m h ?_ b hb
          have := foldlM_append_ok [a] l l' (by simp [h1])
          rw [this]
          simp only [List.foldl_cons, List.foldl_nil, appendLv_eq]
          exact putLevel_ne_nil _ _ _
  cases s with
  | nil => left; simp [AllKnown]
  | cons a s =>
    cases s with
    | nil => exact .inr ⟨a, rfl⟩
    | cons b s =>
      left
      have h0 : ActionList.append ActionList.empty a = .ok ⟨[[a]], [a]⟩ := rfl
      unfold ActionList.ofList at h
      rw [List.foldlM_cons, h0] at h
      have hrest := key (b :: s) _ _ h (by simp)
      intro x hx
      rcases List.mem_cons.1 hx with rfl | hx
      · have hb := hrest b List.mem_cons_self
        cases hk : x.known with
        | true => rfl
        | false =>
          have : ActionList.append ⟨[[x]], [x]⟩ b = .error .keyError := by
            unfold ActionList.append ActionList._append
            rw [if_pos]
            · rfl
            · simp [depends_unknown (.inl hk)]
          change (List.foldlM ActionList.append ⟨[[x]], [x]⟩ (b :: s)) = _ at h
          rw [List.foldlM_cons, this] at h; cases h
      · exact hrest x hx

/-- Every item of a level depends on some item of the previous level. -/
def Chained (dep : α → α → Bool) : List (List α) → Prop
  | v :: w :: rest => (∀ x ∈ w, ∃ y ∈ v, dep y x = true) ∧ Chained dep (w :: rest)
  | _ => True

/-- Level structure in normal form. -/
structure Foata (dep lt : α → α → Bool) (ls : List (List α)) : Prop where
  sorted : LvSorted lt ls
  indep : ∀ v ∈ ls, v.Pairwise fun a b => dep a b = false
  nonempty : ∀ v ∈ ls, v ≠ []
  chained : Chained dep ls

theorem chained_tail {v : List α} {ls : List (List α)} (h : Chained dep (v :: ls)) : Chained dep ls := by
  cases ls with
  | nil => trivial
  | cons w rest => exact h.2

theorem chained_take {ls : List (List α)} (h : Chained dep ls) (k : Nat) : Chained dep (ls.take k) := by
  induction ls generalizing k with
  | nil => simp [Chained]
  | cons v rest ih =>
    cases k with
    | zero => simp [Chained]
    | succ k =>
      cases rest with
      | nil => simp [Chained]
      | cons w rest =>
        cases k with
        | zero => simp [Chained]
        | succ k => exact ⟨h.1, ih h.2 (k + 1)⟩

theorem Foata.take {ls : List (List α)} (h : Foata dep lt ls) (k : Nat) : Foata dep lt (ls.take k) :=
  ⟨fun v hv => h.sorted v (List.mem_of_mem_take hv), fun v hv => h.indep v (List.mem_of_mem_take hv),
    fun v hv => h.nonempty v (List.mem_of_mem_take hv), chained_take h.chained k⟩

theorem Foata.tail {v : List α} {ls : List (List α)} (h : Foata dep lt (v :: ls)) : Foata dep lt ls :=
  ⟨fun w hw => h.sorted w (List.mem_cons_of_mem _ hw), fun w hw => h.indep w (List.mem_cons_of_mem _ hw),
    fun w hw => h.nonempty w (List.mem_cons_of_mem _ hw), chained_tail h.chained⟩

theorem insort_pairwise_indep (hs : ∀ a b, dep a b = dep b a) {i : α} {v : List α} (h : v.Pairwise fun a b => dep a b = false)
    (hi : ∀ x ∈ v, dep x i = false) : (insort lt i v).Pairwise fun a b => dep a b = false := by
  refine (List.Perm.pairwise_iff (fun {a b} h => by rw [hs, h]) (insort_perm i v)).2 ?_
  exact List.pairwise_cons.2 ⟨fun x hx => by rw [hs]; exact hi x hx, h⟩

/-- Putting `i` at its level keeps the normal form; `pre` is the level before (its items witness the chain). -/
theorem foata_putLevel (ho : StrictTotal lt) (hs : ∀ a b, dep a b = dep b a) (i : α) {ls : List (List α)}
    (h : Foata dep lt ls) : Foata dep lt (putLevel lt i (lvl dep i ls) ls) := by
  induction ls with
  | nil => exact ⟨by simp [putLevel, LvSorted, SortedBy], by simp [putLevel], by simp [putLevel], by simp [putLevel, Chained]⟩
  | cons v rest ih =>
    have hsort := putLevel_sorted ho i (lvl dep i (v :: rest)) h.sorted
    by_cases h0 : lvl dep i rest = 0
    · by_cases h1 : (v.any fun x => dep x i) = true
      · have hl : lvl dep i (v :: rest) = 1 := by simp [lvl, h0, h1]
        rw [hl] at hsort ⊢
        have iht := ih h.tail
        rw [h0] at iht
        obtain ⟨y, hy, hyi⟩ := List.any_eq_true.1 h1
        refine ⟨hsort, ?_, ?_, ?_⟩
        · intro w hw
          rcases List.mem_cons.1 hw with rfl | hw
          · exact h.indep w List.mem_cons_self
          · exact iht.indep w hw
        · intro w hw
          rcases List.mem_cons.1 hw with rfl | hw
          · exact h.nonempty w List.mem_cons_self
          · exact iht.nonempty w hw
        · cases rest with
          | nil => exact ⟨fun x hx => by simp at hx; subst hx; exact ⟨y, hy, hyi⟩, trivial⟩
          | cons w rest =>
            refine ⟨?_, iht.chained⟩
            intro x hx
            rcases mem_insort.1 hx with rfl | hx
            · exact ⟨y, hy, hyi⟩
            · exact h.chained.1 x hx
      · have hl : lvl dep i (v :: rest) = 0 := by simp [lvl, h0, h1]
        rw [hl] at hsort ⊢
        have hz := lvl_zero hl
        refine ⟨hsort, ?_, ?_, ?_⟩
        · intro w hw
          rcases List.mem_cons.1 hw with rfl | hw
          · exact insort_pairwise_indep hs (h.indep v List.mem_cons_self) fun x hx => hz x (by simp [hx])
          · exact h.indep w (List.mem_cons_of_mem _ hw)
        · intro w hw
          rcases List.mem_cons.1 hw with rfl | hw
          · intro hnil
            have : i ∈ insort lt i v := mem_insort.2 (.inl rfl)
            rw [hnil] at this; simp at this
          · exact h.nonempty w (List.mem_cons_of_mem _ hw)
        · cases rest with
          | nil => trivial
          | cons w rest =>
            refine ⟨fun x hx => ?_, h.chained.2⟩
            obtain ⟨y, hy, hyx⟩ := h.chained.1 x hx
            exact ⟨y, mem_insort.2 (.inr hy), hyx⟩
    · have hl : lvl dep i (v :: rest) = lvl dep i rest + 1 := by simp [lvl, h0]
      rw [hl] at hsort ⊢
      have iht := ih h.tail
      refine ⟨hsort, ?_, ?_, ?_⟩
      · intro w hw
        rcases List.mem_cons.1 hw with rfl | hw
        · exact h.indep w List.mem_cons_self
        · exact iht.indep w hw
      · intro w hw
        rcases List.mem_cons.1 hw with rfl | hw
        · exact h.nonempty w List.mem_cons_self
        · exact iht.nonempty w hw
      · cases rest with
        | nil => simp [lvl] at h0
        | cons w rest =>
          obtain ⟨k, hk⟩ := Nat.exists_eq_succ_of_ne_zero h0
          have hch := iht.chained
          rw [hk] at hch ⊢
          exact ⟨h.chained.1, hch⟩

theorem foata_levelsOf (ho : StrictTotal lt) (hs : ∀ a b, dep a b = dep b a) (s : List α) : Foata dep lt (levelsOf dep lt s) := by
  have : ∀ (s : List α) (ls : List (List α)), Foata dep lt ls → Foata dep lt (s.foldl (appendLv dep lt) ls) := by
    intro s
    induction s with
    | nil => exact fun _ h => h
    | cons a s ih => intro ls h; rw [List.foldl_cons]; apply ih; rw [appendLv_eq]; exact foata_putLevel ho hs a h
  exact this s [] ⟨by simp [LvSorted], by simp, by simp, trivial⟩

theorem lvl_append_level (i : α) (ls : List (List α)) (v : List α) :
    lvl dep i (ls ++ [v]) = if v.any (fun x => dep x i) then ls.length + 1 else lvl dep i ls := by
  induction ls with
  | nil => simp only [List.nil_append, lvl, List.length_nil]; simp
  | cons w rest ih =>
    simp only [List.cons_append, lvl, ih, List.length_cons]
    by_cases h : (v.any fun x => dep x i) = true
    · simp [h]
    · simp [h]

theorem putLevel_last (i : α) (ls : List (List α)) (v : List α) :
    putLevel lt i ls.length (ls ++ [v]) = ls ++ [insort lt i v] := by
  induction ls with
  | nil => rfl
  | cons w rest ih => simp only [List.length_cons, List.cons_append, putLevel, ih]

theorem putLevel_new (i : α) (ls : List (List α)) : putLevel lt i ls.length ls = ls ++ [[i]] := by
  induction ls with
  | nil => rfl
  | cons w rest ih => simp only [List.length_cons, List.cons_append, putLevel, ih]

/-- Appending the items of a further level one after the other rebuilds that level. -/
theorem foldl_level (hs : ∀ a b, dep a b = dep b a) (ls : List (List α)) (v : List α) (todo : List α)
    (hlv : ∀ x ∈ v ++ todo, lvl dep x ls = ls.length) (hind : (v ++ todo).Pairwise fun a b => dep a b = false) (hv : v ≠ []) :
    todo.foldl (appendLv dep lt) (ls ++ [v]) = ls ++ [todo.foldl (fun w x => insort lt x w) v] := by
  induction todo generalizing v with
  | nil => rfl
  | cons x todo ih =>
    simp only [List.foldl_cons]
    have hx : lvl dep x (ls ++ [v]) = ls.length := by
      rw [lvl_append_level, if_neg]
      · exact hlv x (by simp)
      · simp only [List.any_eq_true, not_exists, not_and, Bool.not_eq_true]
        intro y hy
        exact (List.pairwise_append.1 hind).2.2 y hy x List.mem_cons_self
    rw [appendLv_eq, hx, putLevel_last]
    have hp : (insort lt x v ++ todo).Perm (v ++ x :: todo) :=
      ((insort_perm x v).append_right todo).trans (by simpa using (List.perm_middle (l₁ := v) (l₂ := todo) (a := x)).symm)
    apply ih
    · intro y hy; exact hlv y (hp.mem_iff.1 hy)
    · exact (List.Perm.pairwise_iff (fun {a b} h => by rw [hs, h]) hp).2 hind
    · intro hnil
      have : x ∈ insort lt x v := mem_insort.2 (.inl rfl)
      rw [hnil] at this; simp at this

theorem foldl_insort_sorted (ho : StrictTotal lt) (v w : List α) (hv : SortedBy lt (v ++ w)) :
    w.foldl (fun u x => insort lt x u) v = v ++ w := by
  have h1 : ∀ (w v : List α), SortedBy lt v → SortedBy lt (w.foldl (fun u x => insort lt x u) v) ∧
      (w.foldl (fun u x => insort lt x u) v).Perm (v ++ w) := by
    intro w
    induction w with
    | nil => intro v hv; exact ⟨hv, by simp⟩
    | cons x w ih =>
      intro v hv
      have := ih (insort lt x v) (insort_sorted ho x hv)
      refine ⟨this.1, this.2.trans ?_⟩
      exact ((insort_perm x v).append_right w).trans
        (by simpa using (List.perm_middle (l₁ := v) (l₂ := w) (a := x)).symm)
  have := h1 w v (List.pairwise_append.1 hv).1
  exact sorted_unique ho this.2 this.1 hv

/-- Building from the items of a normal form in level order gives it back. -/
theorem foata_rebuild (ho : StrictTotal lt) (hs : ∀ a b, dep a b = dep b a) : ∀ (rest ls : List (List α)),
    Foata dep lt (ls ++ rest) → rest.flatten.foldl (appendLv dep lt) ls = ls ++ rest
  | [], ls, _ => by simp
  | v :: rest, ls, h => by
    have hvm : v ∈ ls ++ v :: rest := by simp
    have hne := h.nonempty v hvm
    have hind := h.indep v hvm
    have hsrt := h.sorted v hvm
    have hlv : ∀ x ∈ v, lvl dep x ls = ls.length := by
      intro x hx
      rcases List.eq_nil_or_concat ls with rfl | ⟨ls', w, rfl⟩
      · rfl
      · rw [List.concat_eq_append, lvl_append_level, if_pos]
        · simp
        · have hch := h.chained
          rw [List.concat_eq_append] at hch
          have : ∀ (ls' : List (List α)), Chained dep (ls' ++ [w] ++ v :: rest) → ∃ y ∈ w, dep y x = true := by
            intro ls'
            induction ls' with
            | nil => intro hc; exact hc.1 x hx
            | cons u us ih => intro hc; exact ih (chained_tail hc)
          obtain ⟨y, hy, hyx⟩ := this ls' hch
          exact List.any_eq_true.2 ⟨y, hy, hyx⟩
    obtain ⟨x, v', rfl⟩ := List.exists_cons_of_ne_nil hne
    rw [List.flatten_cons, List.foldl_append, List.foldl_cons]
    have hx : appendLv dep lt ls x = ls ++ [[x]] := by rw [appendLv_eq, hlv x List.mem_cons_self, putLevel_new]
    rw [hx, foldl_level hs ls [x] v' (by simpa using hlv) (by simpa using hind) (by simp),
      foldl_insort_sorted ho [x] v' (by simpa using hsrt)]
    have := foata_rebuild ho hs rest (ls ++ [x :: v']) (by simpa using h)
    simpa using this

theorem levelsOf_take (ho : StrictTotal lt) (hs : ∀ a b, dep a b = dep b a) (s : List α) (k : Nat) :
    levelsOf dep lt ((levelsOf dep lt s).take k).flatten = (levelsOf dep lt s).take k := by
  have := foata_rebuild ho hs ((levelsOf dep lt s).take k) [] (by simpa using (foata_levelsOf ho hs s).take k)
  simpa [levelsOf] using this

theorem removeScan_spec (x : Action) : ∀ (ls before : List (List Action)) (off : Nat) (r : List (List Action) × Nat),
    removeScan x before ls off = some r → ∃ k v, r = (before ++ ls.take k, off + (ls.take k).flatten.length) ∧
      ls[k]? = some v ∧ x ∈ v ∧ x ∉ (ls.take k).flatten
  | [], _, _, _, h => by simp [removeScan] at h
  | v :: ls, before, off, r, h => by
    unfold removeScan at h
    split at h
    · rename_i hx
      injection h with h
      exact ⟨0, v, by simp [← h], rfl, hx, by simp⟩
    · rename_i hx
      obtain ⟨k, w, h1, h2, h3, h4⟩ := removeScan_spec x ls _ _ r h
      exact ⟨k + 1, w, by rw [h1]; simp [Nat.add_assoc], by simpa using h2, h3, by
        simp only [List.take_succ_cons, List.flatten_cons, List.mem_append, not_or]; exact ⟨hx, h4⟩⟩

theorem removeScan_isSome (x : Action) : ∀ (ls before : List (List Action)) (off : Nat), x ∈ ls.flatten →
    (removeScan x before ls off).isSome = true
  | [], _, _, h => by simp at h
  | v :: ls, before, off, h => by
    unfold removeScan
    split
    · rfl
    · rename_i hx
      exact removeScan_isSome x ls _ _ (by simpa [hx] using h)

end OFE
