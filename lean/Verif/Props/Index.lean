import Verif.Actions.Index

/-! # C81: action lists are indexed as they are iterated -/

namespace OFE

/-- **C81** `l[x]` for every integer: from the front the item of the iteration at `x`, from the back the one `-x` before its end; `IndexError` exactly out of range. -/
theorem C81_getitem (l : ActionList) (x : Int) :
    l.getItem x =
      if 0 ≤ x then orIndexError l.iter[x.toNat]?
      else if (-x).toNat ≤ l.iter.length then orIndexError l.iter[l.iter.length - (-x).toNat]?
      else .error .indexError := by
  unfold ActionList.getItem ActionList.iter
  cases x with
  | ofNat k =>
    simp only [getPos_eq]
    exact (if_pos (c := 0 ≤ Int.ofNat k) (Int.natCast_nonneg k)).symm
  | negSucc k =>
    simp only []
    rw [getNeg_eq _ (by omega), if_neg (c := 0 ≤ Int.negSucc k) (by omega)]
    rfl

/-- **C81** The error is raised exactly for the indices out of range; all others give an item of the list. -/
theorem C81_range (l : ActionList) (x : Int) :
    (-(l.iter.length : Int) ≤ x ∧ x < l.iter.length → ∃ a ∈ l.iter, l.getItem x = .ok a) ∧
      (¬ (-(l.iter.length : Int) ≤ x ∧ x < l.iter.length) → l.getItem x = .error .indexError) := by
  rw [C81_getitem]
  constructor
  · intro ⟨h1, h2⟩
    split
    · have h : x.toNat < l.iter.length := by omega
      rw [List.getElem?_eq_getElem h]
      exact ⟨_, List.getElem_mem h, rfl⟩
    · have h : l.iter.length - (-x).toNat < l.iter.length := by omega
      rw [if_pos (by omega), List.getElem?_eq_getElem h]
      exact ⟨_, List.getElem_mem h, rfl⟩
  · intro h
    split
    · have h' : l.iter.length ≤ x.toNat := by omega
      rw [List.getElem?_eq_none h']; rfl
    · rw [if_neg (by omega)]

/-- **C81** A list built by adding actions has as many indices as its length says. -/
theorem C81_len (s : List Action) (l : ActionList) (h : ActionList.ofList s = .ok l) : l.iter.length = l.len ∧ l.len = s.length := by
  unfold ActionList.ofList at h
  rw [append_orig_fold] at h
  cases h' : s.foldlM ActionList._append [] with
  | error e => simp only [ActionList.empty] at h; rw [h'] at h; cases h
  | ok lv =>
    simp only [ActionList.empty] at h
    rw [h'] at h
    cases h
    refine ⟨?_, by simp [ActionList.len]⟩
    have : ∀ (s : List Action) (ls lv : List (List Action)), s.foldlM ActionList._append ls = .ok lv → lv.flatten.length = ls.flatten.length + s.length := by
      intro s
      induction s with
      | nil => intro ls lv e; cases e; simp
      | cons a s ih =>
        intro ls lv e
        rw [List.foldlM_cons] at e
        cases h1 : ActionList._append ls a with
        | error x => rw [h1] at e; cases e
        | ok ls' =>
          rw [h1] at e
          have e' := ih ls' lv e
          unfold ActionList._append at h1
          split at h1
          · cases h1
          · cases h1
            rw [e', appendLv_eq]
            have hp : ∀ (k : Nat) (ls : List (List Action)), (putLevel Action.lt a k ls).flatten.length = ls.flatten.length + 1 := by
              intro k ls
              induction ls generalizing k with
              | nil => simp [putLevel]
              | cons v ls ih =>
                cases k with
                | zero => simp only [putLevel, List.flatten_cons, List.length_append, (insort_perm a v).length_eq, List.length_cons]; omega
                | succ k => simp only [putLevel, List.flatten_cons, List.length_append, ih]; omega
            rw [hp, List.length_cons]; omega
    simpa [ActionList.iter, ActionList.len] using this s [] lv h'

/-- **C81** `index` gives the first position of the iteration with this action, and `ValueError` exactly if there is none. -/
theorem C81_index (l : ActionList) (x : Action) :
    (∀ i, l.index x = .ok i ↔ l.iter[i]? = some x ∧ ∀ j < i, l.iter[j]? ≠ some x) ∧ (l.index x = .error .valueError ↔ x ∉ l.iter) := by
  unfold ActionList.index ActionList.iter
  rw [indexLoop_eq]
  generalize l.levels.flatten = s
  cases h : s.findIdx? (· == x) with
  | none =>
    have hn : x ∉ s := by
      intro hx
      have := (List.findIdx?_eq_none_iff.1 h) x hx
      simp at this
    refine ⟨fun i => ⟨(fun e => by cases e), fun ⟨e, _⟩ => absurd (List.mem_of_getElem? e) hn⟩, ⟨fun _ => hn, fun _ => rfl⟩⟩
  | some k =>
    obtain ⟨hk, e1, e2⟩ := List.findIdx?_eq_some_iff_getElem.1 h
    have e1' : s[k]? = some x := by
      rw [List.getElem?_eq_getElem hk]; exact congrArg some (by simpa using e1)
    have e2' : ∀ j < k, s[j]? ≠ some x := by
      intro j hj e
      have hj' : j < s.length := by omega
      rw [List.getElem?_eq_getElem hj'] at e
      have := e2 j hj
      simp only [Option.some.injEq] at e
      simp [e] at this
    refine ⟨fun i => ?_, ⟨(fun e => by cases e), fun hn => absurd (List.mem_of_getElem? e1') hn⟩⟩
    simp only [Nat.zero_add, Except.ok.injEq]
    constructor
    · rintro rfl; exact ⟨e1', e2'⟩
    · rintro ⟨h1, h2⟩
      rcases Nat.lt_trichotomy k i with hlt | heq | hgt
      · exact absurd e1' (h2 k hlt)
      · exact heq
      · exact absurd h1 (e2' i hgt)

/-- **C81** What `index` finds is what the index gets. -/
theorem C81_index_getitem (l : ActionList) (x : Action) (i : Nat) (h : l.index x = .ok i) : l.getItem i = .ok x := by
  rw [C81_getitem, if_pos (by omega)]
  have := (((C81_index l x).1 i).1 h).1
  rw [show (i : Int).toNat = i from rfl, this]; rfl

/-- **C81** The obsolete `__do_sort` gives, for any sort that permutes and sorts, exactly the iteration of the list built by adding the actions one at a time, and
the same error. -/
theorem C81_do_sort (sort : List Action → List Action) (hs : ∀ l, (sort l).Perm l ∧ (sort l).Pairwise fun a b => Action.lt b a = false) (s : List Action) :
    doSort sort s = (ActionList.ofList s).map ActionList.iter := by
  unfold doSort ActionList.ofList
  rw [append_orig_fold]
  rcases doSort_fold s (List.Forall₂.nil (R := List.Perm) (α := List Action) (β := List Action)) with ⟨us, ls, e1, e2, h⟩ | ⟨e1, e2⟩
  · rw [e1]
    have e2' : s.foldlM ActionList._append ActionList.empty.levels = .ok ls := e2
    rw [e2']
    simp only [bind, Except.bind, pure, Except.pure, Except.map, ActionList.iter, Except.ok.injEq]
    have hl : LvSorted Action.lt ls := by
      have : ∀ (s : List Action) (ls lv : List (List Action)), LvSorted Action.lt ls → s.foldlM ActionList._append ls = .ok lv → LvSorted Action.lt lv := by
        intro s
        induction s with
        | nil => intro ls lv h e; cases e; exact h
        | cons a s ih =>
          intro ls lv h e
          rw [List.foldlM_cons] at e
          cases h1 : ActionList._append ls a with
          | error x => rw [h1] at e; cases e
          | ok ls' =>
            rw [h1] at e
            refine ih ls' lv ?_ e
            unfold ActionList._append at h1
            split at h1
            · cases h1
            · cases h1
              rw [appendLv_eq]
              exact putLevel_sorted lt_strictTotal a _ h
      exact this s [] ls (by simp [LvSorted]) e2
    clear e1 e2 e2'
    induction h with
    | nil => rfl
    | cons h _ ih =>
      simp only [List.map_cons, List.flatten_cons]
      rw [sorted_unique lt_strictTotal ((hs _).1.trans h) (hs _).2 (hl _ (by simp)), ih fun v hv => hl v (by simp [hv])]
  · rw [e1]
    have e2' : s.foldlM ActionList._append ActionList.empty.levels = .error .keyError := e2
    rw [e2']
    rfl

/-! ### Examples -/

/-- Insertion sort, as an instance of `sort`. -/
def sortActs (l : List Action) : List Action := l.foldr (insort Action.lt) []

example : ∀ l, (sortActs l).Perm l ∧ (sortActs l).Pairwise fun a b => Action.lt b a = false := by
  intro l
  induction l with
  | nil => exact ⟨.refl _, .nil⟩
  | cons a l ih => exact ⟨(insort_perm a _).trans (ih.1.cons a), insort_sorted lt_strictTotal a ih.2⟩

/-- Two outputs after a set-field and a push: three levels; indices from both ends, out of range, first position of a repeated action. -/
def idxSample : List Action := [.setField 8 6, .pushVlan 0x8100, .setField 6 5, .output 2, .output 1, .output 2]

example : (match ActionList.ofList idxSample with
    | .ok l => some (l.iter, [0, 5, 6, -1, -6, -7].map fun x => (l.getItem x).toOption, [Action.output 2, .output 9].map fun x => (l.index x).toOption)
    | .error _ => none) =
    some ([.pushVlan 0x8100, .setField 8 6, .setField 6 5, .output 1, .output 2, .output 2],
      [some (.pushVlan 0x8100), some (.output 2), none, some (.output 2), some (.pushVlan 0x8100), none], [some 4, none]) := by decide +kernel

example : (doSort sortActs idxSample).toOption = some [.pushVlan 0x8100, .setField 8 6, .setField 6 5, .output 1, .output 2, .output 2] ∧
    (doSort sortActs [.output 1, .setField 45 1]).toOption = none := by decide +kernel

end OFE
