import Verif.Actions.Lemmas
import Mathlib.Data.List.Forall2

/-! # Indexing action lists, and the obsolete sort -/

namespace OFE
variable {α : Type}

/-- The loop of `index`, rule.py:512-517; `list.index` raises when there is no such item, which the bare `except` takes for the next level. -/
def indexLoop (x : Action) : Nat → List (List Action) → Except PyErr Nat
  | _, [] => .error .valueError
  | i, level :: rest => match level.findIdx? (· == x) with
    | some k => .ok (i + k)
    | none => indexLoop x (i + level.length) rest

/-- `index`, rule.py:511-518 -/
def ActionList.index (l : ActionList) (x : Action) : Except PyErr Nat := indexLoop x 0 l.levels

/-- An item, or `IndexError` (`list[x]`, rule.py:528, 535). -/
def orIndexError : Option α → Except PyErr α
  | some a => .ok a
  | none => .error .indexError

/-- The loop of `__getitem__` for `x >= 0`, rule.py:525-530, 538. -/
def getPos : Nat → List (List α) → Except PyErr α
  | _, [] => .error .indexError
  | x, level :: rest => if h : x < level.length then .ok level[x] else getPos (x - level.length) rest

/-- The loop of `__getitem__` for `x = -k < 0`, rule.py:533-538, over the reversed levels; `level[-k]` is the item at `len(level) - k`. -/
def getNeg : Nat → List (List α) → Except PyErr α
  | _, [] => .error .indexError
  | k, level :: rest =>
    if k ≤ level.length then orIndexError level[level.length - k]?
    else getNeg (k - level.length) rest

/-- `__getitem__` with an integer, rule.py:520-539.  (A slice is that of the list of all items, 521-523.) -/
def ActionList.getItem (l : ActionList) (x : Int) : Except PyErr Action :=
  match x with
  | .ofNat k => getPos k l.levels
  | .negSucc k => getNeg (k + 1) l.levels.reverse

/-- One round of `__do_sort`, rule.py:771-780: append to the level below the deepest dependent one; `depends` raises for unknown types. -/
def doSortStep (levels : List (List Action)) (i : Action) : Except PyErr (List (List Action)) :=
  if levels.flatten.any fun item => match depends item i with | .error _ => true | .ok _ => false then .error .keyError
  else
    let k := match deepest dependsB i 0 levels none with | none => 0 | some l => l + 1
    .ok (if levels.length ≤ k then levels ++ [[i]] else levels.set k ((levels.getD k []) ++ [i]))

/-- `__do_sort`, rule.py:762-786; `sort` is python's `list.sort`. -/
def doSort (sort : List Action → List Action) (orig : List Action) : Except PyErr (List Action) := do
  let levels ← orig.foldlM doSortStep []
  return (levels.map sort).flatten

/-! ### Lemmas -/

theorem indexLoop_eq (x : Action) (i : Nat) (ls : List (List Action)) :
    indexLoop x i ls = match ls.flatten.findIdx? (· == x) with | some k => .ok (i + k) | none => .error .valueError := by
  induction ls generalizing i with
  | nil => rfl
  | cons v ls ih =>
    rw [indexLoop, List.flatten_cons, List.findIdx?_append]
    cases v.findIdx? (· == x) with
    | some k => simp
    | none =>
      simp only [ih]
      cases ls.flatten.findIdx? (· == x) with
      | some k => simp; omega
      | none => simp

theorem getPos_eq (x : Nat) (ls : List (List α)) : getPos x ls = orIndexError ls.flatten[x]? := by
  induction ls generalizing x with
  | nil => rfl
  | cons v ls ih =>
    rw [getPos, List.flatten_cons]
    split
    · next h => rw [List.getElem?_append_left h, List.getElem?_eq_getElem h]; rfl
    · next h => rw [ih, List.getElem?_append_right (by omega)]

theorem getNeg_eq (k : Nat) (hk : 0 < k) (ls : List (List α)) :
    getNeg k ls.reverse = if k ≤ ls.flatten.length then orIndexError ls.flatten[ls.flatten.length - k]? else .error .indexError := by
  generalize hr : ls.reverse = rs
  have : ls = rs.reverse := by rw [← hr, List.reverse_reverse]
  subst this
  clear hr
  induction rs generalizing k with
  | nil =>
    have : ¬ k ≤ 0 := by omega
    simp [getNeg, this]
  | cons v rs ih =>
    rw [getNeg, List.reverse_cons, List.flatten_append]
    have hv : ([v] : List (List α)).flatten = v := by simp
    rw [hv, List.length_append]
    by_cases h : k ≤ v.length
    · rw [if_pos h, if_pos (by omega), List.getElem?_append_right (by omega)]
      congr 2
      omega
    · rw [if_neg h, ih _ (by omega)]
      by_cases h2 : k ≤ rs.reverse.flatten.length + v.length
      · rw [if_pos h2, if_pos (by omega), List.getElem?_append_left (by omega)]
        have : rs.reverse.flatten.length - (k - v.length) = rs.reverse.flatten.length + v.length - k := by omega
        rw [this]
      · rw [if_neg h2, if_neg (by omega)]

theorem any_perm {p : α → Bool} {l l' : List α} (h : l.Perm l') : l.any p = l'.any p := by
  rw [Bool.eq_iff_iff]
  simp [List.any_eq_true, h.mem_iff]

theorem lvl_perm {dep : α → α → Bool} {i : α} {us ls : List (List α)} (h : List.Forall₂ List.Perm us ls) : lvl dep i us = lvl dep i ls := by
  induction h with
  | nil => rfl
  | cons h hs ih =>
    simp only [lvl, ih, any_perm h]

theorem putLevel_perm {lt : α → α → Bool} {i : α} {us ls : List (List α)} (h : List.Forall₂ List.Perm us ls) (k : Nat) (hk : k ≤ ls.length) :
    List.Forall₂ List.Perm (if us.length ≤ k then us ++ [[i]] else us.set k ((us.getD k []) ++ [i])) (putLevel lt i k ls) := by
  induction h generalizing k with
  | nil =>
    have : k = 0 := by simpa using hk
    subst this
    simp [putLevel]
  | @cons u v us ls h hs ih =>
    cases k with
    | zero =>
      simp only [List.length_cons, Nat.le_zero_eq, Nat.add_eq_zero_iff, Nat.succ_ne_self, and_false, ite_false, putLevel, List.set_cons_zero, List.getD_cons_zero]
      refine .cons ?_ hs
      exact ((h.append_right _).trans List.perm_append_comm).trans (insort_perm i v).symm
    | succ k =>
      have hk' : k ≤ ls.length := by simpa using hk
      have := ih k hk'
      simp only [List.length_cons, Nat.add_le_add_iff_right, putLevel, List.set_cons_succ, List.getD_cons_succ]
      split
      · next hlt => rw [if_pos hlt] at this; exact .cons h this
      · next hlt => rw [if_neg hlt] at this; exact .cons h this

theorem forall₂_flatten {us ls : List (List α)} (h : List.Forall₂ List.Perm us ls) : us.flatten.Perm ls.flatten := by
  induction h with
  | nil => exact .refl _
  | cons h _ ih => simpa using h.append ih

theorem deepest_lvl (a : Action) (l : List (List Action)) : (match deepest dependsB a 0 l none with | none => 0 | some l => l + 1) = lvl dependsB a l := by
  rw [deepest_eq]
  by_cases h : lvl dependsB a l = 0
  · simp [h]
  · rw [if_neg h]; show 0 + lvl dependsB a l - 1 + 1 = _; omega

/-- The new levels of a round of `__do_sort`. -/
theorem doSortStep_eq (us : List (List Action)) (a : Action) : doSortStep us a =
    if us.flatten.any fun item => match depends item a with | .error _ => true | .ok _ => false then .error .keyError
    else .ok (if us.length ≤ lvl dependsB a us then us ++ [[a]] else us.set (lvl dependsB a us) ((us.getD (lvl dependsB a us) []) ++ [a])) := by
  unfold doSortStep
  rw [deepest_lvl]

theorem doSort_step {us ls : List (List Action)} (h : List.Forall₂ List.Perm us ls) (a : Action) :
    (∃ us' ls', doSortStep us a = .ok us' ∧ ActionList._append ls a = .ok ls' ∧ List.Forall₂ List.Perm us' ls') ∨
      (doSortStep us a = .error .keyError ∧ ActionList._append ls a = .error .keyError) := by
  rw [doSortStep_eq]
  unfold ActionList._append
  rw [any_perm (forall₂_flatten h)]
  split
  · next hc => exact .inr ⟨rfl, if_pos hc⟩
  · next hc =>
    refine .inl ⟨_, _, rfl, if_neg hc, ?_⟩
    rw [appendLv_eq, lvl_perm h]
    exact putLevel_perm h _ (lvl_le _ _)

theorem doSort_fold (s : List Action) {us ls : List (List Action)} (h : List.Forall₂ List.Perm us ls) :
    (∃ us' ls', s.foldlM doSortStep us = .ok us' ∧ s.foldlM ActionList._append ls = .ok ls' ∧ List.Forall₂ List.Perm us' ls') ∨
      (s.foldlM doSortStep us = .error .keyError ∧ s.foldlM ActionList._append ls = .error .keyError) := by
  induction s generalizing us ls with
  | nil => exact .inl ⟨us, ls, rfl, rfl, h⟩
  | cons a s ih =>
    rw [List.foldlM_cons, List.foldlM_cons]
    rcases doSort_step h a with ⟨us', ls', e1, e2, h'⟩ | ⟨e1, e2⟩
    · rw [e1, e2]; exact ih h'
    · rw [e1, e2]; exact .inr ⟨rfl, rfl⟩

theorem append_orig_fold (s : List Action) (l : ActionList) :
    s.foldlM ActionList.append l = (s.foldlM ActionList._append l.levels).map fun lv => ⟨lv, l.orig ++ s⟩ := by
  induction s generalizing l with
  | nil => simp [pure, Except.pure, Except.map]
  | cons a s ih =>
    rw [List.foldlM_cons, List.foldlM_cons]
    cases h : ActionList._append l.levels a with
    | error e => rw [show l.append a = .error e from by simp [ActionList.append, h, bind, Except.bind]]; rfl
    | ok lv =>
      rw [show l.append a = .ok ⟨lv, l.orig ++ [a]⟩ from by simp [ActionList.append, h, bind, Except.bind, pure, Except.pure]]
      exact (ih ⟨lv, l.orig ++ [a]⟩).trans (by simp [bind, Except.bind])

end OFE
