import Verif.Actions.Spec

/-! # Level structure: generic lemmas -/

namespace OFE
variable {α : Type} {dep lt : α → α → Bool}

theorem TraceEq.trans {s t u : List α} (h : TraceEq dep s t) : TraceEq dep t u → TraceEq dep s u := by
  induction h with
  | refl => exact id
  | swap l r a b t hd _ ih => exact fun h2 => .swap l r a b _ hd (ih h2)

theorem TraceEq.single {l r : List α} {a b : α} (h : dep a b = false) :
    TraceEq dep (l ++ a :: b :: r) (l ++ b :: a :: r) := .swap l r a b _ h (.refl _)

theorem TraceEq.symm (hs : ∀ a b, dep a b = dep b a) {s t : List α} (h : TraceEq dep s t) : TraceEq dep t s := by
  induction h with
  | refl => exact .refl _
  | swap l r a b t hd _ ih => exact ih.trans (.single (by rw [hs, hd]))

theorem TraceEq.append_left (p : List α) {s t : List α} (h : TraceEq dep s t) : TraceEq dep (p ++ s) (p ++ t) := by
  induction h with
  | refl => exact .refl _
  | swap l r a b t hd _ ih =>
    have := TraceEq.swap (p ++ l) r a b (p ++ t) hd (by simpa using ih)
    simpa using this

theorem TraceEq.append_right (p : List α) {s t : List α} (h : TraceEq dep s t) : TraceEq dep (s ++ p) (t ++ p) := by
  induction h with
  | refl => exact .refl _
  | swap l r a b t hd _ ih =>
    have := TraceEq.swap l (r ++ p) a b (t ++ p) hd (by simpa using ih)
    simpa using this

theorem TraceEq.cons (x : α) {s t : List α} (h : TraceEq dep s t) : TraceEq dep (x :: s) (x :: t) :=
  h.append_left [x]

theorem TraceEq.append {s t s' t' : List α} (h : TraceEq dep s t) (h' : TraceEq dep s' t') :
    TraceEq dep (s ++ s') (t ++ t') := (h.append_right s').trans (h'.append_left t)

theorem TraceEq.perm {s t : List α} (h : TraceEq dep s t) : s.Perm t := by
  induction h with
  | refl => exact .refl _
  | swap l r a b t hd _ ih => exact (List.Perm.append_left l (List.Perm.swap b a r)).trans ih

/-- Moving an item over independent ones. -/
theorem TraceEq.move (x : α) : ∀ (s : List α), (∀ y ∈ s, dep y x = false) → TraceEq dep (s ++ [x]) (x :: s)
  | [], _ => .refl _
  | y :: s, h => by
    have h1 := TraceEq.move x s fun z hz => h z (List.mem_cons_of_mem _ hz)
    have h2 : TraceEq dep (y :: (s ++ [x])) (y :: x :: s) := h1.cons y
    exact h2.trans (TraceEq.single (l := []) (h y List.mem_cons_self))

/-- Only the order of dependent items matters: projections on dependent pairs agree. -/
theorem TraceEq.filter_pair [DecidableEq α] (hs : ∀ a b, dep a b = dep b a) {s t : List α} (h : TraceEq dep s t) (x y : α)
    (hd : dep x y = true) :
    s.filter (fun z => decide (z = x ∨ z = y)) = t.filter (fun z => decide (z = x ∨ z = y)) := by
  induction h with
  | refl => rfl
  | swap l r a b t hab _ ih =>
    rw [← ih]
    simp only [List.filter_append, List.filter_cons]
    congr 1
    by_cases ha : a = x ∨ a = y
    · by_cases hb : b = x ∨ b = y
      · rcases ha with rfl | rfl <;> rcases hb with rfl | rfl
        · rfl
        · rw [hd] at hab; cases hab
        · rw [hs, hd] at hab; cases hab
        · rfl
      · simp [ha, hb]
    · simp [ha]

/-! ## Sorted insertion -/

/-- Strict total order given by a boolean test. -/
structure StrictTotal (lt : α → α → Bool) : Prop where
  irrefl : ∀ a, lt a a = false
  trans : ∀ a b c, lt a b = true → lt b c = true → lt a c = true
  tri : ∀ a b, lt a b = false → lt b a = false → a = b

def SortedBy (lt : α → α → Bool) (l : List α) : Prop := l.Pairwise fun a b => lt b a = false

theorem insort_perm (x : α) (l : List α) : (insort lt x l).Perm (x :: l) := by
  induction l with
  | nil => exact .refl _
  | cons y ys ih =>
    unfold insort
    split
    · exact .refl _
    · exact (List.Perm.cons y ih).trans (List.Perm.swap x y ys)

theorem mem_insort {x z : α} {l : List α} : z ∈ insort lt x l ↔ z = x ∨ z ∈ l := by
  rw [(insort_perm x l).mem_iff, List.mem_cons]

theorem insort_sorted (ho : StrictTotal lt) (x : α) {l : List α} (h : SortedBy lt l) : SortedBy lt (insort lt x l) := by
  induction l with
  | nil => simp [insort, SortedBy]
  | cons y ys ih =>
    have hy := List.pairwise_cons.1 h
    unfold insort
    split
    · rename_i hlt
      refine List.pairwise_cons.2 ⟨?_, h⟩
      intro z hz
      rcases List.mem_cons.1 hz with rfl | hz
      · cases hzx : lt z x with
        | false => rfl
        | true => have := ho.trans _ _ _ hlt hzx; rw [ho.irrefl] at this; cases this
      · cases hzx : lt z x with
        | false => rfl
        | true =>
          have h1 := ho.trans _ _ _ hzx hlt
          have h2 := hy.1 z hz
          rw [h1] at h2; cases h2
    · rename_i hlt
      refine List.pairwise_cons.2 ⟨?_, ih hy.2⟩
      intro z hz
      rcases mem_insort.1 hz with rfl | hz
      · simpa using hlt
      · exact hy.1 z hz

theorem sorted_unique (ho : StrictTotal lt) {l l' : List α} (hp : l.Perm l') (h : SortedBy lt l) (h' : SortedBy lt l') : l = l' := by
  induction l generalizing l' with
  | nil => exact (List.Perm.nil_eq hp)
  | cons a l ih =>
    cases l' with
    | nil => exact absurd hp.symm (by simp)
    | cons b l' =>
      have ha := List.pairwise_cons.1 h
      have hb := List.pairwise_cons.1 h'
      have hab : a = b := by
        have ha' : a ∈ b :: l' := hp.mem_iff.1 List.mem_cons_self
        have hb' : b ∈ a :: l := hp.mem_iff.2 List.mem_cons_self
        rcases List.mem_cons.1 ha' with h1 | h1
        · exact h1
        rcases List.mem_cons.1 hb' with h2 | h2
        · exact h2.symm
        exact ho.tri _ _ (hb.1 a h1) (ha.1 b h2)
      subst hab
      rw [ih (List.Perm.cons_inv hp) ha.2 hb.2]

theorem insort_comm (ho : StrictTotal lt) (x y : α) {l : List α} (h : SortedBy lt l) :
    insort lt x (insort lt y l) = insort lt y (insort lt x l) := by
  refine sorted_unique ho ?_ (insort_sorted ho _ (insort_sorted ho _ h)) (insort_sorted ho _ (insort_sorted ho _ h))
  exact (insort_perm _ _).trans (((insort_perm y l).cons x).trans ((List.Perm.swap y x l).trans
    (((insort_perm x l).symm.cons y).trans (insort_perm y _).symm)))

/-! ## Level of an item -/

/-- One past the deepest level with an item depending on `i` (0 if none). -/
def lvl (dep : α → α → Bool) (i : α) : List (List α) → Nat
  | [] => 0
  | v :: rest => if lvl dep i rest = 0 then (if v.any fun x => dep x i then 1 else 0) else lvl dep i rest + 1

theorem deepest_eq (i : α) (l : Nat) (ls : List (List α)) (d : Option Nat) :
    deepest dep i l ls d = if lvl dep i ls = 0 then d else some (l + lvl dep i ls - 1) := by
  induction ls generalizing l d with
  | nil => rfl
  | cons v rest ih =>
    rw [deepest, ih, lvl]
    by_cases h0 : lvl dep i rest = 0
    · rw [if_pos h0, if_pos h0]
      by_cases h1 : (v.any fun x => dep x i) = true
      · simp [h1]
      · simp [h1]
    · rw [if_neg h0, if_neg h0, if_neg (by omega)]
      congr 1; omega

theorem appendLv_eq (ls : List (List α)) (i : α) : appendLv dep lt ls i = putLevel lt i (lvl dep i ls) ls := by
  unfold appendLv
  congr 1
  rw [deepest_eq]
  by_cases h : lvl dep i ls = 0
  · simp [h]
  · rw [if_neg h]; show 0 + lvl dep i ls - 1 + 1 = _; omega

theorem lvl_le (i : α) (ls : List (List α)) : lvl dep i ls ≤ ls.length := by
  induction ls with
  | nil => simp [lvl]
  | cons v rest ih => simp only [lvl, List.length_cons]; split <;> [split; skip] <;> omega

theorem mem_putLevel {i z : α} {k : Nat} {ls : List (List α)} : z ∈ (putLevel lt i k ls).flatten ↔ z = i ∨ z ∈ ls.flatten := by
  induction ls generalizing k with
  | nil => cases k <;> simp [putLevel]
  | cons v rest ih =>
    cases k with
    | zero => simp only [putLevel, List.flatten_cons, List.mem_append, mem_insort]; grind
    | succ k => simp only [putLevel, List.flatten_cons, List.mem_append, ih]; grind

theorem any_insort (p : α → Bool) (i : α) (v : List α) (h : p i = false) : (insort lt i v).any p = v.any p := by
  induction v with
  | nil => simp [insort, h]
  | cons y ys ih =>
    unfold insort
    split
    · simp [h]
    · simp only [List.any_cons, ih]

/-- An independent item put in at an existing level or as one new level does not change the level of another item. -/
theorem lvl_putLevel (i j : α) (h : dep i j = false) (k : Nat) (ls : List (List α)) :
    lvl dep j (putLevel lt i k ls) = lvl dep j ls := by
  induction ls generalizing k with
  | nil => cases k <;> simp [putLevel, lvl, h]
  | cons v rest ih =>
    cases k with
    | zero => simp only [putLevel, lvl, any_insort (fun x => dep x j) i v h]
    | succ k => simp only [putLevel, lvl, ih]

/-- All levels are sorted. -/
def LvSorted (lt : α → α → Bool) (ls : List (List α)) : Prop := ∀ v ∈ ls, SortedBy lt v

theorem putLevel_sorted (ho : StrictTotal lt) (i : α) (k : Nat) {ls : List (List α)} (h : LvSorted lt ls) :
    LvSorted lt (putLevel lt i k ls) := by
  induction ls generalizing k with
  | nil => cases k <;> simp [putLevel, LvSorted, SortedBy]
  | cons v rest ih =>
    have h1 := h v List.mem_cons_self
    have h2 : LvSorted lt rest := fun w hw => h w (List.mem_cons_of_mem _ hw)
    cases k with
    | zero =>
      intro w hw
      rcases List.mem_cons.1 hw with rfl | hw
      · exact insort_sorted ho _ h1
      · exact h2 w hw
    | succ k =>
      intro w hw
      rcases List.mem_cons.1 hw with rfl | hw
      · exact h1
      · exact ih k h2 w hw

theorem putLevel_comm (ho : StrictTotal lt) (a b : α) (i j : Nat) {ls : List (List α)} (hi : i ≤ ls.length) (hj : j ≤ ls.length)
    (h : LvSorted lt ls) : putLevel lt a i (putLevel lt b j ls) = putLevel lt b j (putLevel lt a i ls) := by
  induction ls generalizing i j with
  | nil =>
    have : i = 0 := by simpa using hi
    have : j = 0 := by simpa using hj
    subst i j
    simp only [putLevel]
    have := insort_comm ho a b (l := []) (by simp [SortedBy])
    simpa [insort] using this
  | cons v rest ih =>
    have h1 := h v List.mem_cons_self
    have h2 : LvSorted lt rest := fun w hw => h w (List.mem_cons_of_mem _ hw)
    cases i with
    | zero =>
      cases j with
      | zero => simp only [putLevel]; rw [insort_comm ho a b h1]
      | succ j => simp only [putLevel]
    | succ i =>
      cases j with
      | zero => simp only [putLevel]
      | succ j =>
        simp only [putLevel]
        rw [ih i j (by simpa using hi) (by simpa using hj) h2]

/-- Appending two independent items in either order gives the same levels. -/
theorem appendLv_comm (ho : StrictTotal lt) (hs : ∀ a b, dep a b = dep b a) (a b : α) (h : dep a b = false) {ls : List (List α)}
    (hl : LvSorted lt ls) :
    appendLv dep lt (appendLv dep lt ls a) b = appendLv dep lt (appendLv dep lt ls b) a := by
  simp only [appendLv_eq]
  rw [lvl_putLevel a b h, lvl_putLevel b a (by rw [hs, h])]
  exact putLevel_comm ho b a _ _ (lvl_le ..) (lvl_le ..) hl

/-- Levels of a sequence. -/
def levelsOf (dep lt : α → α → Bool) (s : List α) : List (List α) := s.foldl (appendLv dep lt) []

theorem levelsOf_append (s t : List α) : levelsOf dep lt (s ++ t) = t.foldl (appendLv dep lt) (levelsOf dep lt s) :=
  List.foldl_append ..

theorem foldl_sorted (ho : StrictTotal lt) (s : List α) {ls : List (List α)} (h : LvSorted lt ls) :
    LvSorted lt (s.foldl (appendLv dep lt) ls) := by
  induction s generalizing ls with
  | nil => exact h
  | cons a s ih => rw [List.foldl_cons]; apply ih; rw [appendLv_eq]; exact putLevel_sorted ho _ _ h

theorem foldl_trace (ho : StrictTotal lt) (hs : ∀ a b, dep a b = dep b a) {s t : List α} (h : TraceEq dep s t)
    {ls : List (List α)} (hl : LvSorted lt ls) : s.foldl (appendLv dep lt) ls = t.foldl (appendLv dep lt) ls := by
  induction h with
  | refl => rfl
  | swap l r a b t hd _ ih =>
    rw [← ih]
    simp only [List.foldl_append, List.foldl_cons]
    rw [appendLv_comm ho hs a b hd (foldl_sorted ho _ hl)]

theorem insort_trace (i : α) (v : List α) (h : ∀ x ∈ v, dep x i = false) : TraceEq dep (v ++ [i]) (insort lt i v) := by
  induction v with
  | nil => exact .refl _
  | cons y ys ih =>
    unfold insort
    split
    · exact TraceEq.move i (y :: ys) h
    · exact (ih fun x hx => h x (List.mem_cons_of_mem _ hx)).cons y

theorem lvl_zero {i : α} {ls : List (List α)} (h : lvl dep i ls = 0) : ∀ x ∈ ls.flatten, dep x i = false := by
  induction ls with
  | nil => simp
  | cons v rest ih =>
    simp only [lvl] at h
    by_cases h0 : lvl dep i rest = 0
    · rw [if_pos h0] at h
      by_cases h1 : (v.any fun x => dep x i) = true
      · simp [h1] at h
      · intro x hx
        simp only [List.flatten_cons, List.mem_append] at hx
        rcases hx with hx | hx
        · simp only [List.any_eq_true, not_exists, not_and, Bool.not_eq_true] at h1; exact h1 x hx
        · exact ih h0 x hx
    · rw [if_neg h0] at h; omega

theorem putLevel_trace (i : α) (ls : List (List α)) :
    TraceEq dep (ls.flatten ++ [i]) (putLevel lt i (lvl dep i ls) ls).flatten := by
  induction ls with
  | nil => exact .refl _
  | cons v rest ih =>
    by_cases h0 : lvl dep i rest = 0
    · by_cases h1 : (v.any fun x => dep x i) = true
      · have hl : lvl dep i (v :: rest) = 1 := by simp [lvl, h0, h1]
        rw [hl]
        simp only [putLevel, List.flatten_cons, List.append_assoc]
        rw [h0] at ih
        exact ih.append_left v
      · have hl : lvl dep i (v :: rest) = 0 := by simp [lvl, h0, h1]
        rw [hl]
        simp only [putLevel, List.flatten_cons, List.append_assoc]
        have hm := (TraceEq.move i rest.flatten (lvl_zero h0)).append_left v
        refine hm.trans ?_
        have : TraceEq dep (v ++ [i]) (insort lt i v) := insort_trace i v fun x hx => lvl_zero hl x (by simp [hx])
        simpa using this.append_right rest.flatten
    · have hl : lvl dep i (v :: rest) = lvl dep i rest + 1 := by simp [lvl, h0]
      rw [hl]
      simp only [putLevel, List.flatten_cons, List.append_assoc]
      exact ih.append_left v

theorem foldl_flatten (s : List α) (ls : List (List α)) :
    TraceEq dep (ls.flatten ++ s) (s.foldl (appendLv dep lt) ls).flatten := by
  induction s generalizing ls with
  | nil => simpa using TraceEq.refl _
  | cons a s ih =>
    rw [List.foldl_cons]
    have h1 : TraceEq dep (ls.flatten ++ [a]) (appendLv dep lt ls a).flatten := by rw [appendLv_eq]; exact putLevel_trace a ls
    have h2 := (h1.append_right s).trans (ih (appendLv dep lt ls a))
    simpa using h2

/-- Reading the levels in order gives the sequence up to swaps. -/
theorem levelsOf_flatten (s : List α) : TraceEq dep s (levelsOf dep lt s).flatten := by
  simpa [levelsOf] using foldl_flatten (dep := dep) (lt := lt) s []

theorem levelsOf_eq_iff (ho : StrictTotal lt) (hs : ∀ a b, dep a b = dep b a) (s t : List α) :
    (levelsOf dep lt s).flatten = (levelsOf dep lt t).flatten ↔ TraceEq dep s t := by
  constructor
  · intro h
    have h1 := levelsOf_flatten (dep := dep) (lt := lt) s
    rw [h] at h1
    exact h1.trans ((levelsOf_flatten t).symm hs)
  · intro h
    rw [levelsOf, foldl_trace ho hs h (by simp [LvSorted]), levelsOf]

/-- The levels themselves are determined by the sequence read off them. -/
theorem levelsOf_inj (ho : StrictTotal lt) (hs : ∀ a b, dep a b = dep b a) (s t : List α)
    (h : (levelsOf dep lt s).flatten = (levelsOf dep lt t).flatten) : levelsOf dep lt s = levelsOf dep lt t :=
  foldl_trace ho hs ((levelsOf_eq_iff ho hs s t).1 h) (by simp [LvSorted])

end OFE
