import Verif.Text.Model
import Verif.Ovs.Lemmas

/-!
# Reading texts back from the left
-/

namespace OFE.Str
open Fmt

/-- Whatever follows, if it satisfies `F`: the text of an element (of those with `P`) can be told from the rest. -/
def Reads {α : Type} (P : α → Prop) (F : List Char → Prop) (f : α → List Char) : Prop :=
  ∀ a b s t, P a → P b → F s → F t → f a ++ s = f b ++ t → a = b ∧ s = t

/-- The text goes on with a character outside of `cls`. -/
def Stops (cls : Char → Bool) (s : List Char) : Prop := ∃ c r, s = c :: r ∧ cls c = false

theorem run_eq {cls : Char → Bool} : ∀ {x y s t : List Char}, (∀ c ∈ x, cls c = true) → (∀ c ∈ y, cls c = true) →
    Stops cls s → Stops cls t → x ++ s = y ++ t → x = y ∧ s = t
  | [], [], _, _, _, _, _, _, h => ⟨rfl, h⟩
  | [], d :: y, s, t, _, hy, ⟨c, r, e, hc⟩, _, h => by
    rw [e] at h
    simp only [List.nil_append, List.cons_append, List.cons.injEq] at h
    have := hy d (by simp)
    rw [← h.1, hc] at this
    cases this
  | d :: x, [], s, t, hx, _, _, ⟨c, r, e, hc⟩, h => by
    rw [e] at h
    simp only [List.nil_append, List.cons_append, List.cons.injEq] at h
    have := hx d (by simp)
    rw [h.1, hc] at this
    cases this
  | d :: x, d' :: y, s, t, hx, hy, hs, ht, h => by
    simp only [List.cons_append, List.cons.injEq] at h
    obtain ⟨rfl, h⟩ := h
    obtain ⟨h1, h2⟩ := run_eq (fun c hc => hx c (List.mem_cons_of_mem _ hc)) (fun c hc => hy c (List.mem_cons_of_mem _ hc)) hs ht h
    exact ⟨by rw [h1], h2⟩

/-- Texts of one class of characters that are different for different elements. -/
theorem reads_run {α : Type} {P : α → Prop} {cls : Char → Bool} {f : α → List Char} (hc : ∀ a, P a → ∀ c ∈ f a, cls c = true)
    (hi : ∀ a b, P a → P b → f a = f b → a = b) : Reads P (Stops cls) f := by
  intro a b s t ha hb hs ht h
  obtain ⟨h1, h2⟩ := run_eq (hc a ha) (hc b hb) hs ht h
  exact ⟨hi a b ha hb h1, h2⟩

/-- Lists of elements, ended by the character `e`. -/
theorem reads_join {α : Type} {P : α → Prop} {F : List Char → Prop} {f : α → List Char} {sep : List Char} {c e : Char} {sep' : List Char}
    (hsep : sep = c :: sep') (hce : c ≠ e) (hf : Reads P F f) (hF : ∀ r, F (sep ++ r)) (hE : ∀ r, F (e :: r))
    (hne : ∀ a, P a → ∃ d r, f a = d :: r ∧ d ≠ e) :
    ∀ {xs ys : List α} {s t : List Char}, (∀ a ∈ xs, P a) → (∀ a ∈ ys, P a) →
      join sep (xs.map f) ++ e :: s = join sep (ys.map f) ++ e :: t → xs = ys ∧ s = t
  | [], [], s, t, _, _, h => by simpa [join] using h
  | [], b :: ys, s, t, _, hy, h => by
    obtain ⟨d, r, e1, e2⟩ := hne b (hy b (by simp))
    cases ys with
    | nil => simp [join, e1] at h; exact absurd h.1.symm e2
    | cons b' ys => simp [join, e1] at h; exact absurd h.1.symm e2
  | a :: xs, [], s, t, hx, _, h => by
    obtain ⟨d, r, e1, e2⟩ := hne a (hx a (by simp))
    cases xs with
    | nil => simp [join, e1] at h; exact absurd h.1 e2
    | cons b' ys => simp [join, e1] at h; exact absurd h.1 e2
  | [a], [b], s, t, hx, hy, h => by
    obtain ⟨h1, h2⟩ := hf a b _ _ (hx a (by simp)) (hy b (by simp)) (hE s) (hE t) h
    exact ⟨by rw [h1], (List.cons.inj h2).2⟩
  | [a], b :: b' :: ys, s, t, hx, hy, h => by
    simp only [List.map_cons, List.map_nil, join, List.append_assoc] at h
    obtain ⟨h1, h2⟩ := hf a b _ _ (hx a (by simp)) (hy b (by simp)) (hE s) (hF _) h
    rw [hsep] at h2
    exact absurd (List.cons.inj h2).1.symm hce
  | a :: a' :: xs, [b], s, t, hx, hy, h => by
    simp only [List.map_cons, List.map_nil, join, List.append_assoc] at h
    obtain ⟨h1, h2⟩ := hf a b _ _ (hx a (by simp)) (hy b (by simp)) (hF _) (hE t) h
    rw [hsep] at h2
    exact absurd (List.cons.inj h2).1 hce
  | a :: a' :: xs, b :: b' :: ys, s, t, hx, hy, h => by
    simp only [List.map_cons, join, List.append_assoc] at h
    obtain ⟨h1, h2⟩ := hf a b _ _ (hx a (by simp)) (hy b (by simp)) (hF _) (hF _) h
    have h3 := List.append_cancel_left h2
    obtain ⟨h4, h5⟩ := reads_join hsep hce hf hF hE hne (xs := a' :: xs) (ys := b' :: ys) (fun x hx' => hx x (List.mem_cons_of_mem _ hx'))
      (fun y hy' => hy y (List.mem_cons_of_mem _ hy')) (by simpa only [List.map_cons] using h3)
    exact ⟨by rw [h1, h4], h5⟩

/-! ### Numbers and names -/

/-- The digits. -/
def isDig (c : Char) : Bool := '0' ≤ c && c ≤ '9'

theorem dig_of : ∀ d : Fin 10, isDig (digitChar d.1) = true := by decide

theorem digits_dig (n : Nat) : ∀ c ∈ digits 10 n, isDig c = true := by
  obtain ⟨-, -, h⟩ := digits_read (b := 10) (by omega) (by omega) n
  intro c hc
  obtain ⟨d, hd, rfl⟩ := h c hc
  exact dig_of ⟨d, hd⟩

theorem digits_inj {a b : Nat} (h : digits 10 a = digits 10 b) : a = b := by
  have h1 := (digits_read (b := 10) (by omega) (by omega) a).1
  rw [h, (digits_read (b := 10) (by omega) (by omega) b).1] at h1
  exact h1.symm

theorem reads_digits : Reads (fun _ : Nat => True) (Stops isDig) (digits 10) :=
  reads_run (fun a _ => digits_dig a) fun _ _ _ _ => digits_inj

theorem digits_head_ne (n : Nat) : ∃ d r, digits 10 n = d :: r ∧ isDig d = true := by
  obtain ⟨-, h2, -⟩ := digits_read (b := 10) (by omega) (by omega) n
  cases e : digits 10 n with
  | nil => exact absurd e h2
  | cons d r => exact ⟨d, r, rfl, digits_dig n d (by rw [e]; simp)⟩

theorem reads_opt : Reads (fun _ : Option Nat => True) (Stops isDig) optNum := by
  intro a b s t _ _ hs ht h
  cases a with
  | none =>
    cases b with
    | none => exact ⟨rfl, List.append_cancel_left h⟩
    | some n =>
      obtain ⟨d, r, e, hd⟩ := digits_head_ne n
      simp only [optNum, e] at h
      have := (List.cons.inj h).1
      rw [← this] at hd; exact absurd hd (by decide)
  | some m =>
    cases b with
    | none =>
      obtain ⟨d, r, e, hd⟩ := digits_head_ne m
      simp only [optNum, e] at h
      have := (List.cons.inj h).1
      rw [this] at hd; exact absurd hd (by decide)
    | some n =>
      obtain ⟨h1, h2⟩ := reads_digits m n s t trivial trivial hs ht h
      exact ⟨by rw [h1], h2⟩

theorem names_ok : (List.range 56).all (fun f => !(fieldName f).isEmpty && (fieldName f).all Ovs.isName) = true := by decide +kernel

theorem names_nodup : (List.range 56).all (fun f => (List.range 56).all fun g => decide (fieldName f = fieldName g → f = g)) = true := by decide +kernel

theorem reads_field : Reads (fun f : Nat => f < 56) (Stops Ovs.isName) fieldName := by
  apply reads_run
  · intro a ha c hc
    have := List.all_eq_true.1 names_ok a (List.mem_range.2 ha)
    rw [Bool.and_eq_true] at this
    exact List.all_eq_true.1 this.2 c hc
  · intro a b ha hb h
    have := List.all_eq_true.1 (List.all_eq_true.1 names_nodup a (List.mem_range.2 ha)) b (List.mem_range.2 hb)
    exact of_decide_eq_true this h

theorem field_head {f : Nat} (hf : f < 56) : ∃ d r, fieldName f = d :: r ∧ Ovs.isName d = true := by
  have := List.all_eq_true.1 names_ok f (List.mem_range.2 hf)
  rw [Bool.and_eq_true] at this
  cases e : fieldName f with
  | nil => rw [e] at this; simp at this
  | cons d r => exact ⟨d, r, rfl, List.all_eq_true.1 this.2 d (by rw [e]; simp)⟩

/-- The names of the sixteen types. -/
def tyName (t : Nat) : List Char := (actionNames.getD t "").toList

theorem tyNames_ok : (List.range 16).all (fun t => (tyName t).all Ovs.isName) = true := by decide +kernel

theorem tyNames_nodup : (List.range 16).all (fun f => (List.range 16).all fun g => decide (tyName f = tyName g → f = g)) = true := by decide +kernel

theorem reads_ty : Reads (fun t : Nat => t < 16) (Stops Ovs.isName) tyName := by
  apply reads_run
  · intro a ha c hc
    exact List.all_eq_true.1 (List.all_eq_true.1 tyNames_ok a (List.mem_range.2 ha)) c hc
  · intro a b ha hb h
    have := List.all_eq_true.1 (List.all_eq_true.1 tyNames_nodup a (List.mem_range.2 ha)) b (List.mem_range.2 hb)
    exact of_decide_eq_true this h

theorem ty_lt (a : Action) : a.ty < 16 := by cases a <;> simp [Action.ty]

end OFE.Str
