import Verif.Shim.PrintSpec
import Verif.Match.RevLemmas
import Verif.Match.MatchLemmas
import Verif.Fmt.Lemmas
import Mathlib.Data.List.Perm.Basic

/-!
# Lemmas for the texts of shims
-/

namespace OFE
namespace Shim
open Fmt

theorem names_facts : ∀ f : Fin 56, fieldNamed (allFields.getD f.1 ("", 0)).1.toList = some f.1 ∧
    ∀ c ∈ (allFields.getD f.1 ("", 0)).1.toList, c ≠ '=' ∧ c ≠ '/' ∧ c ≠ ',' ∧ c ≠ ')' := by decide +kernel

theorem digit_chars : ∀ d : Fin 10, digitChar d.1 ≠ '=' ∧ digitChar d.1 ≠ '/' ∧ digitChar d.1 ≠ ',' ∧ digitChar d.1 ≠ ')' := by decide +kernel

theorem digits_chars (n : Nat) : ∀ c ∈ digits 10 n, c ≠ '=' ∧ c ≠ '/' ∧ c ≠ ',' ∧ c ≠ ')' := by
  intro c hc
  obtain ⟨d, hd, rfl⟩ := (digits_read (by decide) (by decide) n).2.2 c hc
  exact digit_chars ⟨d, hd⟩

theorem readEntry_str {x : Nat × Nat × Option Nat} (hx : x.1 < 56) : readEntry (entryStr x) = some x ∧ ',' ∉ entryStr x ∧ ')' ∉ entryStr x ∧ entryStr x ≠ [] := by
  obtain ⟨f, v, m⟩ := x
  obtain ⟨n1, n2⟩ := names_facts ⟨f, hx⟩
  simp only at n1 n2 hx
  have a1 : '=' ∉ (allFields.getD f ("", 0)).1.toList := fun h => (n2 _ h).1 rfl
  have d1 : ∀ n, '=' ∉ digits 10 n := fun n h => (digits_chars n _ h).1 rfl
  have d2 : ∀ n, '/' ∉ digits 10 n := fun n h => (digits_chars n _ h).2.1 rfl
  have d3 : ∀ n, ',' ∉ digits 10 n := fun n h => (digits_chars n _ h).2.2.1 rfl
  have d4 : ∀ n, ')' ∉ digits 10 n := fun n h => (digits_chars n _ h).2.2.2 rfl
  have a3 : ',' ∉ (allFields.getD f ("", 0)).1.toList := fun h => (n2 _ h).2.2.1 rfl
  have a4 : ')' ∉ (allFields.getD f ("", 0)).1.toList := fun h => (n2 _ h).2.2.2 rfl
  have rn : ∀ n, readNum 10 (digits 10 n) = .ok n := fun n => readNum_digits (by decide) (by decide) n
  cases m with
  | none =>
    refine ⟨?_, ?_, ?_, by simp [entryStr]⟩
    · simp only [entryStr, readEntry]
      rw [splitAt_part a1, splitAt_none (d1 v)]
      simp only [n1, splitAt_none (d2 v), rn]
      rfl
    · simp [entryStr, a3, d3, -List.getD_eq_getElem?_getD]
    · simp [entryStr, a4, d4, -List.getD_eq_getElem?_getD]
  | some m =>
    have e1 : '=' ∉ digits 10 v ++ '/' :: digits 10 m := by simp [d1]
    refine ⟨?_, ?_, ?_, by simp [entryStr]⟩
    · simp only [entryStr, readEntry]
      rw [splitAt_part a1, splitAt_none e1]
      simp only [n1, splitAt_part (d2 v), splitAt_none (d2 m), rn]
    · simp [entryStr, a3, d3, -List.getD_eq_getElem?_getD]
    · simp [entryStr, a4, d4, -List.getD_eq_getElem?_getD]

theorem mapM_read {l : List (Nat × Nat × Option Nat)} (h : ∀ x ∈ l, x.1 < 56) : (l.map entryStr).mapM readEntry = some l := by
  induction l with
  | nil => rfl
  | cons x l ih =>
    rw [List.map_cons, List.mapM_cons, (readEntry_str (h x List.mem_cons_self)).1, ih fun y hy => h y (List.mem_cons_of_mem _ hy)]
    rfl

theorem mem_joinWith {sep c : Char} : ∀ {l : List (List Char)}, c ∈ joinWith sep l → c = sep ∨ ∃ p ∈ l, c ∈ p
  | [], h => by simp [joinWith] at h
  | [p], h => .inr ⟨p, by simp, h⟩
  | p :: q :: r, h => by
    simp only [joinWith, List.mem_append, List.mem_cons] at h
    rcases h with h | h | h
    · exact .inr ⟨p, by simp, h⟩
    · exact .inl h
    · rcases mem_joinWith h with h | ⟨x, hx, h⟩
      · exact .inl h
      · exact .inr ⟨x, List.mem_cons_of_mem _ hx, h⟩

/-- The text of the fields can be read. -/
theorem readWc_join {l : List (Nat × Nat × Option Nat)} (h : ∀ x ∈ l, x.1 < 56) :
    readWc (joinWith ',' (l.map entryStr)) = some l ∧ ')' ∉ joinWith ',' (l.map entryStr) := by
  refine ⟨?_, fun hc => ?_⟩
  · cases l with
    | nil => rfl
    | cons x l =>
      have hx := readEntry_str (h x List.mem_cons_self)
      have hne : joinWith ',' ((x :: l).map entryStr) ≠ [] := by
        cases l with
        | nil => exact hx.2.2.2
        | cons y l => simp [joinWith]
      unfold readWc
      rw [if_neg hne, splitAt_join (by simp) ?_]
      · exact mapM_read h
      · intro p hp
        obtain ⟨y, hy, rfl⟩ := List.mem_map.1 hp
        exact (readEntry_str (h y hy)).2.1
  · rcases mem_joinWith hc with hc | ⟨p, hp, hc⟩
    · exact absurd hc (by decide)
    · obtain ⟨y, hy, rfl⟩ := List.mem_map.1 hp
      exact (readEntry_str (h y hy)).2.2.1 hc

/-- The text of a proper wildcard. -/
def textOf (w : Nat) : List Char := joinWith ',' ((fieldsOf w).map entryStr)

theorem wcStr_ok {w : Nat} (h : WcGood w) : wcStr w = .ok (textOf w) ∧ readWc (textOf w) = some (fieldsOf w) ∧ ')' ∉ textOf w := by
  refine ⟨?_, readWc_join fun x hx => ?_⟩
  · unfold wcStr; rw [wildcardToFields_eq h.pad]; rfl
  · exact (norm_fieldsOf x hx).1

theorem textOf_inj {w w' : Nat} (h : WcGood w) (h' : WcGood w') (e : textOf w = textOf w') : w = w' := by
  have a := (wcStr_ok h).2.1
  rw [e, (wcStr_ok h').2.1] at a
  have b := toWildcard_fieldsOf h.valid h.pad
  rw [← Option.some.inj a, toWildcard_fieldsOf h'.valid h'.pad] at b
  exact (Except.ok.inj b).symm

/-! ### Sorting -/

theorem insertText_perm (a : List Char) (l : List (List Char)) : (insertText a l).Perm (a :: l) := by
  induction l with
  | nil => exact .refl _
  | cons b l ih =>
    unfold insertText
    split
    · exact .refl _
    · exact (ih.cons b).trans (.swap a b l)

theorem sortTexts_perm (l : List (List Char)) : (sortTexts l).Perm l := by
  induction l with
  | nil => exact .refl _
  | cons a l ih => exact (insertText_perm a _).trans (ih.cons a)

theorem insertText_sorted (a : List Char) {l : List (List Char)} (h : l.Pairwise (· ≤ ·)) : (insertText a l).Pairwise (· ≤ ·) := by
  induction l with
  | nil => exact List.pairwise_singleton _ _
  | cons b l ih =>
    obtain ⟨h1, h2⟩ := List.pairwise_cons.1 h
    unfold insertText
    split
    · next hab =>
      refine List.pairwise_cons.2 ⟨fun c hc => ?_, h⟩
      rcases List.mem_cons.1 hc with rfl | hc
      · exact hab
      · exact List.le_trans hab (h1 c hc)
    · next hab =>
      refine List.pairwise_cons.2 ⟨fun c hc => ?_, ih h2⟩
      rcases List.mem_cons.1 ((insertText_perm a l).mem_iff.1 hc) with rfl | hc
      · exact (List.le_total c b).resolve_left hab
      · exact h1 c hc

theorem sortTexts_sorted (l : List (List Char)) : (sortTexts l).Pairwise (· ≤ ·) := by
  induction l with
  | nil => exact List.Pairwise.nil
  | cons a l ih => exact insertText_sorted a ih

theorem sortTexts_congr {l l' : List (List Char)} (h : l.Perm l') : sortTexts l = sortTexts l' :=
  List.Perm.eq_of_pairwise (fun _ _ _ _ hab hba => List.le_antisymm hab hba) (sortTexts_sorted l) (sortTexts_sorted l')
    ((sortTexts_perm l).trans (h.trans (sortTexts_perm l').symm))

/-! ### The whole text -/

theorem mapM_texts {l : List Nat} (h : ∀ e ∈ l, WcGood e) : l.mapM wcStr = .ok (l.map textOf) := by
  induction l with
  | nil => rfl
  | cons x l ih =>
    rw [List.mapM_cons, (wcStr_ok (h x List.mem_cons_self)).1, ih fun y hy => h y (List.mem_cons_of_mem _ hy)]
    rfl

/-- The text of a shim that is not empty. -/
def fullText (m : Nat) (exc : List Nat) : List Char :=
  '(' :: textOf m ++ ") ".toList ++ (sortTexts (exc.map textOf)).flatMap fun a => "!(".toList ++ a ++ ") ".toList

theorem str_ok {s : Shim} {m : Nat} (hz : s.zero = false) (hi : s.inc = some m) (hm : WcGood m) (he : ∀ e ∈ s.exc, WcGood e) :
    str s = .ok (fullText m s.exc) := by
  unfold str
  rw [hz, if_neg (by decide), mapM_texts he]
  simp only [bind, Except.bind, hi, (wcStr_ok hm).1]
  rfl

theorem splitAt_excl : ∀ {as : List (List Char)}, (∀ a ∈ as, ')' ∉ a) →
    splitAt ')' (' ' :: as.flatMap fun a => "!(".toList ++ a ++ ") ".toList) = (as.map fun a => ' ' :: '!' :: '(' :: a) ++ [[' ']]
  | [], _ => by decide
  | a :: as, h => by
    have e : (' ' :: (a :: as).flatMap fun a => "!(".toList ++ a ++ ") ".toList) =
        (' ' :: '!' :: '(' :: a) ++ ')' :: (' ' :: as.flatMap fun a => "!(".toList ++ a ++ ") ".toList) := by simp
    rw [e, splitAt_part, splitAt_excl fun b hb => h b (List.mem_cons_of_mem _ hb)]
    · rfl
    · simp [h a List.mem_cons_self]

theorem mapM_excl {as : List (List Char)} (h : ∀ a ∈ as, ∃ l, readWc a = some l) :
    (as.map fun a => ' ' :: '!' :: '(' :: a).mapM readExcl = some (as.map fun a => (readWc a).getD []) := by
  induction as with
  | nil => rfl
  | cons a as ih =>
    obtain ⟨l, hl⟩ := h a List.mem_cons_self
    have e : readExcl (' ' :: '!' :: '(' :: a) = some l := hl
    rw [List.map_cons, List.mapM_cons, e, ih fun b hb => h b (List.mem_cons_of_mem _ hb), List.map_cons, hl]
    rfl

/-- What is read from the text of a shim. -/
theorem readShim_full {m : Nat} {exc : List Nat} (hm : WcGood m) (he : ∀ e ∈ exc, WcGood e) :
    ∃ es, readShim (fullText m exc) = some (fieldsOf m, es) ∧ es.Perm (exc.map fieldsOf) := by
  have hs : ∀ a ∈ sortTexts (exc.map textOf), ∃ w, WcGood w ∧ a = textOf w := by
    intro a ha
    obtain ⟨w, hw, rfl⟩ := List.mem_map.1 ((sortTexts_perm _).mem_iff.1 ha)
    exact ⟨w, he w hw, rfl⟩
  have e : splitAt ')' (fullText m exc) = ('(' :: textOf m) :: ((sortTexts (exc.map textOf)).map (fun a => ' ' :: '!' :: '(' :: a) ++ [[' ']]) := by
    rw [← splitAt_excl, ← splitAt_part]
    · unfold fullText; congr 1; simp
    · simp [(wcStr_ok hm).2.2]
    · intro a ha
      obtain ⟨w, hw, rfl⟩ := hs a ha
      exact (wcStr_ok hw).2.2
  refine ⟨(sortTexts (exc.map textOf)).map fun a => (readWc a).getD [], ?_, ?_⟩
  · unfold readShim
    rw [e]
    simp only [List.dropLast_concat]
    rw [(wcStr_ok hm).2.1, mapM_excl]
    intro a ha
    obtain ⟨w, hw, rfl⟩ := hs a ha
    exact ⟨_, (wcStr_ok hw).2.1⟩
  · refine ((sortTexts_perm _).map _).trans ?_
    rw [List.map_map]
    refine (List.Perm.of_eq ?_)
    apply List.map_congr_left
    intro w hw
    simp only [Function.comp, (wcStr_ok (he w hw)).2.1, Option.getD_some]

theorem eqv_true {a b : Shim} : eqv a b = true ↔ (a.zero = true ∧ b.zero = true) ∨ (a.zero = false ∧ b.zero = false ∧ a.inc = b.inc ∧ ∀ x, x ∈ a.exc ↔ x ∈ b.exc) := by
  unfold eqv
  cases a.zero <;> cases b.zero <;> simp
  constructor
  · rintro ⟨⟨h0, h1⟩, h2⟩; exact ⟨h0, fun x => ⟨h1 x, h2 x⟩⟩
  · rintro ⟨h0, h⟩; exact ⟨⟨h0, fun x => (h x).1⟩, fun x => (h x).2⟩

end Shim
end OFE
