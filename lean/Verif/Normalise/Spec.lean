import Verif.Wildcard.Spec

/-!
# Specification of forwarding: the first rule that matches
-/

namespace OFE
variable {α : Type}

/-- `x` is the label of the first entry of the list whose wildcard covers `p`; `none` when no entry covers it. -/
inductive FirstMatch (n : Nat) (p : Packet) : List (Nat × α) → Option α → Prop where
  | nil : FirstMatch n p [] none
  | hit {wc a rest} : Covers n wc p → FirstMatch n p ((wc, a) :: rest) (some a)
  | miss {wc a rest x} : ¬ Covers n wc p → FirstMatch n p rest x → FirstMatch n p ((wc, a) :: rest) x

theorem FirstMatch.unique {n : Nat} {p : Packet} {l : List (Nat × α)} {x y : Option α}
    (hx : FirstMatch n p l x) (hy : FirstMatch n p l y) : x = y := by
  induction hx with
  | nil => cases hy; rfl
  | hit h => cases hy with
    | hit => rfl
    | miss h' => exact absurd h h'
  | miss h _ ih => cases hy with
    | hit h' => exact absurd h' h
    | miss _ h2 => exact ih h2

theorem FirstMatch.exists (n : Nat) (p : Packet) (l : List (Nat × α)) : ∃ x, FirstMatch n p l x := by
  induction l with
  | nil => exact ⟨none, .nil⟩
  | cons e l ih =>
    obtain ⟨wc, a⟩ := e
    by_cases h : Covers n wc p
    · exact ⟨some a, .hit h⟩
    · obtain ⟨x, hx⟩ := ih
      exact ⟨x, .miss h hx⟩

end OFE
