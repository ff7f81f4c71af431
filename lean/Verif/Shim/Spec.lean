import Verif.Shim.Model
import Verif.Wildcard.Spec

/-! # Specification: the packets of a shim, first match -/

namespace OFE
namespace Shim

/-- The packets that a `BooleanShim` stands for. -/
def Shim.Has (n : Nat) (s : Shim) (p : Packet) : Prop :=
  s.zero = false ∧ (∀ w, s.inc = some w → Covers n w p) ∧ ∀ e ∈ s.exc, ¬ Covers n e p

/-- The first entry for which `C` holds has `a`. -/
def First {β α : Type} (C : β → Prop) (l : List (β × α)) (a : α) : Prop :=
  ∃ before x after, l = before ++ x :: after ∧ C x.1 ∧ x.2 = a ∧ ∀ y ∈ before, ¬ C y.1

/-- The first rule that covers `p` does `a`. -/
def Picks {α : Type} (n : Nat) (rules : List (Nat × α)) (p : Packet) (a : α) : Prop := First (fun w => Covers n w p) rules a

end Shim
end OFE
