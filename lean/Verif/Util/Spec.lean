import Verif.Util.Model

/-!
# Specification of the utilities
-/

namespace OFE.Util

/-- The blocks of a program. -/
def Prog.blocks {κ : Type} : Prog κ → List κ
  | .skip => []
  | .look => []
  | .raise => []
  | .seq p q => p.blocks ++ q.blocks
  | .attempt p => p.blocks
  | .block c p => c :: p.blocks

/-- What should be observed: for every `look` that is reached the value of `ctx`, which blocks change by `f`, and whether the program ends
with an exception; `bad ctx c` says that leaving a block raises. -/
def Prog.ideal {κ ρ : Type} (f : κ → ρ → ρ) (bad : ρ → κ → Bool) : Prog κ → ρ → List ρ × Bool
  | .skip, _ => ([], false)
  | .look, ctx => ([ctx], false)
  | .raise, _ => ([], true)
  | .seq p q, ctx =>
    let x := p.ideal f bad ctx
    if x.2 then x else
      let y := q.ideal f bad ctx
      (x.1 ++ y.1, y.2)
  | .attempt p, ctx => ((p.ideal f bad ctx).1, false)
  | .block c p, ctx =>
    let x := p.ideal f bad (f c ctx)
    (x.1, x.2 || bad ctx c)

/-- Every block either stays within the rules that already have a diagram or only uses others. -/
def Prog.Laminar (rs : Nat → List Nat) : Prog Nat → (Nat → Bool) → Prop
  | .skip, _ => True
  | .look, _ => True
  | .raise, _ => True
  | .seq p q, cover => p.Laminar rs cover ∧ q.Laminar rs cover
  | .attempt p, cover => p.Laminar rs cover
  | .block c p, cover =>
    ((∀ r ∈ rs c, cover r = true) ∨ (∀ r ∈ rs c, cover r = false)) ∧ p.Laminar rs fun i => decide (i ∈ rs c) || cover i

/-- Lower and upper case letters. -/
def letters (upper : Bool) : List Char :=
  (if upper then "ABCDEFGHIJKLMNOPQRSTUVWXYZ" else "abcdefghijklmnopqrstuvwxyz").toList

end OFE.Util
