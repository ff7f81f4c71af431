import Verif.Tree.Model

/-! # Specification: ancestors and transitive reduction -/

namespace OFE
namespace Tree

variable {ν : Type}

/-- `a` is a parent of `n`, or a parent of a parent, and so on. -/
inductive Anc (par : ν → List ν) : ν → ν → Prop where
  | parent {n p} : p ∈ par n → Anc par n p
  | up {n p a} : p ∈ par n → Anc par p a → Anc par n a

/-- `p` is a parent of `n` and not an ancestor of another parent. -/
def Direct (par : ν → List ν) (n p : ν) : Prop := p ∈ par n ∧ ∀ q ∈ par n, ¬ Anc par q p

/-- Links as they should be: `children` mirrors `parents`, nothing is listed twice, and there are no cycles, the chain of ancestors of a node `n` being no
longer than `height n`. -/
structure LinksOK (height : ν → Nat) (t : Links ν) : Prop where
  mirror : ∀ n p, p ∈ t.par n ↔ n ∈ t.chi p
  nodupP : ∀ n, (t.par n).Nodup
  nodupC : ∀ n, (t.chi n).Nodup
  height : ∀ n p, p ∈ t.par n → height p < height n

end Tree
end OFE
