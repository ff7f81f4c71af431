import Verif.Fib.Model
import Verif.Ruleset.Spec

/-! # Specification: longest prefix match -/

namespace OFE
namespace Fib

/-- A proper line: four bytes and a length up to 32. -/
def Line.Proper {π : Type} (l : Line π) : Prop := l.parts.length = 4 ∧ (∀ x ∈ l.parts, x < 256) ∧ l.mask ≤ 32

/-- The address of a line as a number, base 256. -/
def Line.addr {π : Type} (l : Line π) : Nat := l.parts.foldl (fun acc x => acc * 256 + x) 0

/-- The first `mask` bits of the 32-bit address `x` are those of the route. -/
def Line.Contains {π : Type} (l : Line π) (x : Nat) : Prop := x / 2 ^ (32 - l.mask) = l.addr / 2 ^ (32 - l.mask)

/-- The IPv4 destination of a packet. -/
def ipDst (p : Pkt) : Nat := p.fld 12 0 % 2 ^ 32

/-- The longest prefix match of an address. -/
def Longest {π : Type} (lines : List (Line π)) (x : Nat) (l : Line π) : Prop :=
  l ∈ lines ∧ l.Contains x ∧ ∀ k ∈ lines, k.Contains x → k.mask ≤ l.mask

/-- No two lines for the same prefix. -/
def DistinctRoutes {π : Type} (lines : List (Line π)) : Prop :=
  lines.Pairwise fun k l => ¬ (k.mask = l.mask ∧ k.addr / 2 ^ (32 - k.mask) = l.addr / 2 ^ (32 - k.mask))

end Fib
end OFE
