import Verif.Rule.Model
import Verif.Actions.ActionSet

/-!
# Conversion of a FIB

Model of `ofequivalence/convert_fib.py`.  A line is given by its parts: the numbers of `A.B.C.D`, the prefix length and the peer
(`line.split()`, `split(b"/")`, `split(b".")` and `int` of lines 58-65 are not modelled).
-/

namespace OFE
namespace Fib

/-- The parts of a line that are used, convert_fib.py:58-63, 68. -/
structure Line (π : Type) where
  parts : List Nat
  mask : Nat
  peer : π
deriving DecidableEq

/-- The state of the loop: `count`, `output_mapping` and `ruleset`, convert_fib.py:53-55. -/
structure State (π : Type) where
  count : Nat
  mapping : List (π × Nat)
  ruleset : List (Rule Unit)

/-- `IP_MASK`, convert_fib.py:35 -/
def ipMask : Nat := 0xFFFFFFFF

/-- `ip`, convert_fib.py:63-65 -/
def ipOf : List Nat → Except PyErr Nat
  | a :: b :: c :: d :: _ => .ok (a <<< 24 ||| b <<< 16 ||| c <<< 8 ||| d)
  | _ => .error .indexError

/-- `(IP_MASK<<(32-mask)) & IP_MASK`, convert_fib.py:66; a negative shift count raises. -/
def maskOf (mask : Nat) : Except PyErr Nat := if 32 < mask then .error .valueError else .ok ((ipMask <<< (32 - mask)) &&& ipMask)

/-- One round of the loop, convert_fib.py:57-74.  IPV4_DST is field 12. -/
def step {π : Type} [DecidableEq π] (s : State π) (l : Line π) : Except PyErr (State π) := do
  let ip ← ipOf l.parts
  let mask ← maskOf l.mask
  let mat := Match.empty.append 12 ip (some mask)
  let (count, mapping) := match s.mapping.lookup l.peer with
    | some _ => (s.count, s.mapping)
    | none => (s.count + 1, dictSet l.peer (s.count + 1) s.mapping)
  let port ← match mapping.lookup l.peer with
    | none => .error .keyError
    | some n => .ok n
  let write ← actionSetAppend .empty (.output port)
  return ⟨count, mapping, s.ruleset ++ [⟨l.mask, none, 0, mat, { Inst.empty with write }, []⟩]⟩

/-- `ruleset_from_fib`, convert_fib.py:38-76 (returns the ruleset only, not the mapping as its comment says). -/
def rulesetFromFib {π : Type} [DecidableEq π] (lines : List (Line π)) : Except PyErr (List (Rule Unit)) := do
  return (← lines.foldlM step ⟨0, [], []⟩).ruleset

end Fib
end OFE
