import Verif.Shim.Print
import Verif.Shim.Spec
import Verif.Match.Spec
import Verif.Match.Lemmas

/-!
# Reading shims: specification
-/

namespace OFE
namespace Shim
open Fmt

/-- Specification: the number of the field with a name. -/
def fieldNamed (s : List Char) : Option Nat := allFields.findIdx? fun x => x.1.toList == s

/-- Specification: `name=value` or `name=value/mask`, numbers in decimal. -/
def readEntry (s : List Char) : Option (Nat × Nat × Option Nat) :=
  match splitAt '=' s with
  | [name, v] =>
    match fieldNamed name, splitAt '/' v with
    | some f, [a] => (readNum 10 a).toOption.map fun a => (f, a, none)
    | some f, [a, b] =>
      match readNum 10 a, readNum 10 b with
      | .ok a, .ok b => some (f, a, some b)
      | _, _ => none
    | _, _ => none
  | _ => none

/-- Specification: fields with commas between them. -/
def readWc (s : List Char) : Option (List (Nat × Nat × Option Nat)) := if s = [] then some [] else (splitAt ',' s).mapM readEntry

/-- Specification: an excluded part, ` !(...`. -/
def readExcl : List Char → Option (List (Nat × Nat × Option Nat))
  | ' ' :: '!' :: '(' :: a => readWc a
  | _ => none

/-- Specification: the text `(...) !(...) !(...) ` is the included match and the excluded ones. -/
def readShim (t : List Char) : Option (List (Nat × Nat × Option Nat) × List (List (Nat × Nat × Option Nat))) :=
  match splitAt ')' t with
  | ('(' :: a) :: rest =>
    match readWc a, rest.dropLast.mapM readExcl with
    | some i, some es => some (i, es)
    | _, _ => none
  | _ => none

/-- Specification: a wildcard of packets, with free padding. -/
structure WcGood (w : Nat) : Prop where
  valid : WcValid totBits w
  pad : PadFull w

/-- Specification: a shim that is empty or made of proper wildcards. -/
def Printable (s : Shim) : Prop := s.zero = true ∨ (∃ m, s.inc = some m ∧ WcGood m) ∧ (∀ e ∈ s.exc, WcGood e) ∧ s.exc.Nodup

end Shim
end OFE
