import Verif.Files.Model

/-! # Specification: what functions on files are called with -/

namespace OFE
namespace Files

/-- Specification: `v` is the argument that stands for the file, and the other arguments are those of the primed lists, in which `v'` takes its place. -/
inductive Replaced (v v' : Val) : Option (String × Nat) → List Val → List (String × Val) → List Val → List (String × Val) → Prop where
  | first (rest : List Val) (kwargs) : Replaced v v' none (v :: rest) kwargs (v' :: rest) kwargs
  | position (name : String) (before rest : List Val) (kwargs) :
      Replaced v v' (some (name, before.length)) (before ++ v :: rest) kwargs (before ++ v' :: rest) kwargs
  | keyword (name : String) (i : Nat) (args : List Val) (kwargs kwargs') : args.length ≤ i → kwargs.lookup name = some v →
      (∀ k, kwargs'.lookup k = if k = name then some v' else kwargs.lookup k) → Replaced v v' (some (name, i)) args kwargs args kwargs'

/-- Specification: a handle that is open and of the right kind for the mode. -/
def Suits (m : Mode) (h : Handle) : Prop :=
  h.closed = false ∧ h.detached = false ∧ h.binary = m.binary ∧ (if m.write then h.writable else h.readable) = true

/-- Specification: a function may open, close and detach file objects, but not change the others in any way. -/
def Keeps (w w' : World) : Prop := ∀ (i : Nat) (h : Handle), w[i]? = some h → ∃ h' : Handle, w'[i]? = some h' ∧ h'.binary = h.binary ∧ h'.readable = h.readable ∧ h'.writable = h.writable ∧
  h'.gz = h.gz ∧ h'.inner = h.inner ∧ (h.closed = true → h'.closed = true) ∧ (h.detached = true → h'.detached = true)

/-- Specification: the result of the function is passed on. -/
def passOn {ε ρ : Type} : Except ε ρ → Except (Err ε) ρ
  | .ok r => .ok r
  | .error e => .error (.raised e)

/-- Specification: the path names a compressed file. -/
def Compressed (s : List Char) : Prop := (∃ t, s = t ++ ".gz".toList) ∨ ∃ t, s = t ++ ".bz2".toList

end Files
end OFE
