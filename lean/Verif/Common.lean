/-!
# Python exceptions as values
-/

namespace OFE

/-- The python exceptions that the modelled code can raise. -/
inductive PyErr where
  | assertion
  | keyError
  | typeError
  | valueError
  | indexError
  | attributeError
  | overflow
  | nameError
  | mergeError
  | noOverlap
  | runtimeError
  | fuel
deriving DecidableEq, Repr

/-- Insertion into a python dict that keeps insertion order: overwrite in place or append. -/
def dictSet {κ ν : Type} [DecidableEq κ] (k : κ) (v : ν) : List (κ × ν) → List (κ × ν)
  | [] => [(k, v)]
  | (k', v') :: rest => if k' = k then (k', v) :: rest else (k', v') :: dictSet k v rest

/-- `del d[k]` on an insertion ordered dict (the caller has checked that the key is present). -/
def dictDel {κ ν : Type} [DecidableEq κ] (k : κ) (d : List (κ × ν)) : List (κ × ν) := d.filter fun x => decide (x.1 ≠ k)

/-- Python `dict.__eq__`: same number of entries and every entry of one is an entry of the other. -/
def dictEq {κ ν : Type} [DecidableEq κ] [DecidableEq ν] (a b : List (κ × ν)) : Bool :=
  a.length == b.length && a.all fun x => b.lookup x.1 == some x.2

end OFE
