import Mathlib.Data.Nat.Bitwise

/-!
# Ternary wildcards

Model of the wildcard arithmetic of `ofequivalence/headerspace.py`.  A wildcard is a python int holding two bits
per header bit ("tbit"): bit `2i` says that header bit `i` may be `0`, bit `2i+1` that it may be `1`.
All definitions take the number `n` of tbits as a parameter; the code uses `n = bytes_needed*8 = 1584`.
-/

namespace OFE

/-- Number of tbits of the deployed layout: `bytes_needed*8`, headerspace.py:34-58 (198 bytes are needed for 1581
header bits; see `Verif.Layout`). -/
def totBits : Nat := 1584

/-- `ODD_MASKS[n]`, headerspace.py:74-87 (`_generate_masks`): start with 0, then shift by two and or in 1.
The python tuple has 2024 entries, the function is total. -/
def oddMask : Nat → Nat
  | 0 => 0
  | n + 1 => (oddMask n <<< 2) ||| 1

/-- python's `a & ~b` for non-negative `a`, `b`. -/
def andNot (a b : Nat) : Nat := a ^^^ (a &&& b)

/-- `wildcard_intersect`, headerspace.py:90-95.  `~ret & (~ret >> 1) & MASK` on python's infinite two's complement is
`andNot (andNot MASK ret) (ret >>> 1)`. -/
def wcIntersect (n a b : Nat) : Nat :=
  let ret := a &&& b
  if (andNot (andNot (oddMask n) ret) (ret >>> 1)) ≠ 0 then 0 else ret

/-- `wildcard_is_subset`, headerspace.py:98-102: `not (first & ~second)`. -/
def wcIsSubset (a b : Nat) : Bool := andNot a b == 0

/-- `wildcard_union_cover`, headerspace.py:105-113. -/
def wcUnionCover (a b : Nat) : Nat := a ||| b

/-- The inner loop `for j in range(i+1, len(l))` of `compress_wildcard_list`, headerspace.py:200-204: indices pushed on
`pop_index` while comparing `l[i] = x` with the later elements, the first of which has index `j`. -/
def compressInner (i x : Nat) : Nat → List Nat → List Nat
  | _, [] => []
  | j, y :: ys =>
    (if wcIsSubset x y then [i] else if wcIsSubset y x then [j] else []) ++ compressInner i x (j + 1) ys

/-- The outer loop of `compress_wildcard_list`, headerspace.py:199-204. -/
def compressPops : Nat → List Nat → List Nat
  | _, [] => []
  | i, x :: xs => compressInner i x (i + 1) xs ++ compressPops (i + 1) xs

/-- `compress_wildcard_list`, headerspace.py:197-209: keep the elements whose index was not popped. -/
def compressList (l : List Nat) : List Nat :=
  (l.zipIdx.filter fun p => !(compressPops 0 l).contains p.2).map (·.1)

/-- `WC_FULLWC = (1 << bytes_needed*16) - 1`, headerspace.py:262. -/
def wcFull (n : Nat) : Nat := 2 ^ (2 * n) - 1

end OFE
