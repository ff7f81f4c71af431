import Verif.Common

/-!
# Numbers and addresses as text

Model of `ofequivalence/format_utils.py`.  Strings and byte strings are lists of characters.
-/

namespace OFE.Fmt

/-- A digit as python writes it in base 10 or 16. -/
def digitChar (d : Nat) : Char := if d < 10 then Char.ofNat (48 + d) else Char.ofNat (87 + d)

/-- The number of digit `c`, lower or upper case; 99 if it is none. -/
def digitVal (c : Char) : Nat :=
  if '0' ≤ c ∧ c ≤ '9' then c.toNat - 48
  else if 'a' ≤ c ∧ c ≤ 'f' then c.toNat - 87
  else if 'A' ≤ c ∧ c ≤ 'F' then c.toNat - 55
  else 99

/-- `"{:d}".format(n)` (`b = 10`) and `"{:x}".format(n)` (`b = 16`), format_utils.py:25-36. -/
def digits (b n : Nat) : List Char :=
  if n < b ∨ b < 2 then [digitChar n] else digits b (n / b) ++ [digitChar (n % b)]
termination_by n
decreasing_by
  rename_i h
  exact Nat.div_lt_self (by omega) (by omega)

/-- `"{:0wx}".format(n)`, format_utils.py:41, 50, 59. -/
def padHex (w n : Nat) : List Char := List.replicate (w - (digits 16 n).length) '0' ++ digits 16 n

/-- `re.findall('..', s)`, format_utils.py:41, 50, 59. -/
def pairs : List Char → List (List Char)
  | a :: b :: rest => [a, b] :: pairs rest
  | _ => []

/-- `sep.join(parts)`. -/
def joinWith (sep : Char) : List (List Char) → List Char
  | [] => []
  | [p] => p
  | p :: q :: rest => p ++ sep :: joinWith sep (q :: rest)

/-- `s.split(sep)` for a separator of one character. -/
def splitAt (sep : Char) : List Char → List (List Char)
  | [] => [[]]
  | c :: rest =>
    if c = sep then [] :: splitAt sep rest
    else match splitAt sep rest with
      | [] => [[c]]
      | h :: t => (c :: h) :: t

/-- `int(s, b)` for strings of digits.  Python also takes spaces around the number, a sign, underscores and (base 16) a prefix 0x; those are
not modelled and count as a ValueError here. -/
def readNum (b : Nat) (s : List Char) : Except PyErr Nat :=
  if s ≠ [] ∧ ∀ c ∈ s, digitVal c < b then .ok (s.foldl (fun x c => x * b + digitVal c) 0) else .error .valueError

/-- `int(s, 0)`: hexadecimal with prefix 0x, otherwise decimal without leading zeros (zeros alone are allowed).  Octal, binary, signs, spaces
and underscores are not modelled and count as a ValueError here. -/
def readAuto (s : List Char) : Except PyErr Nat :=
  match s with
  | '0' :: 'x' :: rest => readNum 16 rest
  | '0' :: 'X' :: rest => readNum 16 rest
  | '0' :: rest => if ∀ c ∈ rest, c = '0' then .ok 0 else .error .valueError
  | s => readNum 10 s

/-- `format_decimal(value, None)`, format_utils.py:25-29 -/
def formatDecimal (v : Nat) : List Char := digits 10 v

/-- `format_hex(value, None)`, format_utils.py:32-36 -/
def formatHex (v : Nat) : List Char := '0' :: 'x' :: digits 16 v

/-- `format_ethernet(value, None)`, format_utils.py:39-45 -/
def formatEthernet (v : Nat) : List Char := joinWith ':' (pairs (padHex 12 v))

/-- `format_ipv6(value, None)`, format_utils.py:48-54 -/
def formatIpv6 (v : Nat) : List Char := joinWith ':' (pairs (padHex 32 v))

/-- `format_ipv4(value)`, format_utils.py:57-63; the parts are hexadecimal digits, so `int` does not fail. -/
def formatIpv4 (v : Nat) : List Char :=
  joinWith '.' ((pairs (padHex 8 v)).map fun x => match readNum 16 x with | .ok n => digits 10 n | .error _ => [])

/-- A formatter with a mask, format_utils.py:29, 36, 45, 54, 63: the two texts with a slash between. -/
def withMask (f : Nat → List Char) (v : Nat) (mask : Option Nat) : List Char :=
  match mask with
  | none => f v
  | some m => f v ++ '/' :: f m

/-- `value.find(b"::") != -1`, format_utils.py:86 -/
def hasDouble : List Char → Bool
  | c :: d :: rest => (c == ':' && d == ':') || hasDouble (d :: rest)
  | _ => false

/-- `v2.replace(b'::', b':::', 1)`, format_utils.py:89 -/
def replaceDouble : List Char → List Char
  | ':' :: ':' :: rest => ':' :: ':' :: ':' :: rest
  | c :: rest => c :: replaceDouble rest
  | [] => []

/-- The while loop, format_utils.py:88-89; every turn adds a part, so 8 turns are enough. -/
def expandDouble : Nat → List Char → Except PyErr (List Char)
  | 0, _ => .error .fuel
  | fuel + 1, v => if (splitAt ':' v).length < 8 then expandDouble fuel (replaceDouble v) else .ok v

/-- The loop over the parts, format_utils.py:94-98.  `shift` is 16 times the number of parts that follow. -/
def groupsLoop : List (List Char) → Nat → Except PyErr Nat
  | [], res => .ok res
  | part :: rest, res => do
    let n ← readNum 16 (if part = [] then ['0'] else part)
    if n ≤ 0xFFFF then groupsLoop rest (res ||| n <<< (16 * rest.length)) else .error .assertion

/-- `normalise_bytes(value)` for a text, format_utils.py:76-121. -/
def normaliseBytes (value : List Char) : Except PyErr Nat := do
  let colon := splitAt ':' value
  if colon.length = 8 ∨ (3 ≤ colon.length ∧ hasDouble value = true) then
    let v2 ← expandDouble 9 value
    let parts := splitAt ':' v2
    if parts.length = 8 then groupsLoop parts 0 else .error .assertion
  else if (splitAt '.' value).length = 4 then
    match splitAt '.' value with
    | [p0, p1, p2, p3] => do
      let a ← readNum 10 p0
      let b ← readNum 10 p1
      let c ← readNum 10 p2
      let d ← readNum 10 p3
      if a ||| b ||| c ||| d ≤ 0xFF then return a <<< 24 ||| b <<< 16 ||| c <<< 8 ||| d else .error .assertion
    | _ => .error .assertion
  else if colon.length = 6 then readNum 16 colon.flatten
  else if (splitAt '-' value).length = 6 then readNum 16 (splitAt '-' value).flatten
  else return value.foldl (fun x c => x * 256 + c.toNat) 0

/-- `normalise_string(value)`, format_utils.py:124-128 -/
def normaliseString (value : List Char) : Except PyErr Nat :=
  match readAuto value with
  | .error .valueError => normaliseBytes value
  | r => r

end OFE.Fmt
