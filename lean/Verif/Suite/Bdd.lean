import Verif.Props.Walk
import Verif.Cudd.Model
import Verif.Suite.Actions

/-!
The expectations of the code's own tests of decision diagrams (tests/base_bdd.py with tests/test_bdd.py and tests/test_cuddbdd.py in /repo), evaluated on the
model: on the diagrams of the python back end, on those of CUDD, and for `len` on the node table.  These are tests, not proofs of properties; they are run by
the compiler (`#guard`), not checked by the kernel.  IN_PORT is field 0, ETH_DST 3, ETH_SRC 4, IPV4_SRC 11.  The test that merges 65536 rules is left out.
-/

namespace OFE
namespace Suite
open DD

/-- `Match(items).get_wildcard()`, tests/base_bdd.py:33-50 -/
def wcOf (items : List (Nat × Nat × Option Nat)) : Nat :=
  match (mm items).getWildcard with
  | .ok x => x.1
  | .error _ => 0

/-- The back end under test, tests/test_bdd.py:23-25 and tests/test_cuddbdd.py:23-25: `true` is `bdd`, `false` is `cuddbdd`.  `wc_to_BDD(Match(items).get_wildcard(), t, t)`. -/
def bd (py : Bool) (items : List (Nat × Nat × Option Nat)) (t : Nat) : DD Nat :=
  if py then (wcToDD totBits (wcOf items) t).getD bot else Cudd.wcToDD totBits (wcOf items) t

/-- `+` of the back end. -/
def plus (py : Bool) (a b : DD Nat) : DD Nat := if py then meld a b else Cudd.meld a b
/-- `difference` of the back end; `IS_DIFFERING` has the action 1. -/
def diff (py : Bool) (a b : DD Nat) : DD Nat := if py then difference 1 a b else Cudd.difference 1 a b
/-- `subtract` of the back end. -/
def sub (py : Bool) (a b : DD Nat) : DD Nat := if py then subtract a b else Cudd.subtract a b
/-- `intersection` of the back end. -/
def inter (py : Bool) (a b : DD Nat) : DD Nat := if py then intersection a b else Cudd.intersection a b

/-- A test that both back ends must pass. -/
def both (f : Bool → Bool) : Bool := f true && f false

/-- `self.IN_PORT0` and the others, tests/base_bdd.py:33-50: the values of ETH_DST and ETH_SRC. -/
def port0 (dst src : Option Nat) : List (Nat × Nat × Option Nat) :=
  (0, 0, none) :: ((match dst with | some v => [(3, v, none)] | none => []) ++ (match src with | some v => [(4, v, none)] | none => []))

/-! `test_stress_meld_16`, tests/base_bdd.py:54-71. -/

#guard both fun py => [4, 14, 9, 2, 5, 10, 7, 8, 12, 13, 3, 6, 15, 1, 11].foldl (fun (s : DD Nat × Bool) i =>
    (plus py s.1 (bd py [(0, i, some 0x1f)] 2), s.2 && plus py s.1 (bd py [(0, i, some 0x1f)] 2) == plus py (bd py [(0, i, some 0x1f)] 2) s.1))
  (bd py [(0, 0, some 0x1f)] 2, true) == (bd py [(0, 0, some 0x10)] 2, true)

/-! `test_comparing_bdd`, tests/base_bdd.py:94-120. -/

#guard both fun py => bd py (port0 none none) 2 == bd py (port0 none none) 2 && bd py [(0, 1, none)] 2 != bd py (port0 none none) 2 &&
  bd py (port0 none none) 2 != bd py (port0 none none) 3 && (bot : DD Nat) != bd py (port0 none none) 2

/-! `test_meld_overlapping`, tests/base_bdd.py:122-147. -/

#guard both fun py =>
  let a := bd py (port0 none none) 2
  let b := bd py (port0 none none) 3
  let c := bd py (port0 (some 1) none) 2
  let r := plus py c b
  plus py a b == a && plus py a b != b && plus py b c == b && inter py r c == c && diff py r b == bd py (port0 (some 1) none) 1

/-- `bdd_comp_to`, tests/base_bdd.py:190-193; the action of the first rule is an argument. -/
def compTo (py : Bool) (t : Nat) : DD Nat :=
  plus py (plus py (plus py (bd py (port0 (some 1) (some 1)) t) (bd py (port0 (some 2) (some 1)) 3)) (bd py (port0 (some 1) none) 4)) (bd py (port0 none none) 5)

/-- `expt_diff`, tests/base_bdd.py:205-207 -/
def threeOf (py : Bool) (a b c : Nat) : DD Nat :=
  plus py (plus py (bd py (port0 (some 1) (some 1)) a) (bd py (port0 (some 2) (some 1)) b)) (bd py (port0 (some 1) none) c)

/-! `test_difference`, tests/base_bdd.py:148-208. -/

#guard both fun py =>
  let a := bd py (port0 none none) 2
  let b := bd py (port0 none none) 3
  diff py a a == bot && diff py b b == bot && diff py bot bot == bot && diff py a b == bd py (port0 none none) 1 && diff py a bot == bd py (port0 none none) 1 &&
    diff py bot a == bd py [] 1 && diff py (compTo py 3) (compTo py 2) == bd py (port0 (some 1) (some 1)) 1 &&
    diff py (bd py (port0 none none) 5) (compTo py 2) == threeOf py 1 1 1

/-! `test_subtract`, tests/base_bdd.py:210-272. -/

#guard both fun py =>
  let a := bd py (port0 none none) 2
  let b := bd py (port0 none none) 3
  let d := bd py (port0 none none) 5
  sub py a a == bot && sub py b b == bot && sub py bot bot == bot && sub py a b == a && sub py b a == b && sub py a bot == a && sub py bot a == bot &&
    sub py (compTo py 2) (compTo py 3) == bd py (port0 (some 1) (some 1)) 2 && sub py (compTo py 3) (compTo py 2) == bd py (port0 (some 1) (some 1)) 3 &&
    sub py (compTo py 2) d == threeOf py 2 3 4 && sub py d (compTo py 2) == threeOf py 5 5 5

/-! `test_intersection`, tests/base_bdd.py:274-309. -/

#guard both fun py =>
  let a := bd py (port0 (some 1) none) 2
  let b := bd py (port0 none (some 1)) 2
  let c := bd py (port0 none (some 1)) 3
  let a2 := bd py (port0 (some 2) none) 2
  inter py a b == bd py (port0 (some 1) (some 1)) 2 && inter py b a == bd py (port0 (some 1) (some 1)) 2 && inter py c a == bot && inter py a c == bot &&
    inter py (bot : DD Nat) bot == bot && inter py a bot == bot && inter py bot a == bot && inter py a2 b == bd py (port0 (some 2) (some 1)) 2 &&
    inter py b a2 == bd py (port0 (some 2) (some 1)) 2

/-- `len` of the last diagram of a history of calls, on the node table of the python back end and by `BDD_len` of CUDD. -/
def lens (calls : List (Store.Call Nat)) : Option Nat × Nat :=
  let x := Store.run Store.keepAll totBits 1 calls
  (x.2.getLast?.bind (Store.len x.1.nodes), DD.cuddLen ((Store.runT totBits 1 calls).getLast?))

/-! `test_BDD_len` and `test_bit_order`, tests/base_bdd.py:311-363. -/

#guard lens [.wc (wcOf (port0 (some 1) none)) 2] == (some (32 + 48 + 1), 32 + 48 + 1)
#guard lens [.wc (wcOf (port0 none none)) 2] == (some (32 + 1), 32 + 1)
#guard lens [.wc (wcOf [(11, 5, some 0xF)]) 2, .wc (wcOf [(11, 8, some 0xC)]) 3, .op .meld 0 1] == (some 7, 7)
#guard lens [.wc (wcOf [(11, 0xA, some 0xF)]) 2, .wc (wcOf [(11, 1, some 3)]) 3, .op .meld 0 1] == (some 8, 8)

/-! `test_conversion_to_from_BDD`, tests/base_bdd.py:365-393, here with every field, not only the first and the last. -/

#guard both fun py => toWcs totBits (bd py [(11, 5, some 0xF)] 2) == [(wcOf [(11, 5, some 0xF)], 2)]
#guard both fun py => (List.range 40).all fun f => toWcs totBits (bd py [(f, 0xF445FA82FF38F92F, none)] 2) == [(wcOf [(f, 0xF445FA82FF38F92F, none)], 2)]

end Suite
end OFE
