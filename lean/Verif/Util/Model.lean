import Verif.Common

/-!
# Small utilities

Models of `AlphaInt` and `AttachBDD` of `ofequivalence/utils.py`, `UniqueRules` of `ofequivalence/rule.py` and
`automatically_limit_memory` of `ofequivalence/limits.py`.
-/

namespace OFE.Util

/-! ### AlphaInt -/

/-- The while loop of `AlphaInt.__format__`, utils.py:205-209; `acc` is `ret`. -/
def alphaLoop (value : Int) (acc : List Char) : List Char :=
  if 0 ≤ value then alphaLoop (value / 26 - 1) (Char.ofNat (97 + (value % 26).toNat) :: acc) else acc
termination_by value.toNat + if 0 ≤ value then 1 else 0
decreasing_by
  split <;> omega

/-- `AlphaInt.__format__` with 'z' (`upper = false`) or 'Z', utils.py:203-212; other flags are those of `int`. -/
def alphaFormat (upper : Bool) (value : Int) : List Char :=
  let ret := alphaLoop value []
  if upper then ret.map Char.toUpper else ret

/-! ### automatically_limit_memory -/

/-- What reading /proc/meminfo gives, limits.py:48-59: an IOError, no line with MemFree, or a number of kB. -/
inductive MemInfo where
  | ioError
  | noLine
  | free (kb : Nat)

/-- `automatically_limit_memory(m_min, res_perc, max_res)`, limits.py:24-68.  `soft` and `hard` are the present limits, `none` is
RLIM_INFINITY.  The result is the limit set, `none` if the limit is left alone (the code returns False).  `min` with None is a TypeError
(on python 2 it is None, and the subtraction that follows is a TypeError).  That the operating system refuses the limit is not modelled. -/
def limitMemory (mMin resPerc : Int) (maxRes : Option Int) (soft hard : Option Nat) (info : MemInfo) : Except PyErr (Option Int) :=
  if 0 ≤ resPerc ∧ resPerc ≤ 100 then
    if soft = none ∧ hard = none then
      match info with
      | .ioError => .ok none
      | .noLine => .ok none
      | .free kb =>
        let memFree : Int := (kb : Int) * 1024
        match maxRes with
        | none => .error .typeError
        | some m =>
          let reserve := min (resPerc * memFree / 100) m
          .ok (some (max (memFree - reserve) mMin))
    else .ok none
  else .error .assertion

/-! ### Programs with `with` blocks -/

/-- Programs as far as context managers are concerned: `look` observes the state, `raise` raises, `attempt` is try/except around a part,
`block c p` is `with c: p`. -/
inductive Prog (κ : Type) where
  | skip
  | look
  | raise
  | seq (p q : Prog κ)
  | attempt (p : Prog κ)
  | block (c : κ) (p : Prog κ)

/-- A context manager over states `σ`: `__enter__` and `__exit__`, each with an exception or not.  Neither swallows exceptions. -/
structure Manager (κ σ : Type) where
  enter : κ → σ → σ × Bool
  leave : κ → σ → σ × Bool

/-- Runs a program; the result is the state, what was observed, and whether an exception is under way.  `__exit__` is called whether or not
the body raises, and is not called if `__enter__` raises. -/
def Prog.run {κ σ : Type} (m : Manager κ σ) : Prog κ → σ → σ × List σ × Bool
  | .skip, s => (s, [], false)
  | .look, s => (s, [s], false)
  | .raise, s => (s, [], true)
  | .seq p q, s =>
    let x := p.run m s
    if x.2.2 then x else
      let y := q.run m x.1
      (y.1, x.2.1 ++ y.2.1, y.2.2)
  | .attempt p, s =>
    let x := p.run m s
    (x.1, x.2.1, false)
  | .block c p, s =>
    let e := m.enter c s
    if e.2 then (e.1, [], true) else
      let x := p.run m e.1
      let l := m.leave c x.1
      (l.1, x.2.1, x.2.2 || l.2)

/-! ### UniqueRules -/

/-- State: the comparison methods of the class Rule (`none`: those of object, i.e. identity), and what each UniqueRules object has saved. -/
structure UState (μ : Type) where
  cls : Option μ
  saved : Nat → Option μ

/-- `UniqueRules(...)`: object number `c.1`; `c.2` says whether `rebuild_mappings` raises (a defaultdict among the mappings: its constructor
does not take the items). -/
abbrev UBlock := Nat × Bool

/-- `UniqueRules.__enter__` and `__exit__`, rule.py:1265-1302.  A missing `_old_hash` is an AttributeError that `__exit__` catches, before
anything is changed. -/
def uniqueRules (μ : Type) : Manager UBlock (UState μ) where
  enter c s :=
    match s.cls with
    | some m => (⟨none, fun i => if i = c.1 then some m else s.saved i⟩, false)
    | none => (s, false)
  leave c s :=
    match s.saved c.1 with
    | some m => (⟨some m, s.saved⟩, c.2)
    | none => (s, false)

/-- `rebuild_mappings` for a dict, rule.py:1276-1291, when keys are compared with `eq`: an equal key that is already there keeps its place and
gets the new value. -/
def rebuildDict {κ ν : Type} (eq : κ → κ → Bool) (d : List (κ × ν)) : List (κ × ν) :=
  d.foldl (fun acc x => if acc.any (fun y => eq y.1 x.1) then acc.map (fun y => if eq y.1 x.1 then (y.1, x.2) else y) else acc ++ [x]) []

/-! ### AttachBDD -/

/-- State: the rules (by number) that have the attribute `as_BDD`, and the `ruleset` attribute of each AttachBDD object. -/
structure AState where
  has : Nat → Bool
  ruleset : Nat → Option (List Nat)

/-- Sets or deletes the attribute of the rules, utils.py:82-83 and 86-88: `del` of a missing attribute is an AttributeError. -/
def delAttrs : List Nat → (Nat → Bool) → (Nat → Bool) × Bool
  | [], h => (h, false)
  | r :: rs, h => if h r then delAttrs rs (fun i => if i = r then false else h i) else (h, true)

/-- `AttachBDD.__enter__` and `__exit__`, utils.py:75-89, for the object number `c`.  An empty ruleset is an IndexError. -/
def attachBDD : Manager Nat AState where
  enter c s :=
    match s.ruleset c with
    | none => (s, true)
    | some [] => (s, true)
    | some (r :: rs) =>
      if s.has r then (⟨s.has, fun i => if i = c then none else s.ruleset i⟩, false)
      else (⟨fun i => decide (i ∈ r :: rs) || s.has i, s.ruleset⟩, false)
  leave c s :=
    match s.ruleset c with
    | none => (s, false)
    | some rs =>
      let x := delAttrs rs s.has
      (⟨x.1, s.ruleset⟩, x.2)

end OFE.Util
