import Verif.Rule.Equality

/-!
# Operators and tests of matches and instructions

The small methods of `Match`, `ActionList`, `Instructions` and `Rule` in `ofequivalence/rule.py` that stand for others.
-/

namespace OFE

/-- `Match.__and__`, rule.py:1111-1115 -/
def Match.andOp (a b : Match) : Except PyErr Match := a.intersection b

/-- `Match.intersection_update`, rule.py:1143-1145.  NotImplementedError is a RuntimeError. -/
def Match.intersectionUpdate (_a _b : Match) : Except PyErr Match := .error .runtimeError

/-- `Match.__iadd__`, rule.py:1117-1121 -/
def Match.iaddOp (a b : Match) : Except PyErr Match := a.intersectionUpdate b

/-- `Match.__ne__`, rule.py:1217-1218 -/
def Match.ne (a b : Match) : Bool := !a.eq b

/-- `Match.empty`, rule.py:1230-1231 -/
def Match.isEmpty (m : Match) : Bool := m.items.length == 0

/-- `ActionList.empty`, rule.py:788-791 -/
def ActionList.isEmpty (l : ActionList) : Bool := l.len == 0

/-- `Instructions.empty`, rule.py:927-933.  `clear_actions` is None or True. -/
def Inst.isEmpty (i : Inst) : Bool :=
  i.goto.isNone && i.apply.isEmpty && i.write.isEmpty && i.wmeta.isNone && !i.clear && i.meter.isNone

/-- `Instructions.__add__`, rule.py:1007-1009 -/
def Inst.addOp (a b : Inst) : Except PyErr Inst := a.merge b

/-- `Rule.__add__`, rule.py:425-427; `openflow` is True by default (320). -/
def Rule.addOp {π : Type} (a b : Rule π) : Except PyErr (Rule π) := a.merge b true

/-- `Rule.__ne__`, rule.py:302-303 -/
def Rule.ne {π : Type} (a b : Rule π) : Bool := !a.eq b

end OFE
