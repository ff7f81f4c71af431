import Verif.Common
import Verif.Files.Ruleset

/-!
# Collecting the state of a switch: `scripts/collect_state.py`

The switch is what comes back when it is asked.  What is printed is left out.
-/

namespace OFE.Collect

/-- How a request ends: with a reply, with an exception that derives from `Exception`, or with one that does not (such as eventlet's `Timeout` and
`GreenletExit`), which `except Exception` does not catch. -/
inductive Out (β : Type) where
  | ok (b : β)
  | raises
  | exits
deriving DecidableEq, Repr

/-- A switch, by the names under which the answers are stored.  `plain` are the requests with one reply (collect_state.py:53-54, 64-65, 242-244), as what is
stored of it; `single` and `many` those with `reply_multi`, as the bodies of the parts.  `none` is the reply None. -/
structure Switch (α : Type) where
  plain : String → Out (Option α)
  single : String → Out (Option (List α))
  many : String → Out (Option (List (List α)))

/-- A value of `self.collection`. -/
inductive Value (α : Type) where
  | null
  | item (a : α)
  | list (l : List α)
deriving DecidableEq, Repr

/-- `self.collection`, collect_state.py:34 -/
abbrev Coll (α : Type) := List (String × Value α)

/-- The three forms of a block of `handle_datapath`. -/
inductive Kind where
  | plain
  | single
  | many
deriving DecidableEq, Repr

/-- What a block assigns, collect_state.py:55 (and 66-68, 245), 79-82 (and 172-175, 214-217), and 93-94 (and so on): `len(None)` and iterating over None are
TypeErrors, which are caught. -/
def ask {α : Type} (sw : Switch α) (key : String) : Kind → Out (Value α)
  | .plain =>
    match sw.plain key with
    | .ok none => .ok .null
    | .ok (some a) => .ok (.item a)
    | .raises => .raises
    | .exits => .exits
  | .single =>
    match sw.single key with
    | .ok (some [a]) => .ok (.item a)
    | .ok _ => .raises
    | .raises => .raises
    | .exits => .exits
  | .many =>
    match sw.many key with
    | .ok (some parts) => .ok (.list parts.flatten)
    | .ok none => .raises
    | .raises => .raises
    | .exits => .exits

/-- The blocks, in order, collect_state.py:51-249. -/
def requests : List (String × Kind) :=
  [("switch_features", .plain), ("config", .plain), ("desc", .single), ("flow_stats", .many), ("table_stats", .many), ("port_stats", .many),
    ("port_desc", .many), ("queue_stats", .many), ("group_stats", .many), ("group_desc", .many), ("group_features", .single), ("meter_stats", .many),
    ("meter_config", .many), ("meter_features", .single), ("table_features", .many), ("queue_config", .plain)]

/-- The blocks one after the other: the collection, and whether the end is reached. -/
def collect {α : Type} (sw : Switch α) : List (String × Kind) → Coll α → Coll α × Bool
  | [], c => (c, true)
  | (key, kind) :: rest, c =>
    match ask sw key kind with
    | .ok v => collect sw rest (dictSet key v c)
    | .raises => collect sw rest c
    | .exits => (c, false)

/-- The file switch_state.pickle. -/
inductive File (α : Type) where
  | absent
  | empty
  | state (c : Coll α)
deriving DecidableEq, Repr

/-- The application, collect_state.py:27-35, and the file. -/
structure App (α : Type) where
  done : Bool
  coll : Coll α
  file : File α

/-- The application at the start, collect_state.py:30-35 -/
def App.start {α : Type} : App α := ⟨false, [], .absent⟩

/-- An event: a switch arrives or leaves. -/
inductive Event (α : Type) where
  | enter (sw : Switch α)
  | leave

/-- The end of `handle_datapath`, collect_state.py:252, if it is reached.  `dumps` says whether pickle can write a collection; the file is opened first. -/
def finish {α : Type} (dumps : Coll α → Bool) (file : File α) : Coll α × Bool → App α
  | (c, false) => ⟨true, c, file⟩
  | (c, true) => ⟨true, c, if dumps c then .state c else .empty⟩

/-- `handle_datapath`, collect_state.py:37-253. -/
def handle {α : Type} (dumps : Coll α → Bool) (a : App α) : Event α → App α
  | .leave => a
  | .enter sw => if a.done then a else finish dumps a.file (collect sw requests a.coll)

/-- The run of the application: Ryu goes on after an exception in a handler. -/
def run {α : Type} (dumps : Coll α → Bool) (l : List (Event α)) : App α := l.foldl (handle dumps) .start

/-- A value of the collection when it is iterated over (convert_ryu.py:230). -/
def Value.iter {α : Type} : Value α → Option (List α)
  | .list l => some l
  | _ => none

/-- The file as the value that `pickle.load` gives, convert_ryu.py:218-221. -/
def asPickle {π : Type} (c : Coll (Save.PElem π)) : Save.PVal π := .dict (c.map fun x => (x.1, x.2.iter))

end OFE.Collect
