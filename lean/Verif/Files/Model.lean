import Verif.DictLemmas

/-!
# File handles: model of `open_compressed` and `as_file_handle` in `ofequivalence/utils.py`

Handles are what Python's io module offers.  What the functions read and write is left out: only the kinds of handles matter here, and whether they are closed.
-/

namespace OFE
namespace Files

/-- An open (or closed) file object.  `inner` is the object that a TextIOWrapper wraps; `gz` says that data passes through gzip or bz2. -/
structure Handle where
  binary : Bool
  readable : Bool
  writable : Bool
  gz : Bool
  closed : Bool
  detached : Bool
  inner : Option Nat
deriving DecidableEq, Repr

/-- All file objects so far, by number. -/
abbrev World := List Handle

/-- The modes 'r', 'rb', 'w' and 'wb', which are all that the repository uses. -/
structure Mode where
  write : Bool
  binary : Bool
deriving DecidableEq, Repr

/-- An argument: a string, a file object (with the attributes `read` and `write`, as all of the io module), or something else. -/
inductive Val where
  | str (s : List Char)
  | handle (i : Nat)
  | other
deriving DecidableEq, Repr

/-- Exceptions: those of the wrapper, and those of the function. -/
inductive Err (ε : Type) where
  | indexError | keyError | attributeError | typeError | notImplemented | unsupported | closedFile | detachedFile | notFound
  | raised (e : ε)
deriving DecidableEq, Repr

/-- A new file object. -/
def new (w : World) (h : Handle) : Nat × World := (w.length, w ++ [h])

/-- `TextIOWrapper(handle)` -/
def wrap (w : World) (i : Nat) : Nat × World :=
  let h := w.getD i ⟨true, false, false, false, true, false, none⟩
  new w ⟨false, h.readable, h.writable, h.gz, false, false, some i⟩

/-- `open(name, mode)`, given whether the file system allows it. -/
def openPlain {ε : Type} (can : List Char → Mode → Bool) (w : World) (name : List Char) (m : Mode) : Except (Err ε) (Nat × World) :=
  if can name m then .ok (new w ⟨m.binary, !m.write, m.write, false, false, false, none⟩) else .error .notFound

/-- `open_compressed`, utils.py:92-108, in Python 3: GzipFile and BZ2File are binary, whatever the mode. -/
def openCompressed {ε : Type} (can : List Char → Mode → Bool) (w : World) (name : List Char) (m : Mode) : Except (Err ε) (Nat × World) :=
  if ".gz".toList.isSuffixOf name || ".bz2".toList.isSuffixOf name then
    if can name m then
      let x := new w ⟨true, !m.write, m.write, true, false, false, none⟩
      if m.binary then .ok x else .ok (wrap x.2 x.1)
    else .error .notFound
  else openPlain can w name m

/-- `_open(_file, mode)` in lines 185-188: other objects have no `endswith`, and `open` does not take them. -/
def openFor {ε : Type} (can : List Char → Mode → Bool) (compression : Bool) (w : World) (v : Val) (m : Mode) : Except (Err ε) (Nat × World) :=
  match v with
  | .str s => if compression then openCompressed can w s m else openPlain can w s m
  | _ => if compression then .error .attributeError else .error .typeError

/-- Set a flag of an object. -/
def setClosed (w : World) (i : Nat) : World := w.modify i fun h => { h with closed := true }
def setDetached (w : World) (i : Nat) : World := w.modify i fun h => { h with detached := true }

/-- `handle.close()`: a TextIOWrapper closes the object below; one that is detached raises. -/
def close {ε : Type} (w : World) (i : Nat) : Except (Err ε) World :=
  match w[i]? with
  | none => .ok w
  | some h =>
    if h.detached then .error .detachedFile
    else
      match h.inner with
      | none => .ok (setClosed w i)
      | some j => .ok (setClosed (setClosed w i) j)

/-- `handle.detach()` of a TextIOWrapper flushes first, which raises if it is closed. -/
def detach {ε : Type} (w : World) (i : Nat) : Except (Err ε) World :=
  match w[i]? with
  | none => .ok w
  | some h => if h.detached then .error .detachedFile else if h.closed then .error .closedFile else .ok (setDetached w i)

/-- The handle to call the function with and whether it is a new TextIOWrapper, utils.py:155-178: `_file.read(0)` gives '' or b'' and `_file.write('')` or
`_file.write(b'')` raise TypeError for the wrong kind.  Reading and writing raise if the object is closed or open for the other only. -/
def adapt {ε : Type} (m : Mode) (w : World) (i : Nat) : Except (Err ε) ((Nat × Bool) × World) :=
  match w[i]? with
  | none => .error .attributeError
  | some h =>
    if h.detached then .error .detachedFile
    else if h.closed then .error .closedFile
    else if !(if m.write then h.writable else h.readable) then .error .unsupported
    else if h.binary && !m.binary then .ok (((wrap w i).1, true), (wrap w i).2)
    else if !h.binary && m.binary then .error .notImplemented
    else .ok ((i, false), w)

/-- Where the file is among the arguments, utils.py:139-151: a position, or a keyword. -/
inductive Place where
  | pos (i : Nat)
  | kw (name : String)
deriving DecidableEq, Repr

/-- The lookup in lines 139-151. -/
def place {ε : Type} (arg : Option (String × Nat)) (args : List Val) (kwargs : List (String × Val)) : Except (Err ε) (Place × Val) :=
  match arg with
  | some (name, i) =>
    match args[i]? with
    | some v => .ok (.pos i, v)
    | none =>
      match kwargs.lookup name with
      | some v => .ok (.kw name, v)
      | none => .error .keyError
  | none =>
    match args[0]? with
    | some v => .ok (.pos 0, v)
    | none => .error .indexError

/-- `update_arg` -/
def update (p : Place) (v : Val) (args : List Val) (kwargs : List (String × Val)) : List Val × List (String × Val) :=
  match p with
  | .pos i => (args.set i v, kwargs)
  | .kw name => (args, dictSet name v kwargs)

/-- A function on files: from arguments and file objects to a result or an exception, and file objects. -/
abbrev Func (ε ρ : Type) := List Val → List (String × Val) → World → Except ε ρ × World

/-- Calling the function. -/
def call {ε ρ : Type} (f : Func ε ρ) (args : List Val × List (String × Val)) (w : World) : Except (Err ε) ρ × World :=
  match f args.1 args.2 w with
  | (.ok r, w') => (.ok r, w')
  | (.error e, w') => (.error (.raised e), w')

/-- A `finally` or `with` around a result: an exception in it replaces the result. -/
def after {ε ρ : Type} (fin : World → Except (Err ε) World) (x : Except (Err ε) ρ × World) : Except (Err ε) ρ × World :=
  match fin x.2 with
  | .ok w => (x.1, w)
  | .error e => (.error e, x.2)

/-- The call with a file object, lines 153-182. -/
def withHandle {ε ρ : Type} (m : Mode) (f : Func ε ρ) (args : List Val) (kwargs : List (String × Val)) (p : Place) (i : Nat) (w : World) :
    Except (Err ε) ρ × World :=
  match adapt m w i with
  | .error e => (.error e, w)
  | .ok ((j, wrapped), w1) =>
    let x := call f (update p (.handle j) args kwargs) w1
    if wrapped then after (fun w => detach w j) x else x

/-- The call with a path, lines 184-190. -/
def withPath {ε ρ : Type} (can : List Char → Mode → Bool) (m : Mode) (compression : Bool) (f : Func ε ρ) (args : List Val) (kwargs : List (String × Val)) (p : Place)
    (v : Val) (w : World) : Except (Err ε) ρ × World :=
  match openFor can compression w v m with
  | .error e => (.error e, w)
  | .ok (j, w1) => after (fun w => close w j) (call f (update p (.handle j) args kwargs) w1)

/-- The decorated function, `wrapper` in utils.py:136-190. -/
def asFileHandle {ε ρ : Type} (can : List Char → Mode → Bool) (m : Mode) (compression : Bool) (arg : Option (String × Nat)) (f : Func ε ρ)
    (args : List Val) (kwargs : List (String × Val)) (w : World) : Except (Err ε) ρ × World :=
  match place arg args kwargs with
  | .error e => (.error e, w)
  | .ok (p, .handle i) => withHandle m f args kwargs p i w
  | .ok (p, v) => withPath can m compression f args kwargs p v w

end Files
end OFE
