import Mathlib.Logic.Function.Basic
/-
Model of filelock.cc (`FileLock`) used by any number of processes, and of file.cc
(`RenamingFilePtr`) with crashes.
-/
namespace Verif.Files

/-! ### FileLock -/

/-- Where one `FileLock` object is in its life.  `opened` is the point between a successful
`open` and `acquired_ = true`, filelock.cc:29-35. -/
inductive LockPc where
  | fresh | opened | acquired | gone
  deriving DecidableEq, Repr

/-- A `FileLock`: its path and position. -/
structure LockObj where
  path : Nat
  pc : LockPc

/-- The file system (which lock files exist; paths are numbers) and all lock objects of all
processes that were ever constructed. -/
structure LockWorld where
  file : Nat → Bool
  obj : Nat → Option LockObj

/-- The steps of the processes, interleaved arbitrarily.  `crash` is the end of a process
without running destructors, at any point. -/
inductive LockStep where
  | construct (o path : Nat)
  | acquireOpen (o : Nat)
  | acquireFinish (o : Nat) (closeOk : Bool)
  | destroy (o : Nat)
  | crash (o : Nat)
  deriving DecidableEq

/-- What the caller sees: nothing, the result of `acquire`, or one of its exceptions. -/
inductive LockResult where
  | none | returned (b : Bool) | threw
  deriving DecidableEq

def setObj (w : LockWorld) (o : Nat) (x : LockObj) : LockWorld :=
  { w with obj := Function.update w.obj o (some x) }

def setFile (w : LockWorld) (p : Nat) (b : Bool) : LockWorld :=
  { w with file := Function.update w.file p b }

/-- One step; `none` if it is not possible (no such object, or the object is elsewhere in
its life).  Constructor filelock.cc:19-20; `acquire` filelock.cc:22-40, split into the atomic
`open(..., O_EXCL | O_CREAT)` with the test before it and the rest; destructor
filelock.cc:42-46.  Simplification: `remove` in the destructor succeeds, `open` fails only if
the file exists, and nobody else touches lock files. -/
def lockStep (w : LockWorld) : LockStep → Option (LockWorld × LockResult)
  | .construct o p =>
    match w.obj o with
    | none => some (setObj w o ⟨p, .fresh⟩, .none)
    | some _ => none
  | .acquireOpen o =>
    match w.obj o with
    | some ⟨p, .acquired⟩ => some (setObj w o ⟨p, .acquired⟩, .threw)
    | some ⟨p, .fresh⟩ =>
      if w.file p then some (w, .returned false)
      else some (setObj (setFile w p true) o ⟨p, .opened⟩, .none)
    | _ => none
  | .acquireFinish o closeOk =>
    match w.obj o with
    | some ⟨p, .opened⟩ =>
      some (setObj w o ⟨p, .acquired⟩, if closeOk then .returned true else .threw)
    | _ => none
  | .destroy o =>
    match w.obj o with
    | some ⟨p, .acquired⟩ => some (setObj (setFile w p false) o ⟨p, .gone⟩, .none)
    | some ⟨p, .fresh⟩ => some (setObj w o ⟨p, .gone⟩, .none)
    | _ => none
  | .crash o =>
    match w.obj o with
    | some ⟨p, .gone⟩ => some (setObj w o ⟨p, .gone⟩, .none)
    | some ⟨p, _⟩ => some (setObj w o ⟨p, .gone⟩, .none)
    | none => none

/-- A history: the world afterwards, if every step was possible. -/
def lockRun (w : LockWorld) : List LockStep → Option LockWorld
  | [] => some w
  | e :: es => (lockStep w e).bind fun r => lockRun r.1 es

/-- Before any lock object exists; some lock files may be left over from earlier crashes. -/
def lockInit (left : Nat → Bool) : LockWorld := ⟨left, fun _ => none⟩

/-! ### RenamingFilePtr -/

abbrev Path := List Char
abbrev Data := List Nat

/-- Life of the object and of the process. -/
inductive RenPc where
  | before | open_ | closed | done | crashed
  deriving DecidableEq, Repr

/-- The files, the data handed to the stream but not yet written by the C library, the data
written by the program so far, and whether the library failed to write some of it. -/
structure RenWorld where
  fs : Path → Option Data
  buffered : Data
  written : Data
  ioError : Bool
  pc : RenPc
  /-- `uncaught_exceptions_`, file.h:108. -/
  excAtCtor : Nat

/-- The name while the file is open, file.cc:22-23. -/
def unfinished (p : Path) : Path := p ++ ".unfinished".toList

/-- Steps: the constructor (`exc` exceptions in flight), the program writes, the C library
flushes the first `n` buffered values (or fails to), the destructor closes the file and then,
as a second step, possibly renames it (`exc` exceptions in flight now), and a crash. -/
inductive RenStep where
  | open_ (exc : Nat)
  | write (d : Data)
  | flush (n : Nat) (ok : Bool)
  | close (ok : Bool)
  | finish (exc : Nat)
  | crash
  deriving DecidableEq

/-- Append to a file. -/
def appendTo (fs : Path → Option Data) (q : Path) (d : Data) : Path → Option Data :=
  Function.update fs q (some ((fs q).getD [] ++ d))

/-- One step for the file `p` opened in mode "w" or "wb".  Constructor file.cc:19-25,
destructor file.cc:29-36 (the result of `fclose` is not looked at).  Simplification: opening
succeeds; `rename` is atomic. -/
def renStep (p : Path) (w : RenWorld) : RenStep → Option RenWorld
  | .open_ exc =>
    if w.pc = .before then
      some { w with fs := Function.update w.fs (unfinished p) (some []), pc := .open_,
                    excAtCtor := exc }
    else none
  | .write d =>
    if w.pc = .open_ then some { w with buffered := w.buffered ++ d, written := w.written ++ d }
    else none
  | .flush n ok =>
    if w.pc = .open_ then
      if ok then some { w with fs := appendTo w.fs (unfinished p) (w.buffered.take n),
                               buffered := w.buffered.drop n }
      else some { w with buffered := w.buffered.drop n, ioError := true }
    else none
  | .close ok =>
    if w.pc = .open_ then
      if ok then some { w with fs := appendTo w.fs (unfinished p) w.buffered, buffered := [],
                               pc := .closed }
      else some { w with buffered := [], ioError := true, pc := .closed }
    else none
  | .finish exc =>
    if w.pc = .closed then
      if exc = w.excAtCtor then
        some { w with fs := Function.update (Function.update w.fs p (w.fs (unfinished p)))
                              (unfinished p) none, pc := .done }
      else some { w with pc := .done }
    else none
  | .crash => some { w with pc := .crashed }

def renRun (p : Path) (w : RenWorld) : List RenStep → Option RenWorld
  | [] => some w
  | e :: es => (renStep p w e).bind fun w => renRun p w es

/-- Before the constructor; `fs` are the files that exist already. -/
def renInit (fs : Path → Option Data) : RenWorld := ⟨fs, [], [], false, .before, 0⟩

end Verif.Files
