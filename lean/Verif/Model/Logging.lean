import Verif.Model.Graph
/-!
# Model of the log of what is printed (`lib/functions.py:45-84, 126-131`)

`init_logging` puts a `Tee` in the place of `sys.stdout`, `close_logging` puts back what was there before.  Outside IPython.  A text is a list of characters (of any type).

Simplification: what is written through one file object is kept with it (`logged`); a file holds what was written through the object that was opened last for its path
(mode `'w'` empties it).  Two objects open for one path at the same time would in addition overwrite each other's text; nothing is claimed about this.
-/

namespace Verif

/-- A `Tee` (lines 45-56).  `terminal` is the stream it was put in front of; streams never change where they lead, so a stream is given by the numbers of the `Tee`s passed on the
way to the screen; the empty list is the screen itself. -/
structure TeeObj (α : Type) where
  terminal : List Nat
  path : Nat
  logged : List α
  isOpen : Bool
deriving DecidableEq, Repr

/-- `sys.stdout`, the screen, all `Tee`s by number, and `_tee` of the `InputOutput` objects by number.
Part of the model of `lib/functions.py:45-84, 126-131`. -/
structure LogWorld (α : Type) where
  stdout : List Nat
  screen : List α
  tees : List (TeeObj α)
  held : Nat → Option Nat

variable {α : Type}

/-- A change of one `Tee`. `lib/functions.py:45-56`. -/
def LogWorld.onTee (w : LogWorld α) (k : Nat) (f : TeeObj α → TeeObj α) : LogWorld α := { w with tees := w.tees.modify k f }

/-- `write` of a stream (lines 52-54): first to the stream behind, then to the file; writing to a closed file raises `ValueError`. -/
def LogWorld.write (t : List α) : List Nat → LogWorld α → LogWorld α × Except Err Unit
  | [], w => ({ w with screen := w.screen ++ t }, .ok ())
  | k :: ks, w =>
    match LogWorld.write t ks w with
    | (w1, .error e) => (w1, .error e)
    | (w1, .ok _) =>
      match w1.tees[k]? with
      | none => (w1, .error .attributeError)
      | some o => if o.isOpen then (w1.onTee k (fun o => { o with logged := o.logged ++ t }), .ok ()) else (w1, .error .valueError)

/-- `print(text)`: the text and the end of the line are written one after the other.
Part of the model of `lib/functions.py:45-84, 126-131`. -/
def LogWorld.print (nl : List α) (t : List α) (w : LogWorld α) : LogWorld α × Except Err Unit :=
  match LogWorld.write t w.stdout w with
  | (w1, .error e) => (w1, .error e)
  | (w1, .ok _) => LogWorld.write nl w1.stdout w1

/-- `sys.stdout.flush()`: `Tee.flush` closes the file (lines 55-56). -/
def LogWorld.flush (w : LogWorld α) : LogWorld α :=
  match w.stdout with
  | [] => w
  | k :: _ => w.onTee k (fun o => { o with isOpen := false })

/-- `init_logging` of object `io` (lines 126-128, 59-66, 49-51) with the given path. -/
def LogWorld.start (io path : Nat) (w : LogWorld α) : LogWorld α where
  stdout := w.tees.length :: w.stdout
  screen := w.screen
  tees := w.tees ++ [⟨w.stdout, path, [], true⟩]
  held := fun j => if j = io then some w.tees.length else w.held j

/-- `close_logging` of object `io` (lines 130-131, 78-84). -/
def LogWorld.stop (io : Nat) (w : LogWorld α) : LogWorld α × Except Err Unit :=
  match w.held io with
  | none => (w, .error .attributeError)
  | some k =>
    match w.tees[k]? with
    | none => (w, .error .attributeError)
    | some o => ({ w with stdout := o.terminal }.onTee k (fun o => { o with isOpen := false }), .ok ())

/-- What a program does with its output. Part of the model of `lib/functions.py:45-84, 126-131`. -/
inductive LogOp (α : Type) where
  | say (text : List α)
  | flush
  | start (io path : Nat)
  | stop (io : Nat)
  /-- a statement that raises -/
  | fail (e : Err)

/-- One statement. Part of the model of `lib/functions.py:45-84, 126-131`. -/
def LogWorld.step (nl : List α) (w : LogWorld α) : LogOp α → LogWorld α × Except Err Unit
  | .say t => w.print nl t
  | .flush => (w.flush, .ok ())
  | .start io p => (w.start io p, .ok ())
  | .stop io => w.stop io
  | .fail e => (w, .error e)

/-- Statements in sequence, up to the first exception. Part of the model of `lib/functions.py:45-84, 126-131`. -/
def LogWorld.run (nl : List α) : List (LogOp α) → LogWorld α → LogWorld α × Except Err Unit
  | [], w => (w, .ok ())
  | o :: os, w =>
    match w.step nl o with
    | (w1, .error e) => (w1, .error e)
    | (w1, .ok _) => LogWorld.run nl os w1

/-- What is in the file at `path`: what was written through the object opened last for it.
Part of the model of `lib/functions.py:45-84, 126-131`. -/
def LogWorld.content (w : LogWorld α) (path : Nat) : Option (List α) := ((w.tees.filter (fun o => o.path = path)).getLast?).map (·.logged)

end Verif
