import Verif.Model.TextFiles

/-!
Saving and appending seen step by step (/repo/xo/filesystem/filesystem.cpp:115-126, 277-293): a program can end between any two steps, and several programs
(or threads) can work on the same file. As on POSIX, a `std::ofstream` empties the file when it is opened, or (`app`) writes at the end of the file; it hands its
text to the system in pieces, of which the sizes are not known, and each piece is written at once. Without `app` a piece is written at the position of the stream, whatever
others did to the file; a gap is filled with zeros.
-/
namespace Xo.Steps
open Xo Dir Outc TextF

/-- Where a call is: before the file is opened, with the number of characters already handed over and the text that is left, after the call, or ended by force. -/
inductive Phase where
  | start
  | writing (pos : Nat) (rest : Str)
  | done
  | dead

/-- One call of `save_string` (filesystem.cpp:277-284) or, with `app`, `append_string` (filesystem.cpp:286-293). -/
structure Call where
  app : Bool
  text : Str
  phase : Phase

/-- One file (`none` : it does not exist) and the calls that use it. -/
structure World where
  file : Option Str
  calls : List Call

/-- A piece is written at a position. -/
def writeAt (s : Str) (pos : Nat) (c : Str) : Str := (s ++ List.replicate (pos - s.length) '\x00').take pos ++ c ++ s.drop (pos + c.length)

/-- What happens next. -/
inductive Act where
  | openFile
  | write (n : Nat)
  | close
  | die

/-- One step of one call, and the file (filesystem.cpp:280-282, 289-291). The stream is closed when everything was handed over. -/
def callStep (f : Option Str) (c : Call) : Act → Option Str × Call
  | .openFile => match c.phase with
    | .start => (some (if c.app then f.getD [] else []), { c with phase := .writing 0 c.text })
    | _ => (f, c)
  | .write n => match c.phase with
    | .writing pos rest =>
      (some (if c.app then f.getD [] ++ rest.take n else writeAt (f.getD []) pos (rest.take n)), { c with phase := .writing (pos + (rest.take n).length) (rest.drop n) })
    | _ => (f, c)
  | .close => match c.phase with
    | .writing _ [] => (f, { c with phase := .done })
    | _ => (f, c)
  | .die => match c.phase with
    | .done => (f, c)
    | _ => (f, { c with phase := .dead })

/-- One step of call `i`. -/
def step (w : World) (i : Nat) (a : Act) : World :=
  match w.calls[i]? with
  | some c => let r := callStep w.file c a
    ⟨r.1, w.calls.set i r.2⟩
  | none => w

/-- Any number of steps, in any order. -/
def run (w : World) (as : List (Nat × Act)) : World := as.foldl (fun w a => step w a.1 a.2) w

/-! ### A program that ends inside a call -/

/-- The disk when the program ends inside `save_string` or `append_string`: while the directories are made (`none`; those of the path `q` were made), or after
`n` characters arrived in the file. -/
def cutPut (d : Disk) (deny app : Bool) (p : Path) (s : Str) (q : Path) : Option Nat → Disk
  | none => { d with fs := (createDirectories d.fs q).1 }
  | some n => (putString d deny n app none p s).2.2

/-- The disk when the program ends inside `copy_file` (filesystem.cpp:115-126): before anything is changed, or after `n` characters were copied. -/
def cutCopy (d : Disk) (deny : Bool) (src dst : Path) (overwrite : Bool) : Option Nat → Disk
  | none => d
  | some n => (stdCopy d deny n src dst overwrite).1

end Xo.Steps
