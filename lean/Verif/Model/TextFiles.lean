import Verif.Model.UniqueDir
import Verif.Model.Files

/-!
Text files: `load_string`, `save_string`, `append_string`, `copy_file` and `remove` (/repo/xo/filesystem/filesystem.cpp:115-131, 265-293), on the
file system of `Verif.Model.UniqueDir`, to which the texts of the files are added. One process; symbolic links and permissions of single files are not
modelled, but every call can be refused (`deny`), and a full disk may take only the first `room` characters. Texts are as on POSIX: no change of line
ends.
-/
namespace Xo.TextF
open Xo Dir Files Outc

/-- The entries of the file system and the texts of the files. -/
structure Disk where
  fs : Fs
  text : Place → Str

/-- The path can be that of a file: its last name is not empty and not `.`. -/
def plain (p : Path) : Bool := p ≠ [] ∧ ∀ n, (cut p).getLast? = some n → n ≠ [] ∧ n ≠ ['.']

/-- What a `std::ifstream` gives: `none` if it cannot be opened. A directory can be opened, but nothing can be read from it. Sockets and devices are
taken as not to be opened. -/
def source (d : Disk) (deny : Bool) (p : Path) : Option Str :=
  if deny then none else match d.fs.stat p with
  | some .file => if plain p then some (d.text (place p)) else none
  | some .dir => some []
  | some .special => none
  | none => none

/-- `load_string( filename, ec )` (filesystem.cpp:265-275). A text that cannot be read is an empty one: only the opening is tested. -/
def loadString (d : Disk) (deny : Bool) (ec : Option ErrCode) (p : Path) : Out Str × Option ErrCode :=
  match source d deny p with
  | some s => (.ok s, ec)
  | none => failWith ec ("Could not open ".toList ++ p) []

/-- The text of one file. -/
def setText (d : Disk) (q : Place) (s : Str) : Disk := { d with text := fun q' => if q' = q then s else d.text q' }

/-- A `std::ofstream` is opened: it begins with an empty file, or (`app`) at the end of the file. -/
def openOut (d : Disk) (deny app : Bool) (p : Path) : Option Disk :=
  if deny ∨ plain p = false then none
  else match d.fs.at? (place p) with
    | some .file => some (if app then d else setText d (place p) [])
    | some .dir => none
    | some .special => none
    | none =>
      if d.fs.at? ⟨(place p).abs, (place p).names.dropLast⟩ = some .dir then
        some (setText { d with fs := ⟨fun q => if q = place p then some .file else d.fs.entry q⟩ } (place p) [])
      else none

/-- `save_string` (filesystem.cpp:277-284) and `append_string` (filesystem.cpp:286-293). The stream is not tested after the text was written. -/
def putString (d : Disk) (deny : Bool) (room : Nat) (app : Bool) (ec : Option ErrCode) (p : Path) (s : Str) : Out PUnit × Option ErrCode × Disk :=
  let d1 : Disk := { d with fs := (createDirectories d.fs (Path.parentPath p)).1 }
  match openOut d1 deny app p with
  | some d2 => (.ok ⟨⟩, ec, setText d2 (place p) (d2.text (place p) ++ s.take room))
  | none => let r := report ec ("Could not open ".toList ++ p)
    (r.1, r.2, d1)

/-- `save_string` (filesystem.cpp:277-284). -/
def saveString (d : Disk) (deny : Bool) (room : Nat) (ec : Option ErrCode) (p : Path) (s : Str) : Out PUnit × Option ErrCode × Disk :=
  putString d deny room false ec p s

/-- `append_string` (filesystem.cpp:286-293). -/
def appendString (d : Disk) (deny : Bool) (room : Nat) (ec : Option ErrCode) (p : Path) (s : Str) : Out PUnit × Option ErrCode × Disk :=
  putString d deny room true ec p s

/-- The entry at a place is taken away. -/
def drop (d : Disk) (q : Place) : Disk := { d with fs := ⟨fun q' => if q' = q then none else d.fs.entry q'⟩ }

/-- `remove( file )` (filesystem.cpp:128-131): `std::remove` takes away a file, or a directory if the system finds nothing in it (`isEmpty`). -/
def remove (d : Disk) (deny isEmpty : Bool) (p : Path) : Disk × Bool :=
  if deny then (d, false) else match d.fs.stat p with
  | some .file => if plain p then (drop d (place p), true) else (d, false)
  | some .dir => if plain p ∧ isEmpty = true then (drop d (place p), true) else (d, false)
  | some .special => if plain p then (drop d (place p), true) else (d, false)
  | none => (d, false)

/-- `std::filesystem::copy_file` (used at filesystem.cpp:115-126): the file system afterwards, and whether it was successful. Both paths must not be the
same file, and the source must be a file. If the disk is full, the copy is not complete, and this is an error. -/
def stdCopy (d : Disk) (deny : Bool) (room : Nat) (src dst : Path) (overwrite : Bool) : Disk × Bool :=
  if deny ∨ plain src = false then (d, false)
  else match d.fs.stat src with
    | some .file =>
      if (d.fs.stat dst).isSome ∧ (overwrite = false ∨ place src = place dst) then (d, false)
      else match openOut d false false dst with
        | some d2 => (setText d2 (place dst) ((d.text (place src)).take room), decide ((d.text (place src)).length ≤ room))
        | none => (d, false)
    | _ => (d, false)

/-- `copy_file( from, to, overwrite, ec )` (filesystem.cpp:115-126). `e` : the error that the system reports. Without an error code it is thrown. -/
def copyFile (d : Disk) (deny : Bool) (room : Nat) (src dst : Path) (overwrite : Bool) (e : ErrCode) (ec : Option ErrCode) : Out Bool × Option ErrCode × Disk :=
  match stdCopy d deny room src dst overwrite, ec with
  | (d', true), ec => (.ok true, ec, d')
  | (d', false), some c => (.ok false, some (c.set e.error e.message), d')
  | (d', false), none => (.err, none, d')

end Xo.TextF
