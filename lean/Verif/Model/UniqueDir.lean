import Verif.Model.Path
import Verif.Model.StrNum

/-!
Model of `directory_exists`, `create_directories`, `find_unique_directory` and `create_unique_directory`
(/repo/xo/filesystem/filesystem.cpp:149-163, 222-263) on a POSIX file system that any number of processes use at the
same time.

* The file system maps places to entries. A place is absolute or relative to the working directory, with the names
  between the slashes; `//`, a trailing `/` and `.` do not matter. `..`, symbolic links and a change of the
  working directory are not modelled. A backslash is an ordinary character for the system (but a separator for
  `path`).
* Every `stat` and every `mkdir` is one atomic step. Between two of them other processes run.
* `mkdir` may also fail for other reasons (permissions, full disk): the parameter `deny` of a step.
-/
namespace Xo
namespace Dir

/-- What is at a place: a directory, a socket or block device, or anything else. -/
inductive Kind where
  | dir
  | special
  | file
  deriving DecidableEq, Repr

/-- A place in the file system. -/
structure Place where
  abs : Bool
  names : List Str
  deriving DecidableEq, Repr

/-- The text cut at every slash. -/
def cut : Str → List Str
  | [] => [[]]
  | c :: cs =>
    if c = '/' then [] :: cut cs
    else match cut cs with
      | [] => [[c]]
      | h :: t => (c :: h) :: t

/-- The place a path text denotes for the operating system. -/
def place (p : Path) : Place := ⟨p.head? = some '/', (cut p).filter fun n => n ≠ [] ∧ n ≠ ['.']⟩

/-- The entries of the file system. The working directory and the root are always there. -/
structure Fs where
  entry : Place → Option Kind

namespace Fs

/-- What `stat` finds at a place. -/
def at? (fs : Fs) (q : Place) : Option Kind := if q.names = [] then some .dir else fs.entry q

/-- `stat( p )`; the empty path is an error. -/
def stat (fs : Fs) (p : Path) : Option Kind := if p = [] then none else fs.at? (place p)

/-- `exists` (filesystem.cpp:133-141). -/
def «exists» (fs : Fs) (p : Path) : Bool := (fs.stat p).isSome

/-- `directory_exists` (filesystem.cpp:149-163): tests the bit `S_IFDIR` of the mode, which sockets and block
devices have too. -/
def directoryExists (fs : Fs) (p : Path) : Bool := fs.stat p = some .dir ∨ fs.stat p = some .special

/-- Whether `mkdir( p )` can succeed: nothing is there yet and the directory above is. -/
def canMkdir (fs : Fs) (p : Path) : Bool :=
  p ≠ [] ∧ (place p).names ≠ [] ∧ fs.at? (place p) = none ∧
    fs.at? ⟨(place p).abs, (place p).names.dropLast⟩ = some .dir

/-- A new directory at the place of `p`. -/
def add (fs : Fs) (p : Path) : Fs := ⟨fun q => if q = place p then some .dir else fs.entry q⟩

/-- `mkdir( p ) == 0` and its effect. -/
def mkdir (fs : Fs) (deny : Bool) (p : Path) : Fs × Bool :=
  if fs.canMkdir p ∧ deny = false then (fs.add p, true) else (fs, false)

end Fs

/-- The name tried in iteration `i` (filesystem.cpp:237-241, 250-255). -/
def candidate (folder : Path) (i : Nat) : Path :=
  if i > 0 then folder ++ (" (".toList ++ natToStr i ++ ")".toList) else folder

/-- The loop of `find_unique_directory` (filesystem.cpp:235-246) on a file system that does not change. -/
def findLoop (fs : Fs) (folder : Path) (max : Nat) (i : Nat) : Res Path :=
  if i < max then
    (if fs.directoryExists (candidate folder i) then findLoop fs folder max (i + 1) else .ok (candidate folder i))
  else .err
termination_by max - i

/-- `find_unique_directory` (filesystem.cpp:235-246). -/
def findUniqueDirectory (fs : Fs) (folder : Path) (max : Nat) : Res Path := findLoop fs folder max 0

theorem parentPath_length (p : Path) (h : p.hasParentPath = true) : p.parentPath.length < p.length := by
  unfold Path.hasParentPath at h
  unfold Path.parentPath
  cases hl : p.lastSep with
  | none => rw [hl] at h; cases h
  | some n =>
    have hn : n < p.length := by
      unfold Path.lastSep findLastOf findLastIdx at hl
      cases p with
      | nil => simp at hl
      | cons c p =>
        obtain ⟨i, _, rfl⟩ := Option.map_eq_some_iff.1 hl
        simp; omega
    simp only [List.length_take]; omega

/-- `create_directories` (filesystem.cpp:222-233) on a file system that no one else uses: the file system afterwards
and the returned value. -/
def createDirectories (fs : Fs) (folder : Path) : Fs × Bool :=
  if h : folder.hasParentPath = true then
    if fs.directoryExists folder.parentPath then fs.mkdir false folder
    else
      have := parentPath_length folder h
      (createDirectories fs folder.parentPath).1.mkdir false folder
  else fs.mkdir false folder
termination_by folder.length

/-! ## Several processes -/

/-- Where a process is inside `create_unique_directory` (filesystem.cpp:248-263). -/
inductive Pc where
  /-- outside the call -/
  | idle
  /-- lines 252-257, before `directory_exists` of attempt `i` -/
  | check (folder : Path) (max i : Nat)
  /-- inside `create_directories` (line 225), before `directory_exists` of the parent of the first path; the other
  paths are those of the calls that wait for it, the last one is the candidate -/
  | down (folder : Path) (max i : Nat) (stack : List Path)
  /-- inside `create_directories` (line 231), before `mkdir` of the first path -/
  | up (folder : Path) (max i : Nat) (stack : List Path)
  /-- lines 260-262 with `success == false` -/
  | failing
  deriving DecidableEq

/-- The file system, the processes, and what the calls returned so far: (process, path), latest first. `made` is
ghost: the file system just before the `mkdir` that made the returned path. -/
structure Sys where
  fs : Fs
  pc : Nat → Pc
  returned : List (Nat × Path)
  made : List Fs

def setPc (pc : Nat → Pc) (k : Nat) (v : Pc) : Nat → Pc := fun j => if j = k then v else pc j

/-- A step of process `k`; `deny` is the choice of the system to refuse a `mkdir`. -/
def procStep (s : Sys) (k : Nat) (deny : Bool) : Sys :=
  match s.pc k with
  | .idle => s
  | .check folder max i =>
    if i < max then
      if s.fs.directoryExists (candidate folder i) then { s with pc := setPc s.pc k (.check folder max (i + 1)) }
      else { s with pc := setPc s.pc k (.down folder max i [candidate folder i]) }
    else { s with pc := setPc s.pc k .failing }
  | .down folder max i stack =>
    match stack with
    | [] => s
    | q :: rest =>
      if q.hasParentPath ∧ s.fs.directoryExists q.parentPath = false then
        { s with pc := setPc s.pc k (.down folder max i (q.parentPath :: q :: rest)) }
      else { s with pc := setPc s.pc k (.up folder max i (q :: rest)) }
  | .up folder max i stack =>
    match stack with
    | [] => s
    | [q] =>
      if (s.fs.mkdir deny q).2 then
        { fs := (s.fs.mkdir deny q).1, pc := setPc s.pc k .idle, returned := (k, q) :: s.returned,
          made := s.fs :: s.made }
      else { s with pc := setPc s.pc k (.check folder max (i + 1)) }
    | q :: r :: rest =>
      { s with fs := (s.fs.mkdir deny q).1, pc := setPc s.pc k (.up folder max i (r :: rest)) }
  | .failing => { s with pc := setPc s.pc k .idle }

/-- What can happen. -/
inductive Ev where
  /-- process `k` calls `create_unique_directory( folder, max )` -/
  | call (k : Nat) (folder : Path) (max : Nat)
  /-- process `k` makes a step -/
  | step (k : Nat) (deny : Bool)
  /-- something else changes the file system -/
  | env (fs : Fs)

/-- One event; a process calls only when it is idle. -/
def exec (s : Sys) : Ev → Sys
  | .call k folder max => if s.pc k = .idle then { s with pc := setPc s.pc k (.check folder max 0) } else s
  | .step k deny => procStep s k deny
  | .env fs => { s with fs := fs }

/-- A sequence of events. -/
def run (s : Sys) (evs : List Ev) : Sys := evs.foldl exec s

/-- No process is in a call yet. -/
def start (fs : Fs) : Sys := ⟨fs, fun _ => .idle, [], []⟩

end Dir
end Xo
