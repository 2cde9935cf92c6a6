import Verif.Model.Include
import Verif.Model.Glob

/-!
Searching for files: `find_file`, `try_find_file` and `find_files` (/repo/xo/filesystem/filesystem.cpp:34-35, 165-220, 332-357).

* `ex` tells which paths `file_exists` (filesystem.cpp:143-147) accepts; the file system does not change during a search.
* A directory is its listing, in the order of `fs::directory_iterator`. Links and directories that cannot be read are not modelled, nor is the
  overflow of `recurse_levels` below the smallest `int`.
-/
namespace Xo.Search
open Xo

/-- `find_file` (filesystem.cpp:175-185); `cur` is the folder of this thread (filesystem.cpp:35, 165-173). -/
def findFile (ex : Path → Bool) (cur : Path) : List Path → Res Path
  | [] => .err
  | f :: fs =>
    if f.isAbsolute && ex f then .ok f
    else (cur.slash f).bind fun full => if ex full then .ok full else findFile ex cur fs

/-- `try_find_file( paths )` (filesystem.cpp:187-202). -/
def tryFindFile (ex : Path → Bool) (cur : Path) : List Path → Res (Option Path)
  | [] => .ok none
  | f :: fs =>
    if f.isAbsolute then (if ex f then .ok (some f) else tryFindFile ex cur fs)
    else (cur.slash f).bind fun full => if ex full then .ok (some full) else tryFindFile ex cur fs

/-- The loop over the directories (filesystem.cpp:214-219). -/
def searchDirs (ex : Path → Bool) (file : Path) : List Path → Res (Option Path)
  | [] => .ok none
  | dir :: dirs => (dir.slash file).bind fun full => if ex full then .ok (some full) else searchDirs ex file dirs

/-- `try_find_file( file, dirs )` (filesystem.cpp:204-220), in at most `fuel` calls; `none` when these do not suffice. -/
def tryFindIn (ex : Path → Bool) (dirs : List Path) : Nat → Path → Option (Res (Option Path))
  | 0, _ => none
  | fuel + 1, file =>
    if file.isAbsolute then (if ex file then some (.ok (some file)) else tryFindIn ex dirs fuel file.filename)
    else some (searchDirs ex file dirs)

/-- The entries of a directory, in the order in which they are listed. -/
inductive Listing where
  | nil
  | file (name : Str) (rest : Listing)
  | dir (name : Str) (entries : Listing) (rest : Listing)

/-- `path / name` of `std::filesystem`, for a name without slash. -/
def entryPath (d : Path) (name : Str) : Path :=
  match d.getLast? with
  | none => name
  | some c => if c = '/' then d ++ name else d ++ '/' :: name

/-- `find_files( dir, include, recursive, levels )` (filesystem.cpp:332-344). -/
def findFiles (inc : Str → Bool) (recursive : Bool) : Int → Path → Listing → List Path
  | _, _, .nil => []
  | lv, d, .file n r => (if inc n then [entryPath d n] else []) ++ findFiles inc recursive lv d r
  | lv, d, .dir n es r =>
    (if recursive && decide (lv ≠ 0) then findFiles inc recursive (lv - 1) (entryPath d n) es else []) ++
      (if inc n then [entryPath d n] else []) ++ findFiles inc recursive lv d r

/-- `find_files( dir, include, exclude, recursive, levels )` (filesystem.cpp:346-358). -/
def findFilesEx (inc exc : Str → Bool) (recursive : Bool) : Int → Path → Listing → List Path
  | _, _, .nil => []
  | lv, d, .file n r => (if inc n && !exc n then [entryPath d n] else []) ++ findFilesEx inc exc recursive lv d r
  | lv, d, .dir n es r =>
    (if recursive && decide (lv ≠ 0) then findFilesEx inc exc recursive (lv - 1) (entryPath d n) es else []) ++
      (if inc n && !exc n then [entryPath d n] else []) ++ findFilesEx inc exc recursive lv d r

end Xo.Search
