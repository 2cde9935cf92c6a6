import Verif.Model.StrTools

/-!
Model of `path` (/repo/xo/filesystem/path.{h,cpp}). A path is its text. Positions found by a search lie inside the text, so
`substr` and `erase` at them do not throw and are written as `take` and `drop`. `preferred_separator` is `'/'`
(path.h:22).
-/
namespace Xo

/-- `path`; the member `data_` (path.h:62). -/
abbrev Path := Str

namespace Path

/-- `"/\\"` (path.cpp:114, 120). -/
def seps : Str := ['/', '\\']

/-- `last_separator_pos` (path.cpp:112-115). -/
def lastSep (p : Path) : Option Nat := findLastOf seps p

/-- `find_last_of( '.' )` (path.cpp:8, 61, 67, 80). -/
def lastDot (p : Path) : Option Nat := findLastOf ['.'] p

/-- `empty` (path.cpp:85-88). -/
def empty (p : Path) : Bool := p.isEmpty

/-- `has_filename` (path.cpp:90-95). -/
def hasFilename (p : Path) : Bool := !p.empty && p.lastSep ≠ some (p.length - 1) && !strEndsWith p [':']

/-- `has_parent_path` (path.cpp:97-100). -/
def hasParentPath (p : Path) : Bool := p.lastSep.isSome

/-- `operator/=` and `operator/` (path.cpp:117-124, 133). -/
def slash (p q : Path) : Res Path :=
  if p.hasFilename then (trimLeftStr seps q).map fun t => p ++ '/' :: t else .ok (p ++ q)

/-- The text without existing extension (path.cpp:8-10). -/
def eraseExtension (p : Path) : Path := match p.lastDot with | some n => p.take n | none => p

/-- `replace_extension` (path.cpp:6-16). -/
def replaceExtension (p ext : Path) : Path :=
  p.eraseExtension ++
    (if ext.isEmpty then [] else if ext.head? = some '.' then ext else '.' :: ext)

/-- `parent_path` (path.cpp:53-57). -/
def parentPath (p : Path) : Path := match p.lastSep with | some n => p.take n | none => []

/-- `remove_filename` (path.cpp:18-24). -/
def removeFilename (p : Path) : Path := match p.lastSep with | some n => p.take n | none => []

/-- `replace_filename` (path.cpp:26-30). -/
def replaceFilename (p f : Path) : Res Path := p.removeFilename.slash f

/-- `extension` (path.cpp:59-63). -/
def extension (p : Path) : Path := match p.lastDot with | some n => p.drop n | none => []

/-- `extension_no_dot` (path.cpp:65-69). -/
def extensionNoDot (p : Path) : Path := match p.lastDot with | some n => p.drop (n + 1) | none => []

/-- `replace_stem` (path.cpp:32-37). -/
def replaceStem (p stem : Path) : Res Path := p.removeFilename.slash (stem ++ p.extension)

/-- `filename` (path.cpp:71-75). -/
def filename (p : Path) : Path := match p.lastSep with | some n => p.drop (n + 1) | none => p

/-- Start of the last component (path.cpp:79, 81). -/
def fileStart (p : Path) : Nat := match p.lastSep with | some n => n + 1 | none => 0

/-- `stem` (path.cpp:77-83). `npos` is larger than every position. -/
def stem (p : Path) : Path :=
  match p.lastDot with
  | some n2 => if n2 ≥ p.fileStart then (p.drop p.fileStart).take (n2 - p.fileStart) else p.drop p.fileStart
  | none => p.drop p.fileStart

/-- `concat_stem` (path.cpp:39-43). -/
def concatStem (p : Path) (post : Str) : Res Path := p.replaceStem (p.stem ++ post)

/-- `make_preferred` (path.cpp:45-51). -/
def makePreferred (p : Path) : Path := p.map fun c => if c = '\\' then '/' else c

end Path
end Xo
