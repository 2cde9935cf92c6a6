import Verif.Model.Path

/-! What the system says about itself, as on Linux: directories (xo/filesystem/filesystem.cpp:59-112, 295-306) and the
name of the computer (xo/system/system_tools.cpp:107-125). The answers of the system are parameters. -/

namespace Xo.SysDir

/-- A `std::string` or `path` of a pointer to characters; a null pointer is undefined. -/
def ofPtr : Option Str → Res Str
  | none => .ub
  | some s => .ok (cstr s)

/-- `get_config_dir` (filesystem.cpp:59-67); `home` is the environment variable HOME. -/
def configDir (home : Option Str) : Res Path := (ofPtr home).map (· ++ "/.config".toList)

/-- `get_documents_dir` (filesystem.cpp:69-78). -/
def documentsDir (home : Option Str) : Res Path := ofPtr home

/-- `get_application_dir` (filesystem.cpp:80-92). `link` is what the link of the process points to, `none` if it cannot
be read; `readlink` writes at most 1023 characters. -/
def applicationDir (link : Option Str) : Path :=
  match link with
  | none => []
  | some l => Path.parentPath (cstr (l.take 1023))

/-- `temp_directory_path` (filesystem.cpp:107-112); `tmp` is the environment variable TMP. -/
def tempDir (tmp : Option Str) : Path :=
  match tmp with
  | some s => cstr s
  | none => "/tmp".toList

/-- `current_path()` (filesystem.cpp:300-306); `cwd` is the result of `getcwd`, null if there is none. -/
def currentPath (cwd : Option Str) : Res Path := ofPtr cwd

/-- `current_path( p )` (filesystem.cpp:295-298): whether it worked and the directory afterwards; `chdir` says which
directory a path leads to. -/
def setCurrentPath (chdir : Option Str → Path → Option Str) (cwd : Option Str) (p : Path) : Bool × Option Str :=
  match chdir cwd p with
  | some d => (true, some d)
  | none => (false, cwd)

/-- `get_computer_name` (system_tools.cpp:107-125). The buffer has `HOST_NAME_MAX` = 64 characters; a name without room
for the zero behind it fills the buffer and is not terminated, which is not looked at. -/
def computerName (name : Str) : Res Str := if name.length < 64 then .ok (cstr name) else .ub

end Xo.SysDir
