import Verif.Model.Zml
import Verif.Model.Path

/-!
Model of the two ways to include files: `<< file >>` in ZML (/repo/xo/serialization/prop_node_serializer_zml.cpp) and include
nodes (/repo/xo/serialization/serialize.cpp).
-/
namespace Xo

/-- `is_absolute` (path.cpp:102-105). -/
def Path.isAbsolute (p : Path) : Bool := p.head? = some '/' || p.head? = some '~' || p.contains ':'

namespace Zml

/-- The name of the file that `<< f >>` in `file` loads (prop_node_serializer_zml.cpp:59-63, 292). -/
def includePath (file f : Path) : Res Path := if f.isAbsolute then .ok f else file.parentPath.slash f

/-- The children that are appended (prop_node_serializer_zml.cpp:64), and whether an error was set. -/
def includeKids (load : Path → Out (PropNode × Bool)) (file f : Path) : Out (PropNode.Kids × Bool) :=
  match includePath file f with
  | .ok g => match load g with
    | .ok (t, bad) => .ok (t.kids, bad)
    | .err => .err | .ub => .ub | .div => .div
  | .err => .err | .ub => .ub

/-- `load_zml` (prop_node_serializer_zml.cpp:289-293) with a bound on the depth of the calls. `fs` : the texts of the files. A file that
cannot be opened throws, because `load_string` (filesystem.cpp:265-275) is called without `error_code`. -/
def loadZml (fs : Path → Option Str) (throws : Bool) : Nat → Path → Out (PropNode × Bool)
  | 0, _ => .div
  | n + 1, file => match fs file with
    | none => .err
    | some text => parse ⟨throws, includeKids (loadZml fs throws n) file⟩ text

end Zml

/-- `from_str( const string& s, bool& v )` (string_cast.cpp:24-31). -/
def strToBool (s : Str) : Option Bool :=
  if s ∈ ["1".toList, "true".toList, "yes".toList] then some true
  else if s ∈ ["0".toList, "false".toList, "no".toList] then some false
  else none

/-- File name and `merge_children` of an include node in `file` (serialize.cpp:87-88). -/
def includeInfo (file : Path) (c : PropNode) : Res (Path × Bool) :=
  match c.tryGetChild "file".toList with
  | none => .err
  | some f => match file.parentPath.slash f.value with
    | .ok g => match c.tryGetChild "merge_children".toList with
      | none => .ok (g, false)
      | some m => match strToBool m.value with
        | none => .err
        | some b => .ok (g, b)
    | .err => .err | .ub => .ub

/-- `resolve_include_files` (serialize.cpp:80-115), with a bound on the number of steps. The children before the iterator are `done`, the
others are given as last argument. `load` : `load_file_with_include` for the next level. -/
def resolveKids (load : Path → Out PropNode) (dir : Str) (file : Path) : Nat → PropNode.Kids → PropNode.Kids → Out PropNode.Kids
  | 0, _, _ => .div
  | _ + 1, done, [] => .ok done
  | n + 1, done, (k, c) :: rs =>
    if k = dir then
      match includeInfo file c with
      | .ok (g, m) => match load g with
        | .ok inc => match inc.kids with
          | [e] => if m then resolveKids load dir file n [] (PropNode.mergeKids false (done ++ rs) e.2.kids)
              else resolveKids load dir file n done (e :: rs)
          | _ => .err
        | .err => .err | .ub => .ub | .div => .div
      | .err => .err | .ub => .ub
    else match resolveKids load dir file n [] c.kids with
      | .ok ks => resolveKids load dir file n (done ++ [(k, c.withKids ks)]) rs
      | .err => .err | .ub => .ub | .div => .div

/-- `load_file_with_include( filename, include_directive, level )` (serialize.cpp:117-126), where the number is `100 - level`, and each
loop is bounded by `n` steps. `fs` : the result of `load_file`. -/
def loadInclude (fs : Path → Out PropNode) (dir : Str) (n : Nat) : Nat → Path → Out PropNode
  | 0, _ => .err
  | r + 1, file => match fs file with
    | .ok pn => match resolveKids (loadInclude fs dir n r) dir file n [] pn.kids with
      | .ok ks => .ok ((pn.withKids ks).setAccessedRec false)
      | .err => .err | .ub => .ub | .div => .div
    | .err => .err | .ub => .ub | .div => .div

/-- `load_file_with_include( filename, include_directive )` (serialize.cpp:128-131). -/
def loadFileWithInclude (fs : Path → Out PropNode) (dir : Str) (n : Nat) (file : Path) : Out PropNode :=
  loadInclude fs dir n 100 file

end Xo
