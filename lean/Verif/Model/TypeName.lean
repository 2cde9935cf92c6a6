import Verif.Model.StrTools

/-! Names of types: `tidy_type_name` (xo/system/system_tools.cpp:85-105), which `get_clean_type_name`
(xo/system/system_tools.h:22-25) applies to `typeid( T ).name()`. -/

namespace Xo.TName

/-- `find_last_of( chars, pos )` (system_tools.cpp:97): at `pos` or before, everywhere with `npos`. -/
def findLastOfTo (chars s : Str) (pos : Option Nat) : Option Nat :=
  match pos with
  | none => findLastOf chars s
  | some p => findLastOf chars (s.take (p + 1))

/-- The part of a name that `tidy_type_name` keeps (system_tools.cpp:96-104). The subtraction is unsigned. -/
def lastPart (name : Str) : Res Str :=
  let endpos := findFirstOf ['<'] name
  match findLastOfTo [':', ' '] name endpos with
  | none => .ok name
  | some pos =>
    match endpos with
    | some e => substr name (pos + 1) (some (((e : Int) - pos - 1) % 2 ^ 64).toNat)
    | none => substr name (pos + 1) none

/-- `tidy_type_name` (system_tools.cpp:85-105) with a compiler other than MSVC. `demangle` is
`abi::__cxa_demangle`, `none` is a null pointer: a text that is not the name of a type. A `std::string` of a
null pointer is undefined (line 91). -/
def tidyTypeName (demangle : Str → Option Str) (name : Str) : Res Str :=
  match demangle name with
  | none => .ub
  | some n => lastPart n

end Xo.TName
