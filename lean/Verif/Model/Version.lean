import Verif.Model.StrTools

/-!
Model of `version` (/repo/xo/system/version.h) and of its text conversion (/repo/xo/string/string_cast.cpp:129-153).
The `int` members are unbounded integers; the theorems about texts restrict them to 32 bits.
-/
namespace Xo

/-- `version` (version.h:8-23). -/
structure Version where
  major : Int
  minor : Int
  patch : Int
  build : Int
  post : Str
deriving DecidableEq

namespace Version

/-- `version_compare` (version.h:25-47). -/
def compare (a b : Version) : Int :=
  if a.major < b.major then -1
  else if a.major > b.major then 1
  else if a.minor < b.minor then -2
  else if a.minor > b.minor then 2
  else if a.patch < b.patch then -3
  else if a.patch > b.patch then 3
  else if a.build > 0 ∧ b.build > 0 then
    if a.build < b.build then -4 else if a.build > b.build then 4 else 0
  else 0

/-- `operator<` (version.h:49). -/
def lt (a b : Version) : Bool := compare a b < 0
/-- `operator>` (version.h:50). -/
def gt (a b : Version) : Bool := compare a b > 0
/-- `operator<=` (version.h:51). -/
def le (a b : Version) : Bool := compare a b ≤ 0
/-- `operator>=` (version.h:52). -/
def ge (a b : Version) : Bool := compare a b ≥ 0
/-- `operator==` (version.h:53). -/
def eq (a b : Version) : Bool := compare a b = 0
/-- `operator!=` (version.h:54). -/
def ne (a b : Version) : Bool := compare a b ≠ 0

/-- `is_at_least` (version.h:56-58). -/
def isAtLeast (v : Version) (maj min patch bld : Int) : Bool := ge v ⟨maj, min, patch, bld, []⟩
/-- `is_below` (version.h:59-61). -/
def isBelow (v : Version) (maj min patch bld : Int) : Bool := lt v ⟨maj, min, patch, bld, []⟩

/-- `empty` (version.h:14). -/
def empty (v : Version) : Bool := v.major = 0 ∧ v.minor = 0 ∧ v.patch = 0 ∧ v.build = 0 ∧ v.post = []

/-- `to_str( const version& )` (string_cast.cpp:147-153). -/
def toStr (v : Version) : Str :=
  intToStr v.major ++ ['.'] ++ intToStr v.minor ++ ['.'] ++ intToStr v.patch ++
    (if v.build > 0 then '.' :: intToStr v.build else []) ++ v.post

/-- `from_str( s, version& )` (string_cast.cpp:129-145): success, and the new contents of the target. The number
conversions assign 0 when they fail, and a failure leaves the members assigned so far. `whitespace_characters` is
`" \t\r\n\f\v"` (xo_types.h:33). -/
def fromStr (s : Str) (ver : Version) : Bool × Version :=
  match splitAtFirst s " \t\r\n\u000c\u000b".toList with
  | .ok (numbers, postfix_) =>
    match splitStr numbers ['.'] with
    | a :: b :: c :: rest =>
      let v1 := { ver with major := (fromStrInt a).getD 0 }
      if (fromStrInt a).isSome then
        let v2 := { v1 with minor := (fromStrInt b).getD 0 }
        if (fromStrInt b).isSome then
          let v3 := { v2 with patch := (fromStrInt c).getD 0 }
          if (fromStrInt c).isSome then
            let v4 := match rest with
              | d :: _ => { v3 with build := (fromStrInt d).getD 0 }
              | [] => v3
            (true, { v4 with post := postfix_ })
          else (false, v3)
        else (false, v2)
      else (false, v1)
    | _ => (false, ver)
  | _ => (false, ver)

end Version
end Xo
