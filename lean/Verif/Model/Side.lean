import Verif.Model.StrTools

/-!
Model of /repo/xo/utility/side.h.
-/
namespace Xo

/-- `side` (side.h:8-12). -/
inductive Side where
  | left
  | none
  | right
  deriving Repr, DecidableEq

namespace Side

/-- `mirrored` (side.h:14-20). -/
def mirrored : Side → Side
  | left => right
  | right => left
  | none => none

/-- `side_postfix` (side.h:22-25): the table entry at `int( s ) + 1`. -/
def postfixStr : Side → Str
  | left => "_l".toList
  | none => "".toList
  | right => "_r".toList

end Side

/-- `str_get_side` (side.h:27-33). -/
def strGetSide (s : Str) : Side :=
  if strEndsWith s "_l".toList then .left
  else if strEndsWith s "_r".toList then .right
  else .none

/-- `str.back() = c`: undefined for an empty string. -/
def setBack (s : Str) (c : Char) : Res Str := if s = [] then .ub else .ok (s.dropLast ++ [c])

/-- `str_remove_side` (side.h:35-39). -/
def strRemoveSide (s : Str) : Res Str := if strGetSide s ≠ .none then leftStr s (-2) else .ok s

/-- `str_set_side` (side.h:41-54). -/
def strSetSide (s : Str) (new : Side) : Res Str :=
  let cur := strGetSide s
  if cur = new then .ok s
  else if cur = .none then .ok (s ++ new.postfixStr)
  else if new = .none then strRemoveSide s
  else setBack s (if new = .left then 'l' else 'r')

/-- `str_mirrored_side` (side.h:56-64). -/
def strMirroredSide (s : Str) : Res Str :=
  let cur := strGetSide s
  if cur ≠ .none then setBack s (if cur = .left then 'r' else 'l') else .ok s

/-- `str_mirror_side` (side.h:66-71), the string afterwards. -/
def strMirrorSide (s : Str) : Res Str :=
  if strEndsWith s "_r".toList then setBack s 'l'
  else if strEndsWith s "_l".toList then setBack s 'r'
  else .ok s

/-- `str_append_before_side` (side.h:73-76). -/
def strAppendBeforeSide (s pf : Str) : Res Str := do
  let cur := strGetSide s
  let base ← strRemoveSide s
  .ok (base ++ pf ++ cur.postfixStr)

end Xo
