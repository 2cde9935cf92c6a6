import Verif.Model.NumText
import Verif.Model.Time

/-!
Model of the text conversions of `time` in /repo/xo/string/string_cast.cpp:166-195. `seconds<double>()` is exact
(time.h:14); numbers are read from text with the rounding of `strtod`.
-/
namespace Xo
namespace TimeText
open Num

/-- `%.*f` of a magnitude with `dec` digits behind the point (ties to even, as in glibc). -/
def fixedMag (dec : Nat) (x : Rat) : Str :=
  let ds := natToStr (rhe (x * 10 ^ dec)).toNat
  let ds := List.replicate (dec + 1 - ds.length) '0' ++ ds
  if dec = 0 then ds else ds.take (ds.length - dec) ++ '.' :: ds.drop (ds.length - dec)

/-- `%.*f`. -/
def fixed (dec : Nat) (x : Rat) : Str := if x < 0 then '-' :: fixedMag dec (-x) else fixedMag dec x

/-- `%02d`. -/
def pad2 (n : Int) : Str :=
  let t := intToStr n
  if 0 ≤ n then List.replicate (2 - t.length) '0' ++ t else t

/-- `v.seconds<double>()` (time.h:14). -/
def seconds (ns : Int) : Rat := (ns : Rat) / 10 ^ 9

/-- `to_str( time, decimals, hide_decimals_after_seconds )` (string_cast.cpp:166-189). Converting seconds that do not fit
an `int` is undefined. -/
def toStr (ns : Int) (decimals : Int := 3) (hide : Rat := 10) : Res Str :=
  let secondsd := seconds ns
  let secondsi := Time.trunc secondsd
  if ¬ (-2 ^ 31 ≤ secondsi ∧ secondsi < 2 ^ 31) then .ub
  else
    let hours := secondsi.tdiv 3600
    let str := if hours > 0 then intToStr hours ++ [':'] else []
    let secondsi := if hours > 0 then secondsi - hours * 3600 else secondsi
    let minutes := secondsi.tdiv 60
    let str := if hours > 0 ∨ minutes > 0 then str ++ (if str = [] then intToStr minutes else pad2 minutes) ++ [':'] else str
    let secondsi := if hours > 0 ∨ minutes > 0 then secondsi - minutes * 60 else secondsi
    .ok (
      if hours > 0 ∨ minutes > 0 then str ++ pad2 secondsi
      else if decimals ≤ 0 ∨ secondsd ≥ hide then str ++ '0' :: ':' :: pad2 secondsi
      else str ++ fixed decimals.toNat secondsd)

/-- `from_str( s, time& )` (string_cast.cpp:191-195). Converting an infinity or a NaN is undefined. -/
def fromStr (s : Str) : Res (Option Int) :=
  match fromStrDouble s with
  | none => .ok none
  | some (.fin neg m) => (Time.fromSeconds (if neg then -m else m)).map some
  | some _ => .ub

end TimeText
end Xo
