import Verif.Model.StrTools
import Verif.Model.StrNum

/-!
Model of /repo/xo/time/date.h.
-/
namespace Xo.DateText
open Xo

/-- `date` (time/date.h:9-13). The fields are `int`. -/
structure Date where
  year : Int := 0
  month : Int := 0
  day : Int := 0
  deriving DecidableEq

/-- `%0<w>d`: the sign counts as one of the `w` characters. -/
def padZero (w : Nat) (n : Int) : Str :=
  let t := natToStr n.natAbs
  if n < 0 then '-' :: (List.replicate (w - 1 - t.length) '0' ++ t) else List.replicate (w - t.length) '0' ++ t

/-- `to_str` (time/date.h:15-18). Each field has at most 11 characters, so that the buffer of `stringf` (string_tools.cpp:265) suffices. -/
def toStr (v : Date) : Str := padZero 4 v.year ++ '-' :: padZero 2 v.month ++ '-' :: padZero 2 v.day

/-- `from_str( s, int& v )` (string_cast.cpp:33-38): the answer and the variable, which is set in any case. -/
def fromStrField (s : Str) : Bool × Int := ((fromStrInt s).isSome, (fromStrInt s).getD 0)

/-- `from_str` (time/date.h:20-30): the answer and the variable. -/
def fromStr (s : Str) (v : Date) : Bool × Date :=
  match splitStr s "-./".toList with
  | [a, b, c] =>
    let y := fromStrField a
    let m := fromStrField b
    let d := fromStrField c
    (true && y.1 && m.1 && d.1, ⟨y.2, m.2, d.2⟩)
  | _ => (false, v)

end Xo.DateText
