import Verif.Model.Ieee

/-!
`write_function` (/repo/xo/system/debug_storage.h:16-26) with floating-point numbers as they are, and with `int`.
-/
namespace Xo
namespace Ieee
open Num (Fl Fmt)

/-- `constants<T>::ample_epsilon()` (constants.h:20): eight times the distance from one to the next number. -/
def ample (f : Fmt) : Fl := .fin false (2 ^ (4 - (f.prec : Int)))

/-- `less_than_or_equal` with the default tolerance (compare.h:14-15). -/
def lessEq (f : Fmt) (a b : Fl) : Bool := lt a b || equal f a b (ample f)

/-- The loop of `write_function` (debug_storage.h:22-25): the values of `x` and `y`. `none` : not ended after `n` values. -/
def samples (f : Fmt) (func : Fl → Fl) (mx h : Fl) : Nat → Fl → Option (List (Fl × Fl))
  | 0, _ => none
  | n + 1, x => if lessEq f x mx then (samples f func mx h n (add f x h)).map ((x, func x) :: ·) else some []

/-- A line (debug_storage.h:24); numbers have up to six digits (debug_storage.h:21), as in `to_str`. -/
def sampleLine (p : Fl × Fl) : Str := Num.toStr p.1 ++ '\t' :: Num.toStr p.2 ++ ['\n']

/-- `write_function( file, min, max, func, interval )` (debug_storage.h:16-26): the text of the file. `opens` : the directories and the file
can be created (debug_storage.h:18-20). `none` : not ended after `n` values. -/
def writeFunction (f : Fmt) (opens : Bool) (mn mx : Fl) (func : Fl → Fl) (h : Fl) (n : Nat) : Option (Res Str) :=
  if opens then (samples f func mx h n mn).map fun l => .ok (l.flatMap sampleLine) else some .err

/-- The default interval `T( 0.01 )` (debug_storage.h:17): the nearest number to the `double` next to 0.01. -/
def defaultInterval (f : Fmt) : Fl := match ofRat Num.binary64 false (1 / 100) with
  | .fin _ x => ofRat f false x
  | v => v

/-- The loop for `int`, whose `ample_epsilon` is zero; a sum too big for the type is undefined. -/
def samplesInt (func : Int → Int) (mx h : Int) : Nat → Int → Option (Res (List (Int × Int)))
  | 0, _ => none
  | n + 1, x =>
    if x < mx ∨ (x - mx).natAbs ≤ x.natAbs * 0 then
      if -2147483648 ≤ x + h ∧ x + h ≤ 2147483647 then (samplesInt func mx h n (x + h)).map fun r => r.map ((x, func x) :: ·)
      else some .ub
    else some (.ok [])

/-- The default interval of `int`, `T( 0.01 )` (debug_storage.h:17). -/
def defaultIntervalInt : Int := 0

end Ieee
end Xo
