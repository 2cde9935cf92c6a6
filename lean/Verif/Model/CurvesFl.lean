import Verif.Model.Ieee

/-!
The curves of /repo/xo/numerical/functions.h with the rounding of the floating-point type.
-/
namespace Xo.CurveFl
open Num (Fl Fmt binary64)
open Ieee

/-- `minimum_jerk( x )` (functions.h:24-29) for `float` and `double`; the integers are converted to the type, which is exact. -/
def minimumJerk (f : Fmt) (x : Fl) : Fl :=
  let x3 := mul f (mul f x x) x
  let x4 := mul f x3 x
  let x5 := mul f x4 x
  add f (sub f (mul f (ofNat 6) x5) (mul f (ofNat 15) x4)) (mul f (ofNat 10) x3)

/-- `T( l )` for a literal of type `double` (functions.h:10-13). -/
def lit (f : Fmt) (l : Rat) : Fl := ofRat f false (val (ofRat binary64 false l))

/-- `constants<T>::half_pi()` (constants.h:8, 16, 39): half of `T( XO_PI_LONG_DOUBLE )`. The rounding of that literal to `long double` is left
out. -/
def halfPi (f : Fmt) : Fl := mul f (.fin false (1 / 2)) (ofRat f false (3141592653589793238 / 10 ^ 18))

/-- `fast_acos( x )` (functions.h:9-21). -/
def fastAcos (f : Fmt) (x : Fl) : Fl :=
  let a := lit f (-939115566365855 / 10 ^ 15)
  let b := lit f (9217841528914573 / 10 ^ 16)
  let c := lit f (-12845906244690837 / 10 ^ 16)
  let d := lit f (295624144969963174 / 10 ^ 18)
  let num := mul f a x
  let x2 := mul f x x
  let den := add f (ofNat 1) (mul f c x2)
  let x3 := mul f x2 x
  let num := add f num (mul f b x3)
  let den := add f den (mul f (mul f d x3) x)
  add f (halfPi f) (div f num den)

end Xo.CurveFl
