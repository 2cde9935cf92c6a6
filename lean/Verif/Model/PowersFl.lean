import Verif.Model.Ieee

/-!
`power` (/repo/xo/numerical/math.h:34-40) and `midpoint` (math.h:42-43) with rounding. Products and sums are rounded one by one; the evaluation of
the program text is in the type of the operands (`FLT_EVAL_METHOD` is 0).
-/
namespace Xo.PowFl
open Num (Fl Fmt binary64)
open Ieee

/-- `power< E >` for `E ≥ 0` (math.h:36-38). -/
def powerNat (f : Fmt) (base : Fl) : Nat → Fl
  | 0 => ofNat 1
  | 1 => base
  | n + 2 => mul f base (powerNat f base (n + 1))

/-- A `double` that is turned into `T`, as in the return statement of math.h:39. -/
def toType (f : Fmt) : Fl → Fl
  | .nan s => .nan s
  | .inf s => .inf s
  | .fin s m => ofRat f s (val (.fin s m))

/-- `power< E >` (math.h:34-40): `1.0` is a `double`, so that the division is one of doubles. -/
def power (f : Fmt) (base : Fl) : Int → Fl
  | .ofNat n => powerNat f base n
  | .negSucc n => toType f (div binary64 (ofNat 1) (powerNat f base (n + 1)))

/-- `midpoint` (math.h:43). -/
def midpoint (f : Fmt) (v1 v2 : Fl) : Fl := add f v1 (div f (sub f v2 v1) (ofNat 2))

end Xo.PowFl
