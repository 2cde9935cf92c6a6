import Verif.Model.Ieee

/-!
`smooth_clamped` (/repo/xo/numerical/math.h:110-117) with rounding. `std::tanh` is a function of the library and a parameter here.
-/
namespace Xo.SmoothFl
open Num (Fl Fmt)
open Ieee

/-- `smooth_clamped` (math.h:111-117). -/
def smoothClamped (f : Fmt) (tanh : Fl → Fl) (v mn mx lb ub : Fl) : Fl :=
  if lt v lb then add f (mul f (sub f lb mn) (tanh (div f (sub f v lb) (sub f lb mn)))) lb
  else if lt ub v then add f (mul f (sub f mx ub) (tanh (div f (sub f v ub) (sub f mx ub)))) ub
  else v

end Xo.SmoothFl
