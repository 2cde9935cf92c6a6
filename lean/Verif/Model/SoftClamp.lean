import Verif.Model.Ieee

/-!
`soft_clamp` (/repo/xo/numerical/math.h:95-108) with the rounding of the floating-point type.
-/
namespace Xo.SoftCl
open Num (Fl Fmt)
open Ieee

/-- `limit_transform` (math.h:96). -/
def limitTransform (f : Fmt) (x limit : Fl) : Fl := sub f limit (div f (mul f limit limit) (add f x limit))

/-- `soft_clamp`, `soft_clamped` (math.h:99-108). -/
def softClamp (f : Fmt) (v mn mx boundary : Fl) : Fl :=
  let r := mul f boundary (sub f mx mn)
  if lt (sub f mx r) v then add f (sub f mx r) (limitTransform f (add f (sub f v mx) r) r)
  else if lt v (add f mn r) then sub f (add f mn r) (limitTransform f (sub f (add f mn r) v) r)
  else v

end Xo.SoftCl
