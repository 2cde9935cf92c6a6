import Verif.Model.Norm

/-!
`signed_sqrt` (/repo/xo/numerical/math.h:24-25) with rounding.
-/
namespace Xo.RootFl
open Num (Fl Fmt)
open Ieee Norm

/-- `signed_sqrt` (math.h:25). -/
def signedSqrt (f : Fmt) (v : Fl) : Fl := if le (ofNat 0) v then sqrt f v else neg (sqrt f (neg v))

end Xo.RootFl
