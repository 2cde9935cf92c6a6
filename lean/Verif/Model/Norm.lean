import Verif.Model.Ieee
import Mathlib.Data.Nat.Sqrt

/-!
Lengths and unit vectors (/repo/xo/geometry/vec3.h:49-51, 69-75, 81-82, 103-116, /repo/xo/geometry/quat.h:40-57, 72-77) with rounding. The square root is that of IEEE 754,
rounded to nearest; it belongs to the platform, not to xo. Products and sums are rounded one by one (no contraction to fused operations).
-/
namespace Xo.Norm
open Num (Fl Fmt)
open Ieee

/-- The exponent of the last bit of the root of a magnitude. -/
def rootExp (f : Fmt) (x : Rat) : Int := max (Int.log 2 x / 2 - ((f.prec : Int) - 1)) f.emin

/-- The whole number that is nearest to the root of `y`, ties to even. -/
def rootNear (y : Rat) : Nat :=
  let n := Nat.sqrt ⌊y⌋.toNat
  if y < (n + 1 / 2) * (n + 1 / 2) then n
  else if (n + 1 / 2 : Rat) * (n + 1 / 2) < y then n + 1
  else if n % 2 = 0 then n else n + 1

/-- The root of a positive magnitude, rounded. -/
def rootVal (f : Fmt) (x : Rat) : Rat := (rootNear (x / (2 ^ rootExp f x * 2 ^ rootExp f x)) : Rat) * 2 ^ rootExp f x

/-- `std::sqrt( v )`. -/
def sqrt (f : Fmt) : Fl → Fl
  | .nan s => .nan s
  | .inf false => .inf false
  | .inf true => .nan false
  | .fin s m => if m = 0 then .fin s 0 else if s then .nan false else .fin false (rootVal f m)

/-- `constants<T>::epsilon()` (/repo/xo/numerical/constants.h:19). -/
def epsilon (f : Fmt) : Fl := .fin false (2 ^ (1 - (f.prec : Int)))

/-- `constants<T>::ample_epsilon()` (constants.h:20). -/
def ampleEpsilon (f : Fmt) : Fl := .fin false (8 * 2 ^ (1 - (f.prec : Int)))

/-- `inv( v )` (/repo/xo/numerical/math.h:20). -/
def inv (f : Fmt) (v : Fl) : Fl := div f (ofNat 1) v

/-- `vec3_<T>` (/repo/xo/geometry/vec3_type.h). -/
structure Vec where
  x : Fl
  y : Fl
  z : Fl

/-- `squared_length( v )` (vec3.h:73-75). -/
def Vec.squaredLength (f : Fmt) (v : Vec) : Fl := add f (add f (mul f v.x v.x) (mul f v.y v.y)) (mul f v.z v.z)

/-- `length( v )` (vec3.h:69-70). -/
def Vec.length (f : Fmt) (v : Vec) : Fl := sqrt f (add f (add f (mul f v.x v.x) (mul f v.y v.y)) (mul f v.z v.z))

/-- `is_normalized( v )` (vec3.h:81-82). -/
def Vec.isNormalized (f : Fmt) (v : Vec) : Bool :=
  equal f (add f (add f (mul f v.x v.x) (mul f v.y v.y)) (mul f v.z v.z)) (ofNat 1) (ampleEpsilon f)

/-- `v /= s` (vec3.h:47-48). -/
def Vec.divBy (f : Fmt) (v : Vec) (s : Fl) : Vec :=
  let ms := inv f s
  ⟨mul f v.x ms, mul f v.y ms, mul f v.z ms⟩

/-- `normalize( v )` (vec3.h:103-104): the vector afterwards, and the length. -/
def Vec.normalize (f : Fmt) (v : Vec) : Vec × Fl :=
  let l := v.length f
  (if lt (epsilon f) l then v.divBy f l else v, l)

/-- `quat_<T>` (/repo/xo/geometry/quat_type.h). -/
structure Quat where
  w : Fl
  x : Fl
  y : Fl
  z : Fl

/-- `squared_length( q )` (quat.h:51-52). -/
def Quat.squaredLength (f : Fmt) (q : Quat) : Fl := add f (add f (add f (mul f q.w q.w) (mul f q.x q.x)) (mul f q.y q.y)) (mul f q.z q.z)

/-- `length( q )` (quat.h:44-45). -/
def Quat.length (f : Fmt) (q : Quat) : Fl := sqrt f (add f (add f (add f (mul f q.w q.w) (mul f q.x q.x)) (mul f q.y q.y)) (mul f q.z q.z))

/-- `is_normalized( q )` (quat.h:55-56). -/
def Quat.isNormalized (f : Fmt) (q : Quat) : Bool := le (abs (sub f (q.squaredLength f) (ofNat 1))) (ampleEpsilon f)

/-- `q *= s` (quat.h:40-41). -/
def Quat.mulBy (f : Fmt) (q : Quat) (s : Fl) : Quat := ⟨mul f q.w s, mul f q.x s, mul f q.y s, mul f q.z s⟩

/-- `normalize( q )` (quat.h:73-74). -/
def Quat.normalize (f : Fmt) (q : Quat) : Quat × Fl :=
  let len := q.length f
  (q.mulBy f (inv f len), len)

end Xo.Norm
