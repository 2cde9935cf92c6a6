import Verif.Model.Norm

/-!
Angles of quaternions with rounding (/repo/xo/geometry/quat.h:146-154, 207-222). `std::acos` is a function of the library and a parameter here.
-/
namespace Xo.AngleFl
open Num (Fl Fmt)
open Ieee Norm

/-- `std::copysign( a, b )`. -/
def copysign : Fl → Fl → Fl
  | .nan _, b => .nan (negative b)
  | .inf _, b => .inf (negative b)
  | .fin _ m, b => .fin (negative b) m
where
  /-- The sign bit. -/
  negative : Fl → Bool
    | .nan s => s
    | .inf s => s
    | .fin s _ => s

/-- The argument of `std::acos` in `rotation_around_x`, `rotation_around_y` and `rotation_around_z` (quat.h:209, 215, 221); `c` is the component. -/
def cosine (f : Fmt) (w c : Fl) : Fl := div f w (sqrt f (add f (mul f w w) (mul f c c)))

/-- `rotation_around_x`, `rotation_around_y`, `rotation_around_z` (quat.h:207-222); `c` is the component. -/
def rotationAround (f : Fmt) (acos : Fl → Fl) (w c : Fl) : Fl := copysign (mul f (ofNat 2) (acos (cosine f w c))) c

/-- `rotation_vector_from_quat` (quat.h:147-154). -/
def rotationVector (f : Fmt) (acos : Fl → Fl) (q : Quat) : Vec :=
  let l := sqrt f (add f (add f (mul f q.x q.x) (mul f q.y q.y)) (mul f q.z q.z))
  if lt (ampleEpsilon f) l && lt q.w (ofNat 1) then
    let s := div f (mul f (ofNat 2) (acos q.w)) l
    ⟨mul f s q.x, mul f s q.y, mul f s q.z⟩
  else ⟨ofNat 0, ofNat 0, ofNat 0⟩

end Xo.AngleFl
