import Verif.Model.IeeeColor
import Verif.Model.IeeeInterp

/-!
`color_gradient` (/repo/xo/utility/color_gradient.h) with rounded numbers. The component type is `float` in the code; here it is any format.
-/
namespace Xo.Ieee
open Num (Fl Fmt)

/-- `v1 + t * ( v2 - v1 )` for colours (/repo/xo/numerical/interpolation.h:9-11, /repo/xo/utility/color.h:29-33). -/
def Rgba.lerp (f : Fmt) (c1 c2 : Rgba) (t : Fl) : Rgba := ⟨Ieee.lerp f c1.r c2.r t, Ieee.lerp f c1.g c2.g t, Ieee.lerp f c1.b c2.b t, Ieee.lerp f c1.a c2.a t⟩

/-- The constructor from a list (color_gradient.h:14, /repo/xo/container/flat_map.h:28, 131-133): `std::sort` by the key. The order of elements with equal keys is not specified,
so several stored lists are possible for one given list. -/
def Stores (l m : List (Fl × Rgba)) : Prop := m.Perm l ∧ m.Pairwise fun p q => lt q.1 p.1 = false

/-- `operator()( v )` (color_gradient.h:15-17), which is `lerp_map` (interpolation.h:18-35). -/
def gradient (f : Fmt) (m : List (Fl × Rgba)) (x : Fl) : Res Rgba :=
  if m.length ≠ 0 then
    let ub := (m.takeWhile fun p => !lt x p.1).length
    if ub = m.length then (Res.ofOptionUb m[ub - 1]?).map (·.2)
    else if ub = 0 then (Res.ofOptionUb m[ub]?).map (·.2)
    else
      match m[ub - 1]?, m[ub]? with
      | some p0, some p1 => .ok (p0.2.lerp f p1.2 (div f (sub f x p0.1) (sub f p1.1 p0.1)))
      | _, _ => .ub
  else .err

end Xo.Ieee
