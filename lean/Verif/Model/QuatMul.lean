import Verif.Model.Norm

/-!
Products of quaternions (/repo/xo/geometry/quat.h:18-25, 37) and rotated vectors (quat.h:27-34, /repo/xo/geometry/vec3.h:150-152) with rounding. Products and sums are
rounded one by one (no contraction to fused operations).
-/
namespace Xo.Norm
open Num (Fl Fmt)
open Ieee

/-- `q1 * q2` (quat.h:18-25). -/
def Quat.mul (f : Fmt) (q1 q2 : Quat) : Quat :=
  ⟨sub f (sub f (sub f (Ieee.mul f q1.w q2.w) (Ieee.mul f q1.x q2.x)) (Ieee.mul f q1.y q2.y)) (Ieee.mul f q1.z q2.z),
    sub f (add f (add f (Ieee.mul f q1.w q2.x) (Ieee.mul f q1.x q2.w)) (Ieee.mul f q1.y q2.z)) (Ieee.mul f q1.z q2.y),
    sub f (add f (add f (Ieee.mul f q1.w q2.y) (Ieee.mul f q1.y q2.w)) (Ieee.mul f q1.z q2.x)) (Ieee.mul f q1.x q2.z),
    sub f (add f (add f (Ieee.mul f q1.w q2.z) (Ieee.mul f q1.z q2.w)) (Ieee.mul f q1.x q2.y)) (Ieee.mul f q1.y q2.x)⟩

/-- `q *= q1; q *= q2; ...` (quat.h:37). -/
def Quat.mulAll (f : Fmt) (q : Quat) (qs : List Quat) : Quat := qs.foldl (Quat.mul f) q

/-- `cross_product( v1, v2 )` (vec3.h:150-152). -/
def Vec.cross (f : Fmt) (v1 v2 : Vec) : Vec :=
  ⟨sub f (Ieee.mul f v1.y v2.z) (Ieee.mul f v1.z v2.y), sub f (Ieee.mul f v1.z v2.x) (Ieee.mul f v1.x v2.z), sub f (Ieee.mul f v1.x v2.y) (Ieee.mul f v1.y v2.x)⟩

/-- `v1 + v2` (vec3.h:13-14). -/
def Vec.plus (f : Fmt) (v1 v2 : Vec) : Vec := ⟨add f v1.x v2.x, add f v1.y v2.y, add f v1.z v2.z⟩

/-- `v *= s` (vec3.h:31-32). -/
def Vec.times (f : Fmt) (v : Vec) (s : Fl) : Vec := ⟨Ieee.mul f v.x s, Ieee.mul f v.y s, Ieee.mul f v.z s⟩

/-- `q * v` for a vector `v` (quat.h:27-34). -/
def Quat.rotate (f : Fmt) (q : Quat) (v : Vec) : Vec :=
  let qv : Vec := ⟨q.x, q.y, q.z⟩
  let uv := qv.cross f v
  let uuv := qv.cross f uv
  let uv := uv.times f (Ieee.mul f (ofNat 2) q.w)
  let uuv := uuv.times f (ofNat 2)
  (v.plus f uv).plus f uuv

end Xo.Norm
