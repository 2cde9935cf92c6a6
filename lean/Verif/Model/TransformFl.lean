import Verif.Model.QuatMul

/-!
Transforms (/repo/xo/geometry/transform.h:11-46) with rounding. Products and sums are rounded one by one (no contraction to fused operations).
-/
namespace Xo.Norm
open Num (Fl Fmt)
open Ieee

/-- `v1 - v2` (/repo/xo/geometry/vec3.h:20-21). -/
def Vec.minus (f : Fmt) (v1 v2 : Vec) : Vec := ⟨sub f v1.x v2.x, sub f v1.y v2.y, sub f v1.z v2.z⟩

/-- `-v` (vec3.h:27-28). -/
def Vec.negated (v : Vec) : Vec := ⟨neg v.x, neg v.y, neg v.z⟩

/-- `conjugate( q )`, which is also `-q` (/repo/xo/geometry/quat.h:97-101). -/
def Quat.conj (q : Quat) : Quat := ⟨q.w, neg q.x, neg q.y, neg q.z⟩

/-- `transform_<T>`: a position and a rotation (transform.h:13-21). -/
structure Transform where
  p : Vec
  q : Quat

/-- `t * v` and `t.trans( v )` for a vector (transform.h:34-35). -/
def Transform.trans (f : Fmt) (t : Transform) (v : Vec) : Vec := t.p.plus f (t.q.rotate f v)

/-- `t.inv_trans( v )` for a vector (transform.h:36). -/
def Transform.invTrans (f : Fmt) (t : Transform) (v : Vec) : Vec := t.q.conj.rotate f (v.minus f t.p)

/-- `t1 * t2`, `t1.trans( t2 )` and `t1 *= t2` (transform.h:28-30). -/
def Transform.mul (f : Fmt) (t1 t2 : Transform) : Transform := ⟨t1.p.plus f (t1.q.rotate f t2.p), t1.q.mul f t2.q⟩

/-- `t.inv()` (transform.h:31). -/
def Transform.inv (f : Fmt) (t : Transform) : Transform := ⟨t.q.conj.rotate f t.p.negated, t.q.conj⟩

/-- `t *= t1; t *= t2; ...` (transform.h:29). -/
def Transform.mulAll (f : Fmt) (t : Transform) (ts : List Transform) : Transform := ts.foldl (Transform.mul f) t

end Xo.Norm
