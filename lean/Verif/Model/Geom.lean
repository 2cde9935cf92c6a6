import Verif.Model.Basic
import Verif.Model.Bounds
import Mathlib.Algebra.Order.Field.Basic

/-!
Model of /repo/xo/geometry: `vec3_type.h`, `vec3.h`, `quat_type.h`, `quat.h`, `transform.h`, `transform_srt.h`,
`scale3.h`, `mirror_tools.h`, `line.h` and `segment.h`, over a field (exact arithmetic, no rounding). A division by
zero, which gives infinities or NaN, is `none`. Functions that need roots or trigonometry are in `GeomReal.lean`.
-/
namespace Xo.Geom

/-- `vec3_` (vec3_type.h:8-62). -/
@[ext] structure Vec3 (K : Type) where
  x : K
  y : K
  z : K
  deriving DecidableEq, Repr

/-- `quat_` (quat_type.h:7-43). -/
@[ext] structure Quat (K : Type) where
  w : K
  x : K
  y : K
  z : K
  deriving DecidableEq, Repr

namespace Vec3
variable {K : Type} [Field K]

/-- `zero`, `unit_x`, `unit_y`, `unit_z`, `diagonal` (vec3_type.h:52-60). -/
def zero : Vec3 K := ⟨0, 0, 0⟩
def unitX : Vec3 K := ⟨1, 0, 0⟩
def unitY : Vec3 K := ⟨0, 1, 0⟩
def unitZ : Vec3 K := ⟨0, 0, 1⟩
def diagonal (v : K) : Vec3 K := ⟨v, v, v⟩

/-- `operator+` (vec3.h:13-17). -/
def add (a b : Vec3 K) : Vec3 K := ⟨a.x + b.x, a.y + b.y, a.z + b.z⟩
/-- `operator-` (vec3.h:20-24). -/
def sub (a b : Vec3 K) : Vec3 K := ⟨a.x - b.x, a.y - b.y, a.z - b.z⟩
/-- Negation (vec3.h:27-28). -/
def neg (a : Vec3 K) : Vec3 K := ⟨-a.x, -a.y, -a.z⟩
/-- Scalar multiplication (vec3.h:31-38). -/
def smul (s : K) (a : Vec3 K) : Vec3 K := ⟨a.x * s, a.y * s, a.z * s⟩
/-- Scalar division (vec3.h:41-51), with `inv` (math.h:20). -/
def divs [DecidableEq K] (a : Vec3 K) (s : K) : Option (Vec3 K) :=
  if s = 0 then none else
    let ms := 1 / s
    some ⟨a.x * ms, a.y * ms, a.z * ms⟩
/-- `multiply` and `operator*=` (vec3.h:58-59, 127-132). -/
def mul (a b : Vec3 K) : Vec3 K := ⟨a.x * b.x, a.y * b.y, a.z * b.z⟩
/-- `dot_product` (vec3.h:123-124). -/
def dot (a b : Vec3 K) : K := a.x * b.x + a.y * b.y + a.z * b.z
/-- `cross_product` (vec3.h:151-152). -/
def cross (a b : Vec3 K) : Vec3 K := ⟨a.y * b.z - a.z * b.y, a.z * b.x - a.x * b.z, a.x * b.y - a.y * b.x⟩
/-- `squared_length` (vec3.h:73-74). -/
def sqLen (a : Vec3 K) : K := a.x * a.x + a.y * a.y + a.z * a.z
/-- `squared_distance` (vec3.h:89-90). -/
def sqDist (a b : Vec3 K) : K := sqLen (sub a b)
/-- `projection` of `a` onto `b` (vec3.h:138-139). -/
def projection [DecidableEq K] (a b : Vec3 K) : Option (Vec3 K) :=
  if sqLen b = 0 then none else some (smul (dot a b / sqLen b) b)
/-- `projected_xy`, `projected_xz`, `projected_yz` (vec3.h:142-148). -/
def projectedXy (a : Vec3 K) : Vec3 K := ⟨a.x, a.y, 0⟩
def projectedXz (a : Vec3 K) : Vec3 K := ⟨a.x, 0, a.z⟩
def projectedYz (a : Vec3 K) : Vec3 K := ⟨0, a.y, a.z⟩
/-- `scaled` (vec3.h:135) returns a reference to its own argument, which is gone when the call returns. -/
def scaled (_a _s : Vec3 K) : Res (Vec3 K) := .ub
/-- `mirror` (mirror_tools.h:15-17). -/
def mirror (a : Vec3 K) : Vec3 K := ⟨a.x, a.y, -a.z⟩
/-- `mirror_axis` (mirror_tools.h:20-23). -/
def mirrorAxis (a : Vec3 K) : Vec3 K := ⟨-a.x, -a.y, a.z⟩

end Vec3

namespace Quat
variable {K : Type} [Field K]

/-- `identity` (quat_type.h:42). -/
def one : Quat K := ⟨1, 0, 0, 0⟩
/-- `operator*` of quaternions (quat.h:18-24, 37). -/
def mul (p q : Quat K) : Quat K :=
  ⟨p.w * q.w - p.x * q.x - p.y * q.y - p.z * q.z,
   p.w * q.x + p.x * q.w + p.y * q.z - p.z * q.y,
   p.w * q.y + p.y * q.w + p.z * q.x - p.x * q.z,
   p.w * q.z + p.z * q.w + p.x * q.y - p.y * q.x⟩
/-- `operator*` with a vector (quat.h:27-34). -/
def rot (q : Quat K) (v : Vec3 K) : Vec3 K :=
  let qv : Vec3 K := ⟨q.x, q.y, q.z⟩
  let uv := Vec3.cross qv v
  let uuv := Vec3.cross qv uv
  Vec3.add (Vec3.add v (Vec3.smul (2 * q.w) uv)) (Vec3.smul 2 uuv)
/-- `operator*=` with a factor (quat.h:40-41). -/
def scale (q : Quat K) (s : K) : Quat K := ⟨q.w * s, q.x * s, q.y * s, q.z * s⟩
/-- `squared_length` (quat.h:51-52). -/
def sqLen (q : Quat K) : K := q.w * q.w + q.x * q.x + q.y * q.y + q.z * q.z
/-- `conjugate` (quat.h:98). -/
def conj (q : Quat K) : Quat K := ⟨q.w, -q.x, -q.y, -q.z⟩
/-- Unary `operator-` (quat.h:101). -/
def minus (q : Quat K) : Quat K := ⟨q.w, -q.x, -q.y, -q.z⟩
/-- `inverse` (quat.h:104-105). -/
def inverse [DecidableEq K] (q : Quat K) : Option (Quat K) :=
  if sqLen q = 0 then none else
    let f := -1 / sqLen q
    some ⟨q.w, q.x * f, q.y * f, q.z * f⟩
/-- `positive` (quat.h:108-109). -/
def positive [LinearOrder K] (q : Quat K) : Quat K := if q.w < 0 then ⟨-q.w, -q.x, -q.y, -q.z⟩ else q
/-- `quat_from_quats` (quat.h:143-144): unary minus binds before the product. -/
def fromQuats (source target : Quat K) : Quat K := mul (minus source) target
/-- `normalize_fast` (quat.h:80-81, 84). -/
def normalizeFast [DecidableEq K] (q : Quat K) : Option (Quat K) :=
  if 1 + sqLen q = 0 then none else some (scale q (2 / (1 + sqLen q)))
/-- `local_x_axis` (quat.h:229-235). -/
def localX (q : Quat K) : Vec3 K :=
  let ty := q.y + q.y
  let tz := q.z + q.z
  ⟨1 - (ty * q.y + tz * q.z), ty * q.x + tz * q.w, tz * q.x - ty * q.w⟩
/-- `local_y_axis` (quat.h:237-243). -/
def localY (q : Quat K) : Vec3 K :=
  let tx := q.x + q.x
  let ty := q.y + q.y
  let tz := q.z + q.z
  ⟨ty * q.x - tz * q.w, 1 - (tx * q.x + tz * q.z), tz * q.y + tx * q.w⟩
/-- `local_z_axis` (quat.h:245-251). -/
def localZ (q : Quat K) : Vec3 K :=
  let tx := q.x + q.x
  let ty := q.y + q.y
  let tz := q.z + q.z
  ⟨tz * q.x + ty * q.w, tz * q.y - tx * q.w, 1 - (tx * q.x + ty * q.y)⟩
/-- `axes_from_quat` (quat.h:254-263). -/
def axes (q : Quat K) : Vec3 (Vec3 K) :=
  let tx := q.x + q.x
  let ty := q.y + q.y
  let tz := q.z + q.z
  ⟨⟨1 - (ty * q.y + tz * q.z), ty * q.x + tz * q.w, tz * q.x - ty * q.w⟩,
   ⟨ty * q.x - tz * q.w, 1 - (tx * q.x + tz * q.z), tz * q.y + tx * q.w⟩,
   ⟨tz * q.x + ty * q.w, tz * q.y - tx * q.w, 1 - (tx * q.x + ty * q.y)⟩⟩
/-- `mirror` (mirror_tools.h:26-29). -/
def mirror (q : Quat K) : Quat K := ⟨q.w, -q.x, -q.y, q.z⟩

end Quat

/-- `transform_` (transform.h:10-20). -/
@[ext] structure Transform (K : Type) where
  p : Vec3 K
  q : Quat K
  deriving DecidableEq, Repr

namespace Transform
variable {K : Type} [Field K]
open Vec3 Quat

/-- `identity` (transform.h:41). -/
def one : Transform K := ⟨Vec3.zero, Quat.one⟩
/-- `operator*` and `trans` with a transform (transform.h:26-28). -/
def mul (t u : Transform K) : Transform K := ⟨Vec3.add t.p (rot t.q u.p), Quat.mul t.q u.q⟩
/-- `inv` (transform.h:29). -/
def inv (t : Transform K) : Transform K :=
  let iq := minus t.q
  ⟨rot iq (Vec3.neg t.p), iq⟩
/-- `inv_trans` of a transform (transform.h:30). -/
def invTrans (t u : Transform K) : Transform K := ⟨rot (conj t.q) (Vec3.sub u.p t.p), Quat.mul (conj t.q) u.q⟩
/-- `operator*` and `trans` with a point (transform.h:32-33). -/
def point (t : Transform K) (v : Vec3 K) : Vec3 K := Vec3.add t.p (rot t.q v)
/-- `inv_trans` of a point (transform.h:34). -/
def invPoint (t : Transform K) (v : Vec3 K) : Vec3 K := rot (conj t.q) (Vec3.sub v t.p)
/-- `operator*` and `trans` with an orientation (transform.h:36-37). -/
def ori (t : Transform K) (o : Quat K) : Quat K := Quat.mul t.q o
/-- `inv_trans` of an orientation (transform.h:38). -/
def invOri (t : Transform K) (o : Quat K) : Quat K := Quat.mul (conj t.q) o
/-- `mirror` (mirror_tools.h:39-42). -/
def mirror (t : Transform K) : Transform K := ⟨Vec3.mirror t.p, Quat.mirror t.q⟩

end Transform

/-- `transform_srt_` (transform_srt.h:11-22). The default scale is one (scale3.h:11). -/
@[ext] structure TransformSrt (K : Type) where
  s : Vec3 K
  q : Quat K
  p : Vec3 K
  deriving DecidableEq, Repr

namespace TransformSrt
variable {K : Type} [Field K]
open Quat

/-- The constructor from position and orientation (transform_srt.h:16). -/
def make (p : Vec3 K) (q : Quat K) : TransformSrt K := ⟨⟨1, 1, 1⟩, q, p⟩
/-- `operator*` and `trans` with a transform (transform_srt.h:25, 27): the scales take no part. -/
def mul (t u : TransformSrt K) : TransformSrt K := make (Vec3.add t.p (rot t.q u.p)) (Quat.mul t.q u.q)
/-- `operator*` and `trans` with a point (transform_srt.h:31-32, scale3.h:42-43). -/
def point (t : TransformSrt K) (v : Vec3 K) : Vec3 K := Vec3.add t.p (rot t.q (Vec3.mul t.s v))
/-- `inv` (transform_srt.h:28). -/
def inv (t : TransformSrt K) : TransformSrt K :=
  let iq := minus t.q
  make (rot iq (Vec3.neg t.p)) iq

end TransformSrt

/-- `mirror` of bounds (mirror_tools.h:32-36). -/
def mirrorBounds {K : Type} [Field K] (b : Bounds K) : Bounds K :=
  let upper := -b.lower
  ⟨-b.upper, upper⟩

/-- `line_` (line.h:11-18). -/
structure Line (K : Type) where
  pos : Vec3 K
  dir : Vec3 K

/-- `closest_points` of two lines (line.h:23-47); `eps` is the tolerance `ample_epsilon`. -/
def closestPoints {K : Type} [Field K] [LinearOrder K] (eps : K) (l1 l2 : Line K) : Option (Vec3 K × Vec3 K) :=
  let w := Vec3.sub l1.pos l2.pos
  let a := Vec3.dot l1.dir l1.dir
  let b := Vec3.dot l1.dir l2.dir
  let c := Vec3.dot l2.dir l2.dir
  let d := Vec3.dot l1.dir w
  let e := Vec3.dot l2.dir w
  let D := a * c - b * b
  let pts (sc tc : K) := (Vec3.add l1.pos (Vec3.smul sc l1.dir), Vec3.add l2.pos (Vec3.smul tc l2.dir))
  if D < eps then
    if b > c then (if b = 0 then none else some (pts 0 (d / b)))
    else (if c = 0 then none else some (pts 0 (e / c)))
  else if D = 0 then none
  else some (pts ((b * e - c * d) / D) ((a * e - b * d) / D))

/-- `segment_` (segment.h:11-18). -/
structure Segment (K : Type) where
  p0 : Vec3 K
  p1 : Vec3 K

/-- The point of a segment whose distance `distance( point, segment )` returns (segment.h:23-38). -/
def segmentClosest {K : Type} [Field K] [LinearOrder K] (pt : Vec3 K) (s : Segment K) : Vec3 K :=
  let v := Vec3.sub s.p1 s.p0
  let w := Vec3.sub pt s.p0
  let c1 := Vec3.dot w v
  if c1 ≤ 0 then s.p0
  else
    let c2 := Vec3.dot v v
    if c2 ≤ c1 then s.p1
    else Vec3.add s.p0 (Vec3.smul (c1 / c2) v)

/-- The square of `distance( point, segment )` (segment.h:23-38). -/
def segmentSqDist {K : Type} [Field K] [LinearOrder K] (pt : Vec3 K) (s : Segment K) : K :=
  Vec3.sqDist pt (segmentClosest pt s)

/-- `intersection` of a line and a plane with the given normal under a transform (shape_tools.h:9-15). -/
def intersection {K : Type} [Field K] [DecidableEq K] (r : Line K) (normal : Vec3 K) (t : Transform K) : Option (Vec3 K) :=
  let delta := Vec3.sub r.pos t.p
  let n := Quat.rot t.q normal
  let p1 := Vec3.dot delta n
  let p2 := Vec3.dot r.dir n
  if p2 = 0 then none else some (Vec3.sub r.pos (Vec3.smul (p1 / p2) r.dir))

end Xo.Geom
