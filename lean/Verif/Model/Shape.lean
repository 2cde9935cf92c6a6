import Verif.Model.GeomReal
import Mathlib.Algebra.Order.WithTop.Untop0
import Mathlib.Analysis.SpecialFunctions.Pow.Real

/-!
Model of /repo/xo/shape (`aabb.h`, `sphere.h`, `box.h`, `box.cpp`, `cylinder.h`, `capsule.h`, `cone.h`, `plane.h`,
`shape.h`, `shape_tools.h`), in exact arithmetic. `XO_NOT_IMPLEMENTED` throws, which is `err`.
The conversions from and to prop_nodes are in `PnConv.lean`.
-/
namespace Xo.Geom

/-- `aabb_` (aabb.h:9-44). -/
@[ext] structure Aabb (K : Type) where
  lower : Vec3 K
  upper : Vec3 K

section aabb
variable {K : Type} [LinearOrder K]

/-- Default constructor (aabb.h:12-15): `big` and `low` are the largest and the lowest number. -/
def Aabb.empty (big low : K) : Aabb K := ⟨⟨big, big, big⟩, ⟨low, low, low⟩⟩
/-- Constructor from a point (aabb.h:16). -/
def Aabb.ofPoint (p : Vec3 K) : Aabb K := ⟨p, p⟩

/-- `set_if_smaller` and `set_if_bigger` (math.h:55, 58). -/
def setIfSmaller (v n : K) : K := if n < v then n else v
def setIfBigger (v n : K) : K := if n > v then n else v

/-- `operator+=` with a point (aabb.h:19-27). -/
def Aabb.addPoint (b : Aabb K) (v : Vec3 K) : Aabb K :=
  { lower := ⟨setIfSmaller b.lower.x v.x, setIfSmaller b.lower.y v.y, setIfSmaller b.lower.z v.z⟩
    upper := ⟨setIfBigger b.upper.x v.x, setIfBigger b.upper.y v.y, setIfBigger b.upper.z v.z⟩ }
/-- `operator+=` with a box (aabb.h:29-37). -/
def Aabb.addBox (b c : Aabb K) : Aabb K :=
  { lower := ⟨setIfSmaller b.lower.x c.lower.x, setIfSmaller b.lower.y c.lower.y, setIfSmaller b.lower.z c.lower.z⟩
    upper := ⟨setIfBigger b.upper.x c.upper.x, setIfBigger b.upper.y c.upper.y, setIfBigger b.upper.z c.upper.z⟩ }
/-- Points added one after another, as in the loop of box.cpp:18-19. -/
def Aabb.addPoints (b : Aabb K) (l : List (Vec3 K)) : Aabb K := l.foldl Aabb.addPoint b

end aabb

/-- `corners` of a box (box.cpp:54-68). -/
def boxCorners {K : Type} [Field K] (h : Vec3 K) : List (Vec3 K) :=
  [⟨-h.x, -h.y, -h.z⟩, ⟨h.x, -h.y, -h.z⟩, ⟨-h.x, h.y, -h.z⟩, ⟨h.x, h.y, -h.z⟩,
   ⟨-h.x, -h.y, h.z⟩, ⟨h.x, -h.y, h.z⟩, ⟨-h.x, h.y, h.z⟩, ⟨h.x, h.y, h.z⟩]

/-- `aabb` of a box (box.cpp:14-21). -/
def boxAabb {K : Type} [Field K] [LinearOrder K] (big low : K) (h : Vec3 K) (t : Transform K) : Aabb K :=
  (Aabb.empty big low).addPoints ((boxCorners h).map fun c => Transform.point t c)

/-- `aabb` of a sphere (sphere.h:24-26). -/
def sphereAabb {K : Type} [Field K] (r : K) (t : Transform K) : Aabb K :=
  ⟨Vec3.sub t.p (Vec3.diagonal r), Vec3.add t.p (Vec3.diagonal r)⟩

/-- `shape` (shape.h:16): the six shapes with their fields. -/
inductive Shape (K : Type)
  | sphere (radius : K)
  | box (half : Vec3 K)
  | cylinder (radius height : K)
  | capsule (radius height : K)
  | cone (radius height : K)
  | plane (normal : Vec3 K)

namespace Shape
variable {K : Type} [Field K]

/-- `aabb` (sphere.h:24-26, box.cpp:14-21, cylinder.h:22-24, capsule.h:26-28, cone.h:26-28, plane.h:20, shape.h:50-52). -/
def aabb [LinearOrder K] (big low : K) (s : Shape K) (t : Transform K) : Res (Aabb K) :=
  match s with
  | sphere r => .ok (sphereAabb r t)
  | box h => .ok (boxAabb big low h t)
  | _ => .err

/-- `volume` (sphere.h:20-22, box.cpp:9-12, cylinder.h:18-20, capsule.h:18-20, cone.h:18-20, plane.h:19, shape.h:42-44);
`pi` is the constant. -/
def volume (pi : K) : Shape K → K
  | sphere r => 4 / 3 * pi * (r * r * r)
  | box h => 8 * h.x * h.y * h.z
  | cylinder r h => pi * (r * r) * h
  | capsule r h => pi * (r * r) * (4 / 3 * r + h)
  | cone r h => pi * (r * r) * h / 3
  | plane _ => 0

/-- `dim` (sphere.h:28-30, box.cpp:23-26, cylinder.h:26-28, capsule.h:22-24, cone.h:22-24, plane.h:21, shape.h:46-48). -/
def dim : Shape K → Res (Vec3 K)
  | sphere r => .ok (Vec3.diagonal (2 * r))
  | box h => .ok (Vec3.smul 2 h)
  | cylinder r h => .ok ⟨2 * r, h, 2 * r⟩
  | capsule r h => .ok ⟨2 * r, h, 2 * r⟩
  | cone r h => .ok ⟨2 * r, h, 2 * r⟩
  | plane _ => .err

/-- `inertia` (sphere.h:32-34, box.cpp:28-36, cylinder.h:30-36, capsule.h:30-44, cone.h:30-32, plane.h:22, shape.h:54-56). -/
def inertia (pi : K) (s : Shape K) (density : K) : Res (Vec3 K) :=
  match s with
  | sphere r => .ok (Vec3.diagonal (2 / 5 * volume pi (sphere r) * density * (r * r)))
  | box h =>
    let m := density * volume pi (box h)
    .ok ⟨m / 3 * (h.y * h.y + h.z * h.z), m / 3 * (h.x * h.x + h.z * h.z), m / 3 * (h.x * h.x + h.y * h.y)⟩
  | cylinder r h =>
    let m := density * volume pi (cylinder r h)
    let xz := m / 12 * (3 * (r * r) + h * h)
    .ok ⟨xz, 1 / 2 * m * (r * r), xz⟩
  | capsule r h =>
    let r2 := r * r
    let r3 := r2 * r
    let m1 := pi * r2 * h * density
    let m2 := 4 / 3 * pi * r3 * density
    let ia := m1 * (1 / 4 * r2 + 1 / 12 * m1 * h * h) + m2 * (2 / 5 * r2 + 3 / 8 * r * h + 1 / 4 * h * h)
    let ib := (m1 * (1 / 2) + m2 * (2 / 5)) * r2
    .ok ⟨ia, ib, ia⟩
  | cone _ _ => .err
  | plane _ => .ok Vec3.zero

/-- `scale` with a number (sphere.h:36-38, box.cpp:38-41, cylinder.h:38-41, capsule.h:46-49, cone.h:34-37, plane.h:23,
shape.h:58-60). -/
def scale (f : K) : Shape K → Shape K
  | sphere r => sphere (r * f)
  | box h => box (Vec3.smul f h)
  | cylinder r h => cylinder (r * f) (h * f)
  | capsule r h => capsule (r * f) (h * f)
  | cone r h => cone (r * f) (h * f)
  | plane n => plane n

end Shape

/-- `std::cbrt`: the real cube root. -/
noncomputable def cbrt (x : ℝ) : ℝ := if 0 ≤ x then x ^ (1 / 3 : ℝ) else -((-x) ^ (1 / 3 : ℝ))

/-- `scale` with a vector (sphere.h:40-42, box.cpp:43-48, cylinder.h:43-46, capsule.h:51-54, cone.h:39-42, plane.h:24,
shape.h:64-66). The root of a negative number is NaN, which is `none`. -/
noncomputable def Shape.scaleBy (v : Vec3 ℝ) : Shape ℝ → Option (Shape ℝ)
  | .sphere r => some (.sphere (r * cbrt (v.x * v.y * v.z)))
  | .box h => some (.box ⟨h.x * v.x, h.y * v.y, h.z * v.z⟩)
  | .cylinder r h => if v.x * v.z < 0 then none else some (.cylinder (r * √(v.x * v.z)) (h * v.y))
  | .capsule r h => if v.x * v.z < 0 then none else some (.capsule (r * √(v.x * v.z)) (h * v.y))
  | .cone r h => if v.x * v.z < 0 then none else some (.cone (r * √(v.x * v.z)) (h * v.y))
  | .plane n => some (.plane n)

/-- Division of a positive number: division by zero gives infinity, `⊤`. -/
noncomputable def divTop (a b : ℝ) : WithTop ℝ := if b = 0 then ⊤ else ((a / b : ℝ) : WithTop ℝ)

/-- `distance_from_center` (shape_tools.h:17-47). There are no signed zeros, so `copysign` follows the sign of the number. -/
noncomputable def distanceFromCenter (s : Shape ℝ) (dir : Vec3 ℝ) : Res (WithTop ℝ) :=
  match s with
  | .sphere r => .ok (r : ℝ)
  | .box h => .ok (min (divTop h.x |dir.x|) (min (divTop h.y |dir.y|) (divTop h.z |dir.z|)))
  | .cylinder r h =>
    let hh := 1 / 2 * h
    let vxz := √(dir.x * dir.x + dir.z * dir.z)
    if |dir.y| * r > hh * vxz then .ok ((√(hh * hh + vxz * vxz) : ℝ) : WithTop ℝ)
    else .ok (divTop r vxz)
  | .capsule r h =>
    let hh := 1 / 2 * h
    let vxz := √(dir.x * dir.x + dir.z * dir.z)
    if |dir.y| * r > hh * vxz then
      let b := 2 * dir.y * -(if dir.y < 0 then -hh else hh)
      let c := hh * hh - r * r
      let det := b * b - 4 * c
      let sd := √det
      .ok ((max ((-b + sd) / 2) ((-b - sd) / 2) : ℝ) : WithTop ℝ)
    else .ok (divTop r vxz)
  | .cone _ _ => .err
  | .plane _ => .ok 0

end Xo.Geom
