import Verif.Model.Geom
import Mathlib.Analysis.SpecialFunctions.Trigonometric.Inverse
import Mathlib.Analysis.SpecialFunctions.Complex.Arg
import Mathlib.Analysis.Real.Sqrt

/-!
Model of the functions of /repo/xo/geometry that use roots and trigonometry, over the real numbers (exact functions,
no rounding). Angles are in radians; degrees are converted with the exact factor (the code has a decimal constant).
`eps` stands for the tolerance of the number type.
-/
namespace Xo.Geom
open Real

/-- `std::atan2`, which is 0 for two zeros. -/
noncomputable def atan2 (y x : ℝ) : ℝ := Complex.arg ⟨x, y⟩

/-- `deg_to_rad` (angle_type.h:9, 35). -/
noncomputable def degToRad (v : ℝ) : ℝ := π / 180 * v
/-- `rad_to_deg` (angle_type.h:8, 60). -/
noncomputable def radToDeg (v : ℝ) : ℝ := 180 / π * v

namespace Vec3

/-- `length` (vec3.h:69-70). -/
noncomputable def length (v : Vec3 ℝ) : ℝ := √(v.x * v.x + v.y * v.y + v.z * v.z)
/-- `distance` (vec3.h:85-86). -/
noncomputable def distance (a b : Vec3 ℝ) : ℝ := length (sub a b)
/-- `normalize`, `normalized`, `direction_length` (vec3.h:103-104, 111-116): vector and length. -/
noncomputable def normalize (eps : ℝ) (v : Vec3 ℝ) : Vec3 ℝ × ℝ :=
  let l := length v
  if l > eps then (smul (1 / l) v, l) else (v, l)
/-- `vec3_from_polar` (angle.h:19-21). -/
noncomputable def fromPolar (radius inc azi : ℝ) : Vec3 ℝ :=
  ⟨radius * sin inc * sin azi, radius * cos inc, radius * sin inc * cos azi⟩

end Vec3

namespace Quat

/-- `length` (quat.h:44-45). -/
noncomputable def length (q : Quat ℝ) : ℝ := √(q.w * q.w + q.x * q.x + q.y * q.y + q.z * q.z)
/-- `normalize` (quat.h:73-77); the zero quaternion gives NaN. -/
noncomputable def normalize (q : Quat ℝ) : Option (Quat ℝ) :=
  let len := length q
  if len = 0 then none else some (scale q (1 / len))
/-- `normalize_try_fast` (quat.h:87-95). -/
noncomputable def normalizeTryFast (eps : ℝ) (q : Quat ℝ) : Option (Quat ℝ) :=
  let slen := sqLen q
  if |1 - slen| < eps then some (scale q (2 / (1 + slen)))
  else if slen = 0 then none else some (scale q (1 / √slen))
/-- `quat_from_axis_angle` (quat.h:112-117). -/
noncomputable def fromAxisAngle (axis : Vec3 ℝ) (ang : ℝ) : Quat ℝ :=
  let ha := 1 / 2 * ang
  let hs := sin ha
  ⟨cos ha, hs * axis.x, hs * axis.y, hs * axis.z⟩
/-- `quat_from_rotation_vector` (quat.h:120-129). -/
noncomputable def fromRotationVector (eps : ℝ) (v : Vec3 ℝ) : Quat ℝ :=
  let l := Vec3.length v
  if l > eps then
    let v' := Vec3.smul (1 / l) v
    let ha := 1 / 2 * l
    let hs := sin ha
    ⟨cos ha, hs * v'.x, hs * v'.y, hs * v'.z⟩
  else one
/-- `quat_from_directions` (quat.h:132-140). -/
noncomputable def fromDirections (eps : ℝ) (source target : Vec3 ℝ) : Option (Quat ℝ) :=
  let axis := Vec3.cross source target
  let dot := Vec3.dot source target
  if dot < -1 + eps then some ⟨0, 1, 0, 0⟩ else normalize ⟨dot + 1, axis.x, axis.y, axis.z⟩
/-- `rotation_vector_from_quat` (quat.h:147-154). -/
noncomputable def rotationVector (eps : ℝ) (q : Quat ℝ) : Vec3 ℝ :=
  let l := √(q.x * q.x + q.y * q.y + q.z * q.z)
  if l > eps ∧ q.w < 1 then
    let f := 2 * arccos q.w / l
    ⟨f * q.x, f * q.y, f * q.z⟩
  else Vec3.zero
/-- `axis_angle_from_quat` (quat.h:168-175). -/
noncomputable def axisAngle (eps : ℝ) (q : Quat ℝ) : Vec3 ℝ × ℝ :=
  let l := √(q.x * q.x + q.y * q.y + q.z * q.z)
  if l > eps ∧ q.w < 1 then
    let s := 1 / l
    (⟨s * q.x, s * q.y, s * q.z⟩, 2 * arccos q.w)
  else (Vec3.unitX, 0)

/-- `quat_from_x_angle`, `quat_from_y_angle`, `quat_from_z_angle` (quat.h:265-278). -/
noncomputable def fromX (a : ℝ) : Quat ℝ := ⟨cos (1 / 2 * a), sin (1 / 2 * a), 0, 0⟩
noncomputable def fromY (a : ℝ) : Quat ℝ := ⟨cos (1 / 2 * a), 0, sin (1 / 2 * a), 0⟩
noncomputable def fromZ (a : ℝ) : Quat ℝ := ⟨cos (1 / 2 * a), 0, 0, sin (1 / 2 * a)⟩

/-- `euler_order` (quat.h:15). -/
inductive EulerOrder where
  | xyz | xzy | yxz | yzx | zxy | zyx
  deriving DecidableEq, Repr

/-- `quat_from_euler` (quat.h:282-312). -/
noncomputable def fromEuler (o : EulerOrder) (e : Vec3 ℝ) : Quat ℝ :=
  match o with
  | .xyz => mul (mul (fromX e.x) (fromY e.y)) (fromZ e.z)
  | .xzy => mul (mul (fromX e.x) (fromZ e.z)) (fromY e.y)
  | .yxz => mul (mul (fromY e.y) (fromX e.x)) (fromZ e.z)
  | .yzx => mul (mul (fromY e.y) (fromZ e.z)) (fromX e.x)
  | .zxy => mul (mul (fromZ e.z) (fromX e.x)) (fromY e.y)
  | .zyx => mul (mul (fromZ e.z) (fromY e.y)) (fromX e.x)

/-- `euler_from_quat` (quat.h:339-407). -/
noncomputable def toEuler (o : EulerOrder) (q : Quat ℝ) : Vec3 ℝ :=
  match o with
  | .xyz => ⟨atan2 (-2 * (q.y * q.z - q.w * q.x)) (q.w * q.w - q.x * q.x - q.y * q.y + q.z * q.z),
      arcsin (2 * (q.x * q.z + q.w * q.y)),
      atan2 (-2 * (q.x * q.y - q.w * q.z)) (q.w * q.w + q.x * q.x - q.y * q.y - q.z * q.z)⟩
  | .xzy => ⟨atan2 (2 * (q.y * q.z + q.w * q.x)) (q.w * q.w - q.x * q.x + q.y * q.y - q.z * q.z),
      atan2 (2 * (q.x * q.z + q.w * q.y)) (q.w * q.w + q.x * q.x - q.y * q.y - q.z * q.z),
      arcsin (-2 * (q.x * q.y - q.w * q.z))⟩
  | .yxz => ⟨arcsin (-2 * (q.y * q.z - q.w * q.x)),
      atan2 (2 * (q.x * q.z + q.w * q.y)) (q.w * q.w - q.x * q.x - q.y * q.y + q.z * q.z),
      atan2 (2 * (q.x * q.y + q.w * q.z)) (q.w * q.w - q.x * q.x + q.y * q.y - q.z * q.z)⟩
  | .yzx => ⟨atan2 (-2 * (q.y * q.z - q.w * q.x)) (q.w * q.w - q.x * q.x + q.y * q.y - q.z * q.z),
      atan2 (-2 * (q.x * q.z - q.w * q.y)) (q.w * q.w + q.x * q.x - q.y * q.y - q.z * q.z),
      arcsin (2 * (q.x * q.y + q.w * q.z))⟩
  | .zxy => ⟨arcsin (2 * (q.y * q.z + q.w * q.x)),
      atan2 (-2 * (q.x * q.z - q.w * q.y)) (q.w * q.w - q.x * q.x - q.y * q.y + q.z * q.z),
      atan2 (-2 * (q.x * q.y - q.w * q.z)) (q.w * q.w - q.x * q.x + q.y * q.y - q.z * q.z)⟩
  | .zyx => ⟨atan2 (2 * (q.y * q.z + q.w * q.x)) (q.w * q.w - q.x * q.x - q.y * q.y + q.z * q.z),
      arcsin (-2 * (q.x * q.z - q.w * q.y)),
      atan2 (2 * (q.x * q.y + q.w * q.z)) (q.w * q.w + q.x * q.x - q.y * q.y - q.z * q.z)⟩

end Quat

end Xo.Geom
