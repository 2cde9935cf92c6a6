import Verif.Model.GeomReal

/-!
The part of a rotation around an axis, and pitch, yaw and roll (/repo/xo/geometry/quat.h:156-226, 318-337), over the real numbers. `none` stands for not a
number.
-/
namespace Xo.Geom
open Real

/-- `std::copysign`. A zero counts as positive (the code may have a negative zero). -/
noncomputable def copysign (v d : ℝ) : ℝ := if d < 0 then -|v| else |v|

namespace Quat

/-- The part of the quaternion along the axis (quat.h:179-180, 187-188, 198-199). -/
noncomputable def along (q : Quat ℝ) (a : Vec3 ℝ) : Quat ℝ :=
  let d := Vec3.dot ⟨q.x, q.y, q.z⟩ a
  ⟨q.w, d * a.x, d * a.y, d * a.z⟩

/-- `quat_angle_around_axis_fast` (quat.h:178-182). -/
noncomputable def angleAroundFast (q : Quat ℝ) (a : Vec3 ℝ) : Option (Quat ℝ × ℝ) :=
  (normalize (along q a)).map fun qa => (qa, copysign (2 * arccos qa.w) (Vec3.dot ⟨q.x, q.y, q.z⟩ a))

/-- `quat_angle_around_axis` (quat.h:186-193). -/
noncomputable def angleAround (eps : ℝ) (q : Quat ℝ) (a : Vec3 ℝ) : Quat ℝ × ℝ :=
  let qa := along q a
  let l := length qa
  let qa := if l > eps then scale qa (1 / l) else { qa with w := 1 }
  (qa, copysign (2 * arccos qa.w) (Vec3.dot ⟨q.x, q.y, q.z⟩ a))

/-- `rotation_around_axis` (quat.h:197-204). -/
noncomputable def rotationAround (eps : ℝ) (q : Quat ℝ) (a : Vec3 ℝ) : ℝ :=
  let qa := along q a
  let l := length qa
  if l > eps then copysign (2 * arccos (qa.w / l)) (Vec3.dot ⟨q.x, q.y, q.z⟩ a) else 0

/-- `rotation_around_x`, `rotation_around_y`, `rotation_around_z` (quat.h:208-222), with the component of the axis. -/
noncomputable def rotationAroundLocal (w c : ℝ) : Option ℝ :=
  let l := √(w * w + c * c)
  if l = 0 then none else some (copysign (2 * arccos (w / l)) c)

noncomputable def rotationAroundX (q : Quat ℝ) : Option ℝ := rotationAroundLocal q.w q.x
noncomputable def rotationAroundY (q : Quat ℝ) : Option ℝ := rotationAroundLocal q.w q.y
noncomputable def rotationAroundZ (q : Quat ℝ) : Option ℝ := rotationAroundLocal q.w q.z

/-- `rotation_vector_angle_from_quat` (quat.h:157-165). -/
noncomputable def rotationVectorAngle (eps : ℝ) (q : Quat ℝ) : Vec3 ℝ × ℝ :=
  let l := √(q.x * q.x + q.y * q.y + q.z * q.z)
  if l > eps ∧ q.w < 1 then
    let a := 2 * arccos q.w
    let s := a / l
    (⟨s * q.x, s * q.y, s * q.z⟩, a)
  else (Vec3.zero, 0)

/-- `pitch` (quat.h:319-323). -/
noncomputable def pitch (q : Quat ℝ) : ℝ :=
  let tx := 2 * q.x
  let tz := 2 * q.z
  atan2 (tz * q.y + tx * q.w) (1 - (tx * q.x + tz * q.z))

/-- `yaw` (quat.h:326-330). -/
noncomputable def yaw (q : Quat ℝ) : ℝ :=
  let tx := 2 * q.x
  let ty := 2 * q.y
  let tz := 2 * q.z
  atan2 (tz * q.x + ty * q.w) (1 - (tx * q.x + ty * q.y))

/-- `roll` (quat.h:333-337). -/
noncomputable def roll (q : Quat ℝ) : ℝ :=
  let ty := 2 * q.y
  let tz := 2 * q.z
  atan2 (ty * q.x + tz * q.w) (1 - (ty * q.y + tz * q.z))

end Quat
end Xo.Geom
