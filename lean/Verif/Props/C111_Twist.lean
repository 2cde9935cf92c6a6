import Verif.Model.Twist
import Verif.Props.C73_Euler
import Verif.Props.C54_QuatReal

/-!
C111: the part of a rotation around an axis.
-/
namespace Xo.Geom
open Real
open Spec

/-- The component along the axis. -/
noncomputable def comp (q : Quat ℝ) (a : Vec3 ℝ) : ℝ := Vec3.dot ⟨q.x, q.y, q.z⟩ a

theorem along_length {q : Quat ℝ} {a : Vec3 ℝ} (ha : Vec3.sqLen a = 1) : Quat.length (Quat.along q a) = √(q.w ^ 2 + comp q a ^ 2) := by
  unfold Quat.length Quat.along
  simp only
  congr 1
  unfold Vec3.sqLen at ha
  show q.w * q.w + comp q a * a.x * (comp q a * a.x) + comp q a * a.y * (comp q a * a.y) + comp q a * a.z * (comp q a * a.z) = _
  linear_combination (comp q a) ^ 2 * ha

/-- Half of the angle. -/
theorem half_copysign {w d l : ℝ} (hl : 0 < l) (h : l ^ 2 = w ^ 2 + d ^ 2) :
    cos (1 / 2 * copysign (2 * arccos (w / l)) d) = w / l ∧ sin (1 / 2 * copysign (2 * arccos (w / l)) d) = d / l := by
  have hb : (w / l) ^ 2 ≤ 1 := by
    rw [div_pow, div_le_one (by positivity), h]
    nlinarith [sq_nonneg d]
  have h1 : -1 ≤ w / l := by nlinarith
  have h2 : w / l ≤ 1 := by nlinarith
  have hn : 0 ≤ 2 * arccos (w / l) := by have := arccos_nonneg (w / l); linarith
  have hs : sin (arccos (w / l)) = |d| / l := by
    rw [sin_arccos, show 1 - (w / l) ^ 2 = (|d| / l) ^ 2 by rw [div_pow, div_pow, sq_abs]; field_simp; linarith]
    exact sqrt_sq (by positivity)
  unfold copysign
  rw [abs_of_nonneg hn]
  split
  · next hd =>
    rw [show 1 / 2 * -(2 * arccos (w / l)) = -arccos (w / l) by ring, cos_neg, sin_neg, cos_arccos h1 h2, hs, abs_of_neg hd]
    exact ⟨rfl, by ring⟩
  · next hd =>
    rw [show 1 / 2 * (2 * arccos (w / l)) = arccos (w / l) by ring, cos_arccos h1 h2, hs, abs_of_nonneg (not_lt.1 hd)]
    exact ⟨rfl, rfl⟩

/-- **C111.** Above the tolerance: the part around the axis is the rotation around the axis by the angle that is told. It has length one. All ways to
compute it agree. -/
theorem C111_twist_partial (eps : ℝ) (he : 0 ≤ eps) (q : Quat ℝ) (a : Vec3 ℝ) (ha : Vec3.sqLen a = 1) (hl : eps < √(q.w ^ 2 + comp q a ^ 2)) :
    (Quat.angleAround eps q a).1 = Quat.fromAxisAngle a (Quat.angleAround eps q a).2 ∧ UnitLength (Quat.angleAround eps q a).1 ∧
      Quat.rotationAround eps q a = (Quat.angleAround eps q a).2 ∧ Quat.angleAroundFast q a = some (Quat.angleAround eps q a) := by
  set l := √(q.w ^ 2 + comp q a ^ 2) with hld
  have hl0 : 0 < l := lt_of_le_of_lt he hl
  have hl2 : l ^ 2 = q.w ^ 2 + comp q a ^ 2 := sq_sqrt (by positivity)
  have hlen : Quat.length (Quat.along q a) = l := along_length ha
  have e : Quat.angleAround eps q a = (Quat.scale (Quat.along q a) (1 / l), copysign (2 * arccos (q.w / l)) (comp q a)) := by
    unfold Quat.angleAround
    simp only [hlen]
    rw [if_pos hl]
    simp only [Quat.scale, Quat.along, mul_one_div]
    rfl
  obtain ⟨hc, hs⟩ := half_copysign hl0 hl2
  have e1 : (Quat.angleAround eps q a).1 = Quat.fromAxisAngle a (Quat.angleAround eps q a).2 := by
    rw [e]
    unfold Quat.fromAxisAngle
    simp only
    rw [hc, hs]
    ext <;> simp only [Quat.scale, Quat.along] <;> first | (field_simp; done) | (rw [show Vec3.dot ⟨q.x, q.y, q.z⟩ a = comp q a from rfl]; field_simp)
  refine ⟨e1, ?_, ?_, ?_⟩
  · rw [e1]
    exact (C54_axis_angle a ha _ Vec3.zero).1
  · rw [e]
    unfold Quat.rotationAround
    simp only [hlen]
    rw [if_pos hl]
    rfl
  · rw [e]
    unfold Quat.angleAroundFast Quat.normalize
    simp only [hlen]
    rw [if_neg hl0.ne']
    simp only [Option.map_some, Quat.scale, Quat.along, mul_one_div]
    rfl

/-- **C111.** What is left when the part around the axis is taken away does not turn around the axis; and both together are the rotation. -/
theorem C111_swing_partial (eps : ℝ) (he : 0 ≤ eps) (q : Quat ℝ) (a : Vec3 ℝ) (ha : Vec3.sqLen a = 1) (hl : eps < √(q.w ^ 2 + comp q a ^ 2)) :
    ∃ swing : Quat ℝ, Quat.mul swing (Quat.angleAround eps q a).1 = q ∧ comp swing a = 0 := by
  obtain ⟨e1, hu, -, -⟩ := C111_twist_partial eps he q a ha hl
  set l := √(q.w ^ 2 + comp q a ^ 2) with hld
  have hl0 : 0 < l := lt_of_le_of_lt he hl
  have hlen : Quat.length (Quat.along q a) = l := along_length ha
  have e : (Quat.angleAround eps q a).1 = Quat.scale (Quat.along q a) (1 / l) := by
    unfold Quat.angleAround
    simp only [hlen]
    rw [if_pos hl]
  set t := (Quat.angleAround eps q a).1 with ht
  refine ⟨Quat.mul q (Quat.conj t), ?_, ?_⟩
  · unfold UnitLength at hu
    ext <;> simp only [Quat.mul, Quat.conj]
    · linear_combination q.w * hu
    · linear_combination q.x * hu
    · linear_combination q.y * hu
    · linear_combination q.z * hu
  · rw [e]
    simp only [comp, Quat.mul, Quat.conj, Quat.scale, Quat.along, Vec3.dot]
    unfold Vec3.sqLen at ha
    linear_combination (-(q.w * (q.x * a.x + q.y * a.y + q.z * a.z) * (1 / l))) * ha

theorem comp_axis (a : Vec3 ℝ) (ha : Vec3.sqLen a = 1) (φ : ℝ) : comp (Quat.fromAxisAngle a φ) a = sin (1 / 2 * φ) := by
  unfold Vec3.sqLen at ha
  simp only [comp, Quat.fromAxisAngle, Vec3.dot]
  linear_combination sin (1 / 2 * φ) * ha

/-- **C111.** A rotation around the axis: its angle is found, if it is less than a full turn. -/
theorem C111_axis (eps : ℝ) (he : 0 ≤ eps) (he1 : eps < 1) (a : Vec3 ℝ) (ha : Vec3.sqLen a = 1) (φ : ℝ) (h1 : -(2 * π) < φ) (h2 : φ < 2 * π) :
    Quat.rotationAround eps (Quat.fromAxisAngle a φ) a = φ := by
  have hc : comp (Quat.fromAxisAngle a φ) a = sin (1 / 2 * φ) := comp_axis a ha φ
  have hw : (Quat.fromAxisAngle a φ).w = cos (1 / 2 * φ) := rfl
  have hl : √((Quat.fromAxisAngle a φ).w ^ 2 + comp (Quat.fromAxisAngle a φ) a ^ 2) = 1 := by
    rw [hc, hw, cos_sq_add_sin_sq, sqrt_one]
  have hlen : Quat.length (Quat.along (Quat.fromAxisAngle a φ) a) = 1 := (along_length ha).trans hl
  unfold Quat.rotationAround
  simp only [hlen]
  rw [if_pos he1]
  show copysign (2 * arccos ((Quat.fromAxisAngle a φ).w / 1)) (comp (Quat.fromAxisAngle a φ) a) = φ
  rw [hw, hc, div_one]
  unfold copysign
  rcases lt_or_ge φ 0 with h | h
  · rw [show (1 / 2 * φ) = -(1 / 2 * -φ) by ring, cos_neg, sin_neg, arccos_cos (by linarith) (by linarith),
      if_pos (by have := sin_pos_of_pos_of_lt_pi (x := 1 / 2 * -φ) (by linarith) (by linarith); linarith), abs_of_nonneg (by linarith)]
    ring
  · rw [arccos_cos (by linarith) (by linarith), if_neg (not_lt.2 (sin_nonneg_of_nonneg_of_le_pi (by linarith) (by linarith))), abs_of_nonneg (by linarith)]
    ring

/-- **C111, violated.** Two quaternions of the same rotation have different angles, one of which is more than half a turn. -/
theorem C111_sign_violated (eps : ℝ) (he : 0 ≤ eps) (he1 : eps < 1) (a : Vec3 ℝ) (ha : Vec3.sqLen a = 1) (φ : ℝ) (h1 : 0 < φ) (h2 : φ < 2 * π) :
    ∃ p q : Quat ℝ, (∀ v, Quat.rot p v = Quat.rot q v) ∧ Quat.rotationAround eps p a = φ ∧ Quat.rotationAround eps q a = φ - 2 * π := by
  refine ⟨Quat.fromAxisAngle a φ, Quat.fromAxisAngle a (φ - 2 * π), ?_, C111_axis eps he he1 a ha φ (by linarith [pi_pos]) h2,
    C111_axis eps he he1 a ha _ (by linarith) (by linarith)⟩
  intro v
  rw [(C54_axis_angle a ha φ v).2, (C54_axis_angle a ha (φ - 2 * π) v).2, cos_sub_two_pi, sin_sub_two_pi]

/-- **C111, violated.** Half a turn around a line perpendicular to the axis: the fast forms give no number. -/
theorem C111_singular_violated (q : Quat ℝ) (a : Vec3 ℝ) (hw : q.w = 0) (hd : comp q a = 0) : Quat.angleAroundFast q a = none ∧
    (q.x = 0 → Quat.rotationAroundX q = none) ∧ (q.y = 0 → Quat.rotationAroundY q = none) ∧ (q.z = 0 → Quat.rotationAroundZ q = none) := by
  have h0 : ∀ c : ℝ, c = 0 → Quat.rotationAroundLocal q.w c = none := by
    intro c hc
    unfold Quat.rotationAroundLocal
    simp [hw, hc]
  refine ⟨?_, h0 _, h0 _, h0 _⟩
  have : Quat.length (Quat.along q a) = 0 := by
    unfold Quat.length Quat.along
    simp only
    rw [show Vec3.dot ⟨q.x, q.y, q.z⟩ a = comp q a from rfl, hw, hd]
    simp
  unfold Quat.angleAroundFast Quat.normalize
  simp [this]

/-- **C111.** The other forms give no rotation at or below the tolerance. -/
theorem C111_singular (eps : ℝ) (q : Quat ℝ) (a : Vec3 ℝ) (ha : Vec3.sqLen a = 1) (hl : √(q.w ^ 2 + comp q a ^ 2) ≤ eps) :
    Quat.rotationAround eps q a = 0 ∧ (Quat.angleAround eps q a).2 = 0 ∧ (Quat.angleAround eps q a).1.w = 1 := by
  have hlen : Quat.length (Quat.along q a) = √(q.w ^ 2 + comp q a ^ 2) := along_length ha
  unfold Quat.rotationAround Quat.angleAround
  simp only [hlen]
  rw [if_neg (not_lt.2 hl), if_neg (not_lt.2 hl)]
  refine ⟨rfl, ?_, rfl⟩
  simp [copysign]

/-- **C111, violated.** But the quaternion that belongs to it has length one only if it has no part along the axis at all. -/
theorem C111_length_violated (eps : ℝ) (q : Quat ℝ) (a : Vec3 ℝ) (ha : Vec3.sqLen a = 1) (hl : √(q.w ^ 2 + comp q a ^ 2) ≤ eps) (hd : comp q a ≠ 0) :
    ¬ UnitLength (Quat.angleAround eps q a).1 ∧ (Quat.angleAround eps q a).1 ≠ Quat.fromAxisAngle a (Quat.angleAround eps q a).2 := by
  have hlen : Quat.length (Quat.along q a) = √(q.w ^ 2 + comp q a ^ 2) := along_length ha
  have hu : ¬ UnitLength (Quat.angleAround eps q a).1 := by
    unfold Quat.angleAround
    simp only [hlen]
    rw [if_neg (not_lt.2 hl)]
    intro h
    unfold UnitLength at h
    simp only [Quat.along] at h
    rw [show Vec3.dot ⟨q.x, q.y, q.z⟩ a = comp q a from rfl] at h
    unfold Vec3.sqLen at ha
    have : comp q a ^ 2 = 0 := by linear_combination h - comp q a ^ 2 * ha
    exact hd (pow_eq_zero_iff (two_ne_zero)|>.1 this)
  refine ⟨hu, fun e => hu ?_⟩
  rw [e]
  exact (C54_axis_angle a ha _ Vec3.zero).1

/-- The hypotheses can be met: a rotation nearly half a turn around a line perpendicular to the axis. -/
example : ∃ q : Quat ℝ, UnitLength q ∧ √(q.w ^ 2 + comp q Vec3.unitX ^ 2) ≤ 3 / 5 ∧ comp q Vec3.unitX ≠ 0 := by
  refine ⟨⟨0, 3 / 5, 4 / 5, 0⟩, by norm_num [UnitLength], ?_, by norm_num [comp, Vec3.dot, Vec3.unitX]⟩
  rw [show (0 : ℝ) ^ 2 + comp ⟨0, 3 / 5, 4 / 5, 0⟩ Vec3.unitX ^ 2 = (3 / 5) ^ 2 by norm_num [comp, Vec3.dot, Vec3.unitX]]
  rw [sqrt_sq (by norm_num)]

/-- **C111.** The forms for the three axes are those for the general axis. -/
theorem C111_xyz_partial (eps : ℝ) (he : 0 ≤ eps) (q : Quat ℝ) :
    (eps < √(q.w ^ 2 + q.x ^ 2) → Quat.rotationAroundX q = some (Quat.rotationAround eps q Vec3.unitX)) ∧
      (eps < √(q.w ^ 2 + q.y ^ 2) → Quat.rotationAroundY q = some (Quat.rotationAround eps q Vec3.unitY)) ∧
      (eps < √(q.w ^ 2 + q.z ^ 2) → Quat.rotationAroundZ q = some (Quat.rotationAround eps q Vec3.unitZ)) := by
  have key : ∀ (a : Vec3 ℝ) (c : ℝ), Vec3.sqLen a = 1 → comp q a = c → eps < √(q.w ^ 2 + c ^ 2) →
      Quat.rotationAroundLocal q.w c = some (Quat.rotationAround eps q a) := by
    intro a c ha hc hl
    have hlen : Quat.length (Quat.along q a) = √(q.w ^ 2 + c ^ 2) := by rw [along_length ha, hc]
    unfold Quat.rotationAroundLocal Quat.rotationAround
    simp only [hlen]
    rw [show q.w * q.w + c * c = q.w ^ 2 + c ^ 2 by ring, if_neg (lt_of_le_of_lt he hl).ne', if_pos hl]
    rw [show Vec3.dot ⟨q.x, q.y, q.z⟩ a = comp q a from rfl, hc]
    rfl
  refine ⟨fun h => key _ _ ?_ ?_ h, fun h => key _ _ ?_ ?_ h, fun h => key _ _ ?_ ?_ h⟩ <;>
    simp [Vec3.sqLen, Vec3.unitX, Vec3.unitY, Vec3.unitZ, comp, Vec3.dot]

/-- **C111.** Rotation vector and angle: the vector is the rotation vector, and its length is the angle. -/
theorem C111_vector_angle (eps : ℝ) (he : 0 ≤ eps) (q : Quat ℝ) :
    (Quat.rotationVectorAngle eps q).1 = Quat.rotationVector eps q ∧ Vec3.length (Quat.rotationVectorAngle eps q).1 = (Quat.rotationVectorAngle eps q).2 := by
  unfold Quat.rotationVectorAngle Quat.rotationVector
  set l := √(q.x * q.x + q.y * q.y + q.z * q.z) with hld
  by_cases h : l > eps ∧ q.w < 1
  · simp only
    rw [if_pos h, if_pos h]
    refine ⟨rfl, ?_⟩
    have hl0 : 0 < l := lt_of_le_of_lt he h.1
    have hn : 0 ≤ q.x * q.x + q.y * q.y + q.z * q.z := by nlinarith [mul_self_nonneg q.x, mul_self_nonneg q.y, mul_self_nonneg q.z]
    have hl2 : l ^ 2 = q.x * q.x + q.y * q.y + q.z * q.z := sq_sqrt hn
    have ha : 0 ≤ arccos q.w := arccos_nonneg _
    unfold Vec3.length
    simp only
    rw [show 2 * arccos q.w / l * q.x * (2 * arccos q.w / l * q.x) + 2 * arccos q.w / l * q.y * (2 * arccos q.w / l * q.y) +
      2 * arccos q.w / l * q.z * (2 * arccos q.w / l * q.z) = (2 * arccos q.w / l) ^ 2 * (q.x * q.x + q.y * q.y + q.z * q.z) by ring,
      ← hl2, div_pow, div_mul_cancel₀ _ (by positivity), sqrt_sq (by positivity)]
  · simp only
    rw [if_neg h, if_neg h]
    exact ⟨rfl, by simp [Vec3.length, Vec3.zero]⟩

/-! ### Pitch, yaw and roll -/

/-- **C111.** Pitch, yaw and roll are the angles of the turned axes y, z and x in the planes yz, zx and xy. -/
theorem C111_pitch_yaw_roll (q : Quat ℝ) (hq : UnitLength q) :
    (∃ r, 0 ≤ r ∧ (Quat.rot q Vec3.unitY).y = r * cos (Quat.pitch q) ∧ (Quat.rot q Vec3.unitY).z = r * sin (Quat.pitch q)) ∧
      (∃ r, 0 ≤ r ∧ (Quat.rot q Vec3.unitZ).z = r * cos (Quat.yaw q) ∧ (Quat.rot q Vec3.unitZ).x = r * sin (Quat.yaw q)) ∧
      (∃ r, 0 ≤ r ∧ (Quat.rot q Vec3.unitX).x = r * cos (Quat.roll q) ∧ (Quat.rot q Vec3.unitX).y = r * sin (Quat.roll q)) := by
  have key : ∀ y x : ℝ, ∃ r, 0 ≤ r ∧ x = r * cos (atan2 y x) ∧ y = r * sin (atan2 y x) := by
    intro y x
    obtain ⟨h1, h2⟩ := atan2_spec y x (√(x ^ 2 + y ^ 2)) (sqrt_nonneg _) (sq_sqrt (by positivity)).symm
    exact ⟨_, sqrt_nonneg _, h2.symm, h1.symm⟩
  have hq' := hq
  unfold UnitLength at hq'
  refine ⟨?_, ?_, ?_⟩
  · obtain ⟨r, h0, h1, h2⟩ := key (2 * q.z * q.y + 2 * q.x * q.w) (1 - (2 * q.x * q.x + 2 * q.z * q.z))
    refine ⟨r, h0, ?_, ?_⟩
    · rw [C54_rotation q _ hq]; unfold Quat.pitch; simp only; rw [← h1]; simp only [rotate, Vec3.unitY]; linear_combination hq'
    · rw [C54_rotation q _ hq]; unfold Quat.pitch; simp only; rw [← h2]; simp only [rotate, Vec3.unitY]; ring
  · obtain ⟨r, h0, h1, h2⟩ := key (2 * q.z * q.x + 2 * q.y * q.w) (1 - (2 * q.x * q.x + 2 * q.y * q.y))
    refine ⟨r, h0, ?_, ?_⟩
    · rw [C54_rotation q _ hq]; unfold Quat.yaw; simp only; rw [← h1]; simp only [rotate, Vec3.unitZ]; linear_combination hq'
    · rw [C54_rotation q _ hq]; unfold Quat.yaw; simp only; rw [← h2]; simp only [rotate, Vec3.unitZ]; ring
  · obtain ⟨r, h0, h1, h2⟩ := key (2 * q.y * q.x + 2 * q.z * q.w) (1 - (2 * q.y * q.y + 2 * q.z * q.z))
    refine ⟨r, h0, ?_, ?_⟩
    · rw [C54_rotation q _ hq]; unfold Quat.roll; simp only; rw [← h1]; simp only [rotate, Vec3.unitX]; linear_combination hq'
    · rw [C54_rotation q _ hq]; unfold Quat.roll; simp only; rw [← h2]; simp only [rotate, Vec3.unitX]; ring

/-- **C111.** A rotation around one of the axes: pitch, yaw or roll is its angle. -/
theorem C111_single (a : ℝ) (h1 : -π < a) (h2 : a ≤ π) : Quat.pitch (Quat.fromX a) = a ∧ Quat.yaw (Quat.fromY a) = a ∧ Quat.roll (Quat.fromZ a) = a := by
  have hs : sin a = 2 * sin (1 / 2 * a) * cos (1 / 2 * a) := by
    rw [← sin_two_mul]; congr 1; ring
  have hc : cos a = 1 - 2 * sin (1 / 2 * a) * sin (1 / 2 * a) := by
    have := cos_two_mul' (1 / 2 * a)
    have h3 := cos_sq_add_sin_sq (1 / 2 * a)
    rw [show 2 * (1 / 2 * a) = a by ring] at this
    linear_combination this + h3
  have key : atan2 (2 * sin (1 / 2 * a) * cos (1 / 2 * a)) (1 - 2 * sin (1 / 2 * a) * sin (1 / 2 * a)) = a := by
    rw [← hs, ← hc]
    simpa using atan2_polar 1 a one_pos h1 h2
  refine ⟨?_, ?_, ?_⟩
  · simp only [Quat.pitch, Quat.fromX]
    simpa using key
  · simp only [Quat.yaw, Quat.fromY]
    simpa using key
  · simp only [Quat.roll, Quat.fromZ]
    simpa using key

/-- **C111, violated.** Pitch, yaw and roll together are not angles from which the rotation can be made, in any order: half a turn around x has also
half a turn of yaw. -/
theorem C111_rebuild_violated (o : Quat.EulerOrder) : ∃ q : Quat ℝ, UnitLength q ∧
    ∃ v, Quat.rot (Quat.fromEuler o ⟨Quat.pitch q, Quat.yaw q, Quat.roll q⟩) v ≠ Quat.rot q v := by
  refine ⟨⟨0, 1, 0, 0⟩, by norm_num [UnitLength], Vec3.unitX, ?_⟩
  have hp : Quat.pitch ⟨0, 1, 0, 0⟩ = π := by
    have := atan2_polar 1 π one_pos (by linarith [pi_pos]) le_rfl
    simp only [sin_pi, cos_pi] at this
    simp only [Quat.pitch]
    rw [← this]
    norm_num
  have hy : Quat.yaw ⟨0, 1, 0, 0⟩ = π := by
    have := atan2_polar 1 π one_pos (by linarith [pi_pos]) le_rfl
    simp only [sin_pi, cos_pi] at this
    simp only [Quat.yaw]
    rw [← this]
    norm_num
  have hr : Quat.roll ⟨0, 1, 0, 0⟩ = 0 := by
    have := atan2_polar 1 0 one_pos (by linarith [pi_pos]) pi_pos.le
    simp only [sin_zero, cos_zero] at this
    simp only [Quat.roll]
    refine Eq.trans ?_ this
    norm_num
  rw [hp, hy, hr]
  intro h
  have hx : Quat.fromX π = ⟨0, 1, 0, 0⟩ := by
    unfold Quat.fromX; rw [show 1 / 2 * π = π / 2 by ring, cos_pi_div_two, sin_pi_div_two]
  have hyq : Quat.fromY π = ⟨0, 0, 1, 0⟩ := by
    unfold Quat.fromY; rw [show 1 / 2 * π = π / 2 by ring, cos_pi_div_two, sin_pi_div_two]
  have hz : Quat.fromZ 0 = ⟨1, 0, 0, 0⟩ := by unfold Quat.fromZ; simp
  have := congrArg Vec3.x h
  cases o <;> simp only [Quat.fromEuler, hx, hyq, hz] at this <;>
    norm_num [Quat.mul, Quat.rot, Vec3.add, Vec3.smul, Vec3.cross, Vec3.unitX] at this

end Xo.Geom
