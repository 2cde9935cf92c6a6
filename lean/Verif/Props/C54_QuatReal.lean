import Verif.Props.C73_Euler

/-!
C54, C63: quaternions and vectors with roots and trigonometry.
-/
namespace Xo.Geom
open Spec Real

theorem vec_sqLen_nonneg (v : Vec3 ℝ) : 0 ≤ Vec3.sqLen v := by
  unfold Vec3.sqLen; nlinarith [mul_self_nonneg v.x, mul_self_nonneg v.y, mul_self_nonneg v.z]

theorem quat_sqLen_nonneg (q : Quat ℝ) : 0 ≤ Quat.sqLen q := by
  unfold Quat.sqLen; nlinarith [mul_self_nonneg q.w, mul_self_nonneg q.x, mul_self_nonneg q.y, mul_self_nonneg q.z]

/-- **C63.** Length: not negative, zero only for the zero vector, and multiples have multiple lengths. -/
theorem C63_length (v : Vec3 ℝ) (s : ℝ) : 0 ≤ Vec3.length v ∧ Vec3.length v ^ 2 = Vec3.sqLen v ∧
    (Vec3.length v = 0 ↔ v = Vec3.zero) ∧ Vec3.length (Vec3.smul s v) = |s| * Vec3.length v := by
  have h0 := vec_sqLen_nonneg v
  refine ⟨sqrt_nonneg _, sq_sqrt h0, ?_, ?_⟩
  · have hl : Vec3.length v = √(Vec3.sqLen v) := rfl
    rw [hl, sqrt_eq_zero h0]
    unfold Vec3.sqLen
    constructor
    · intro h
      have hx := mul_self_nonneg v.x
      have hy := mul_self_nonneg v.y
      have hz := mul_self_nonneg v.z
      ext
      · exact mul_self_eq_zero.1 (by linarith)
      · exact mul_self_eq_zero.1 (by linarith)
      · exact mul_self_eq_zero.1 (by linarith)
    · rintro rfl
      simp [Vec3.zero]
  · unfold Vec3.length Vec3.smul
    simp only
    rw [← sqrt_sq_eq_abs, ← sqrt_mul (sq_nonneg s)]
    congr 1
    ring

/-- The inequality of Cauchy and Schwarz. -/
theorem dot_le (a b : Vec3 ℝ) : Vec3.dot a b ≤ Vec3.length a * Vec3.length b := by
  have h1 := (C63_products a b a 0).2.2.2.2.2.2.2.2.1
  have h2 := vec_sqLen_nonneg (Vec3.cross a b)
  have ha := (C63_length a 0).2.1
  have hb := (C63_length b 0).2.1
  refine le_of_sq_le_sq ?_ (mul_nonneg (sqrt_nonneg _) (sqrt_nonneg _))
  rw [mul_pow, ha, hb]
  linarith
where
  le_of_sq_le_sq {x y : ℝ} (h : x ^ 2 ≤ y ^ 2) (hy : 0 ≤ y) : x ≤ y := by nlinarith [sq_nonneg (x - y), sq_nonneg (x + y)]

/-- **C63.** Distance is a metric: symmetric, zero only for equal points, triangle inequality. -/
theorem C63_distance (a b c : Vec3 ℝ) : Vec3.distance a b = Vec3.distance b a ∧ (Vec3.distance a b = 0 ↔ a = b) ∧
    Vec3.distance a c ≤ Vec3.distance a b + Vec3.distance b c := by
  refine ⟨?_, ?_, ?_⟩
  · unfold Vec3.distance Vec3.length Vec3.sub; congr 1; simp only; ring
  · unfold Vec3.distance
    rw [(C63_length _ 0).2.2.1]
    constructor
    · intro h
      have h' := Vec3.ext_iff.1 h
      simp only [Vec3.sub, Vec3.zero] at h'
      ext <;> linarith
    · rintro rfl; ext <;> simp [Vec3.sub, Vec3.zero]
  · unfold Vec3.distance
    have e : Vec3.sub a c = Vec3.add (Vec3.sub a b) (Vec3.sub b c) := by ext <;> simp only [Vec3.sub, Vec3.add] <;> ring
    rw [e]
    generalize Vec3.sub a b = u
    generalize Vec3.sub b c = v
    have hd := dot_le u v
    have hu := (C63_length u 0).2.1
    have hv := (C63_length v 0).2.1
    have hw := (C63_length (Vec3.add u v) 0).2.1
    have e2 : Vec3.sqLen (Vec3.add u v) = Vec3.sqLen u + 2 * Vec3.dot u v + Vec3.sqLen v := by
      simp only [Vec3.sqLen, Vec3.add, Vec3.dot]; ring
    refine dot_le.le_of_sq_le_sq ?_ (add_nonneg (sqrt_nonneg _) (sqrt_nonneg _))
    rw [hw, e2]
    nlinarith

/-- **C63.** A vector longer than the tolerance is normalised to length one in the same direction; shorter ones stay. -/
theorem C63_normalize (eps : ℝ) (he : 0 ≤ eps) (v : Vec3 ℝ) : (Vec3.normalize eps v).2 = Vec3.length v ∧
    (eps < Vec3.length v → Vec3.length (Vec3.normalize eps v).1 = 1 ∧ Vec3.smul (Vec3.length v) (Vec3.normalize eps v).1 = v) ∧
    (Vec3.length v ≤ eps → (Vec3.normalize eps v).1 = v) := by
  refine ⟨by unfold Vec3.normalize; simp only; split <;> rfl, ?_, ?_⟩
  · intro h
    have h0 : 0 < Vec3.length v := lt_of_le_of_lt he h
    unfold Vec3.normalize
    simp only
    rw [if_pos h]
    simp only
    refine ⟨?_, ?_⟩
    · rw [(C63_length v _).2.2.2, abs_of_pos (by positivity), one_div, inv_mul_cancel₀ h0.ne']
    · ext <;> simp only [Vec3.smul] <;> field_simp
  · intro h
    unfold Vec3.normalize
    simp only
    rw [if_neg (not_lt.2 h)]

/-- **C54.** Normalising a non-zero quaternion gives a unit quaternion in the same direction; the zero quaternion gives NaN. -/
theorem C54_normalize (q : Quat ℝ) :
    (Quat.sqLen q ≠ 0 → ∃ r, Quat.normalize q = some r ∧ UnitLength r ∧ Quat.scale r (Quat.length q) = q) ∧
    (Quat.sqLen q = 0 → Quat.normalize q = none) := by
  have h0 := quat_sqLen_nonneg q
  have hl : Quat.length q ^ 2 = Quat.sqLen q := sq_sqrt h0
  constructor
  · intro h
    have hn : Quat.length q ≠ 0 := fun e => h (by rw [← hl, e]; ring)
    refine ⟨_, by unfold Quat.normalize; simp only; rw [if_neg hn], ?_, ?_⟩
    · have : ∀ s : ℝ, (Quat.scale q s).w ^ 2 + (Quat.scale q s).x ^ 2 + (Quat.scale q s).y ^ 2 + (Quat.scale q s).z ^ 2 =
          s ^ 2 * Quat.sqLen q := by
        intro s; simp only [Quat.scale, Quat.sqLen]; ring
      unfold UnitLength
      rw [this, ← hl]
      field_simp
    · ext <;> simp only [Quat.scale] <;> field_simp
  · intro h
    have hn : Quat.length q = 0 := by
      have : Quat.length q ^ 2 = 0 := by rw [hl, h]
      exact pow_eq_zero_iff (by norm_num) |>.1 this
    unfold Quat.normalize
    simp only
    rw [if_pos hn]

/-- **C54.** `normalize_try_fast` gives a unit quaternion, or one whose squared length differs from one by less than the
square of the tolerance. -/
theorem C54_normalize_try_fast (eps : ℝ) (q : Quat ℝ) (h : Quat.sqLen q ≠ 0) :
    ∃ r, Quat.normalizeTryFast eps q = some r ∧ (∃ s, 0 < s ∧ r = Quat.scale q s) ∧ |1 - Quat.sqLen r| ≤ eps ^ 2 := by
  have h0 : 0 < Quat.sqLen q := lt_of_le_of_ne (quat_sqLen_nonneg q) (Ne.symm h)
  have hs : ∀ s : ℝ, Quat.sqLen (Quat.scale q s) = s ^ 2 * Quat.sqLen q := by
    intro s; simp only [Quat.sqLen, Quat.scale]; ring
  unfold Quat.normalizeTryFast
  simp only
  by_cases hc : |1 - Quat.sqLen q| < eps
  · rw [if_pos hc]
    refine ⟨_, rfl, ⟨_, by positivity, rfl⟩, ?_⟩
    rw [hs]
    have e : 1 - (2 / (1 + Quat.sqLen q)) ^ 2 * Quat.sqLen q = ((1 - Quat.sqLen q) / (1 + Quat.sqLen q)) ^ 2 := by
      field_simp; ring
    rw [e, abs_of_nonneg (sq_nonneg _), div_pow]
    have h1 : (1 - Quat.sqLen q) ^ 2 ≤ eps ^ 2 := by
      rw [← sq_abs (1 - Quat.sqLen q)]
      exact pow_le_pow_left₀ (abs_nonneg _) hc.le 2
    rw [div_le_iff₀ (by positivity)]
    have h2 : 1 ≤ (1 + Quat.sqLen q) ^ 2 := by nlinarith
    have h3 := mul_le_mul_of_nonneg_left h2 (sq_nonneg eps)
    linarith
  · rw [if_neg hc, if_neg h]
    refine ⟨_, rfl, ⟨_, by positivity, rfl⟩, ?_⟩
    rw [hs, div_pow, sq_sqrt h0.le, one_pow, one_div, inv_mul_cancel₀ h, sub_self, abs_zero]
    exact sq_nonneg _

/-- Rotation in terms of the parts of a quaternion. -/
theorem rotate_parts (w : ℝ) (u v : Vec3 ℝ) : rotate ⟨w, u.x, u.y, u.z⟩ v =
    Vec3.add (Vec3.add (Vec3.smul (w ^ 2 - Vec3.sqLen u) v) (Vec3.smul (2 * Vec3.dot u v) u)) (Vec3.smul (2 * w) (Vec3.cross u v)) := by
  ext <;> simp only [rotate, Vec3.add, Vec3.smul, Vec3.dot, Vec3.cross, Vec3.sqLen] <;> ring

/-- **C54.** Axis and angle: the quaternion has length one and turns every vector about the axis by the angle (the formula
of Rodrigues). -/
theorem C54_axis_angle (k : Vec3 ℝ) (hk : Vec3.sqLen k = 1) (a : ℝ) (v : Vec3 ℝ) :
    UnitLength (Quat.fromAxisAngle k a) ∧
    Quat.rot (Quat.fromAxisAngle k a) v =
      Vec3.add (Vec3.add (Vec3.smul (cos a) v) (Vec3.smul (sin a) (Vec3.cross k v)))
        (Vec3.smul ((1 - cos a) * Vec3.dot k v) k) := by
  have hc := cos_sq_add_sin_sq (1 / 2 * a)
  have hu : UnitLength (Quat.fromAxisAngle k a) := by
    unfold UnitLength Quat.fromAxisAngle
    simp only
    unfold Vec3.sqLen at hk
    linear_combination hc + (sin (1 / 2 * a)) ^ 2 * hk
  refine ⟨hu, ?_⟩
  rw [C54_rotation _ _ hu]
  have e : Quat.fromAxisAngle k a = ⟨cos (1 / 2 * a), (Vec3.smul (sin (1 / 2 * a)) k).x, (Vec3.smul (sin (1 / 2 * a)) k).y,
      (Vec3.smul (sin (1 / 2 * a)) k).z⟩ := by
    ext <;> simp only [Quat.fromAxisAngle, Vec3.smul] <;> ring
  have hsl : Vec3.sqLen (Vec3.smul (sin (1 / 2 * a)) k) = sin (1 / 2 * a) ^ 2 := by
    have : Vec3.sqLen (Vec3.smul (sin (1 / 2 * a)) k) = sin (1 / 2 * a) ^ 2 * Vec3.sqLen k := by
      simp only [Vec3.sqLen, Vec3.smul]; ring
    rw [this, hk, mul_one]
  rw [e, rotate_parts, hsl, cos_two_half a, sin_two_half a]
  ext <;> simp only [Vec3.add, Vec3.smul, Vec3.dot, Vec3.cross]
  · linear_combination ((k.x * v.x + k.y * v.y + k.z * v.z) * k.x) * hc
  · linear_combination ((k.x * v.x + k.y * v.y + k.z * v.z) * k.y) * hc
  · linear_combination ((k.x * v.x + k.y * v.y + k.z * v.z) * k.z) * hc

/-- **C54 (partial).** Two unit directions that are not opposite: the quaternion has length one and turns the first into
the second. -/
theorem C54_directions_partial (eps : ℝ) (he : 0 < eps) (s t : Vec3 ℝ) (hs : Vec3.sqLen s = 1) (ht : Vec3.sqLen t = 1)
    (hd : -1 + eps ≤ Vec3.dot s t) :
    ∃ q, Quat.fromDirections eps s t = some q ∧ UnitLength q ∧ Quat.rot q s = t := by
  have hc := (C63_products s t s 0).2.2.2.2.2.2.2.2.1
  rw [hs, ht] at hc
  have hsl : Quat.sqLen ⟨Vec3.dot s t + 1, (Vec3.cross s t).x, (Vec3.cross s t).y, (Vec3.cross s t).z⟩ = 2 * (Vec3.dot s t + 1) := by
    have : Quat.sqLen ⟨Vec3.dot s t + 1, (Vec3.cross s t).x, (Vec3.cross s t).y, (Vec3.cross s t).z⟩ =
        (Vec3.dot s t + 1) ^ 2 + Vec3.sqLen (Vec3.cross s t) := by
      simp only [Quat.sqLen, Vec3.sqLen]; ring
    rw [this, hc]; ring
  have hpos : 0 < Vec3.dot s t + 1 := by linarith
  obtain ⟨r, hr, hu, hsc⟩ := (C54_normalize ⟨Vec3.dot s t + 1, (Vec3.cross s t).x, (Vec3.cross s t).y, (Vec3.cross s t).z⟩).1
    (by rw [hsl]; linarith)
  refine ⟨r, ?_, hu, ?_⟩
  · unfold Quat.fromDirections
    simp only
    rw [if_neg (not_lt.2 hd), hr]
  · rw [C54_rotation _ _ hu]
    have h1 : ∀ k : ℝ, rotate (Quat.scale r k) s = Vec3.smul (k ^ 2) (rotate r s) := by
      intro k
      ext <;> simp only [rotate, Quat.scale, Vec3.smul] <;> ring
    have hlen : Quat.length ⟨Vec3.dot s t + 1, (Vec3.cross s t).x, (Vec3.cross s t).y, (Vec3.cross s t).z⟩ ^ 2 =
        2 * (Vec3.dot s t + 1) := by rw [← hsl]; exact sq_sqrt (quat_sqLen_nonneg _)
    have h2 := h1 (Quat.length ⟨Vec3.dot s t + 1, (Vec3.cross s t).x, (Vec3.cross s t).y, (Vec3.cross s t).z⟩)
    rw [hsc, hlen, rotate_parts, hc] at h2
    have h3 : Vec3.dot (Vec3.cross s t) s = 0 := (C63_products s t s 0).2.2.2.2.2.2.1
    have h4 : Vec3.cross (Vec3.cross s t) s = Vec3.sub t (Vec3.smul (Vec3.dot s t) s) := by
      have := (C63_products s s t 0).2.2.2.2.2.2.2.2.2.1
      have h5 : Vec3.cross (Vec3.cross s t) s = Vec3.neg (Vec3.cross s (Vec3.cross s t)) := (C63_products _ _ s 0).2.2.2.1
      rw [h5, this]
      have h6 : Vec3.dot s s = 1 := hs
      rw [h6]
      ext <;> simp only [Vec3.neg, Vec3.sub, Vec3.smul] <;> ring
    rw [h3, h4] at h2
    simp only [Vec3.ext_iff, Vec3.add, Vec3.smul, Vec3.sub] at h2
    obtain ⟨ex, ey, ez⟩ := h2
    have hne : (2 * (Vec3.dot s t + 1)) ≠ 0 := by linarith
    ext
    · exact mul_right_cancel₀ hne (by linear_combination -ex)
    · exact mul_right_cancel₀ hne (by linear_combination -ey)
    · exact mul_right_cancel₀ hne (by linear_combination -ez)

/-- **C54 is violated** for opposite directions: the result always is the half turn about x, which does not turn the x
axis round. -/
theorem C54_directions_violated (eps : ℝ) (he : 0 < eps) :
    ∃ (s t : Vec3 ℝ) (q : Quat ℝ), Vec3.sqLen s = 1 ∧ Vec3.sqLen t = 1 ∧ Quat.fromDirections eps s t = some q ∧ Quat.rot q s ≠ t := by
  refine ⟨⟨1, 0, 0⟩, ⟨-1, 0, 0⟩, ⟨0, 1, 0, 0⟩, by norm_num [Vec3.sqLen], by norm_num [Vec3.sqLen], ?_, ?_⟩
  · unfold Quat.fromDirections
    simp only
    rw [if_pos (by norm_num [Vec3.dot]; exact he)]
  · intro h
    have := congrArg Vec3.x h
    norm_num [Quat.rot, Vec3.add, Vec3.smul, Vec3.cross] at this

/-- **C54.** A unit quaternion with an imaginary part above the tolerance is recovered from its rotation vector and from its
axis and angle. -/
theorem C54_rotation_vector (eps : ℝ) (he : 0 ≤ eps) (q : Quat ℝ) (hq : UnitLength q)
    (hl : eps < √(q.x * q.x + q.y * q.y + q.z * q.z)) (hv : eps < 2 * arccos q.w) :
    Quat.fromRotationVector eps (Quat.rotationVector eps q) = q ∧
    Quat.fromAxisAngle (Quat.axisAngle eps q).1 (Quat.axisAngle eps q).2 = q ∧ Vec3.sqLen (Quat.axisAngle eps q).1 = 1 := by
  set l := √(q.x * q.x + q.y * q.y + q.z * q.z) with hldef
  have hl0 : 0 < l := lt_of_le_of_lt he hl
  have hn : 0 ≤ q.x * q.x + q.y * q.y + q.z * q.z := by
    nlinarith [mul_self_nonneg q.x, mul_self_nonneg q.y, mul_self_nonneg q.z]
  have hl2 : l ^ 2 = q.x * q.x + q.y * q.y + q.z * q.z := sq_sqrt hn
  unfold UnitLength at hq
  have hw2 : q.w ^ 2 = 1 - l ^ 2 := by rw [hl2]; linarith
  have hw2' : q.w ^ 2 < 1 := by rw [hw2]; nlinarith
  have hw : q.w < 1 := by nlinarith
  have hwm : -1 < q.w := by nlinarith
  have hsin : sin (arccos q.w) = l := by
    rw [sin_arccos, hw2, show 1 - (1 - l ^ 2) = l ^ 2 by ring, sqrt_sq hl0.le]
  have hcos : cos (arccos q.w) = q.w := cos_arccos hwm.le hw.le
  have ha : 0 < arccos q.w := arccos_pos.2 hw
  have hcond : l > eps ∧ q.w < 1 := ⟨hl, hw⟩
  have e1 : Quat.rotationVector eps q = ⟨2 * arccos q.w / l * q.x, 2 * arccos q.w / l * q.y, 2 * arccos q.w / l * q.z⟩ := by
    unfold Quat.rotationVector
    simp only
    rw [← hldef, if_pos hcond]
  have e2 : Quat.axisAngle eps q = (⟨1 / l * q.x, 1 / l * q.y, 1 / l * q.z⟩, 2 * arccos q.w) := by
    unfold Quat.axisAngle
    simp only
    rw [← hldef, if_pos hcond]
  have hlen : Vec3.length ⟨2 * arccos q.w / l * q.x, 2 * arccos q.w / l * q.y, 2 * arccos q.w / l * q.z⟩ = 2 * arccos q.w := by
    unfold Vec3.length
    simp only
    rw [show 2 * arccos q.w / l * q.x * (2 * arccos q.w / l * q.x) + 2 * arccos q.w / l * q.y * (2 * arccos q.w / l * q.y) +
      2 * arccos q.w / l * q.z * (2 * arccos q.w / l * q.z) = (2 * arccos q.w / l) ^ 2 * (q.x * q.x + q.y * q.y + q.z * q.z) by ring,
      ← hl2, div_pow, div_mul_cancel₀ _ (by positivity), sqrt_sq (by positivity)]
  have hh : 1 / 2 * (2 * arccos q.w) = arccos q.w := by ring
  refine ⟨?_, ?_, ?_⟩
  · rw [e1]
    unfold Quat.fromRotationVector
    simp only
    rw [hlen, if_pos hv, hh, hsin, hcos]
    ext <;> simp only [Vec3.smul] <;> field_simp
  · rw [e2]
    unfold Quat.fromAxisAngle
    simp only
    rw [hh, hsin, hcos]
    ext <;> simp only <;> field_simp
  · rw [e2]
    simp only [Vec3.sqLen]
    rw [show 1 / l * q.x * (1 / l * q.x) + 1 / l * q.y * (1 / l * q.y) + 1 / l * q.z * (1 / l * q.z) =
      (1 / l) ^ 2 * (q.x * q.x + q.y * q.y + q.z * q.z) by ring, ← hl2]
    field_simp

/-- **C54.** Below the tolerance the rotation vector is zero and stands for no rotation. -/
theorem C54_rotation_vector_small (eps : ℝ) (he : 0 ≤ eps) (q : Quat ℝ) (hl : √(q.x * q.x + q.y * q.y + q.z * q.z) ≤ eps) :
    Quat.fromRotationVector eps (Quat.rotationVector eps q) = Quat.one := by
  have e1 : Quat.rotationVector eps q = Vec3.zero := by
    unfold Quat.rotationVector
    simp only
    rw [if_neg (by rintro ⟨h, _⟩; exact absurd h (not_lt.2 hl))]
  rw [e1]
  unfold Quat.fromRotationVector
  simp only
  rw [if_neg]
  rw [((C63_length Vec3.zero 0).2.2.1).2 rfl]
  exact not_lt.2 he

/-- **C63.** Polar coordinates: the point has the given distance from the origin and the given height. -/
theorem C63_polar (r i a : ℝ) : Vec3.sqLen (Vec3.fromPolar r i a) = r ^ 2 ∧ (Vec3.fromPolar r i a).y = r * cos i := by
  refine ⟨?_, rfl⟩
  have h1 := cos_sq_add_sin_sq i
  have h2 := cos_sq_add_sin_sq a
  simp only [Vec3.fromPolar, Vec3.sqLen]
  linear_combination r ^ 2 * sin i ^ 2 * h2 + r ^ 2 * h1

/-- Degrees and radians convert back and forth. -/
theorem C63_degrees (v : ℝ) : radToDeg (degToRad v) = v ∧ degToRad (radToDeg v) = v ∧ degToRad 180 = π := by
  have := pi_ne_zero
  refine ⟨?_, ?_, ?_⟩ <;> unfold degToRad <;> try unfold radToDeg
  all_goals field_simp

/-- Non-vacuity: the half turn about z has a rotation vector. -/
example : UnitLength (⟨0, 0, 0, 1⟩ : Quat ℝ) ∧ (0 : ℝ) < √((0 : ℝ) * 0 + 0 * 0 + 1 * 1) ∧ (0 : ℝ) < 2 * arccos 0 := by
  refine ⟨by norm_num [UnitLength], by norm_num, ?_⟩
  rw [arccos_zero]
  have := pi_pos
  linarith

end Xo.Geom
