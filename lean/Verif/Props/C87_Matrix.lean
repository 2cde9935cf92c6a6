import Verif.Model.Mat33
import Verif.Props.C54_Quat
import Mathlib.Tactic.LinearCombination
import Mathlib.Tactic.FieldSimp
import Mathlib.Tactic.FinCases
import Mathlib.LinearAlgebra.Matrix.Notation
import Mathlib.Tactic.NormNum
import Mathlib.Tactic.Positivity

/-!
# C87: 3×3 matrices and quaternions
-/

namespace Xo.Geom
open Spec

namespace Spec

/-- The product of a matrix and a vector. -/
def apply (m : Mat33 ℝ) (v : Vec3 ℝ) : Vec3 ℝ :=
  ⟨m.e00 * v.x + m.e01 * v.y + m.e02 * v.z, m.e10 * v.x + m.e11 * v.y + m.e12 * v.z, m.e20 * v.x + m.e21 * v.y + m.e22 * v.z⟩

/-- The columns of the matrix are a right-handed orthonormal frame: unit vectors `x` and `y` at a right angle, and `z = x × y`. -/
def IsRotation (m : Mat33 ℝ) : Prop :=
  m.e00 ^ 2 + m.e10 ^ 2 + m.e20 ^ 2 = 1 ∧ m.e01 ^ 2 + m.e11 ^ 2 + m.e21 ^ 2 = 1 ∧ m.e00 * m.e01 + m.e10 * m.e11 + m.e20 * m.e21 = 0 ∧
  (⟨m.e02, m.e12, m.e22⟩ : Vec3 ℝ) = Vec3.cross ⟨m.e00, m.e10, m.e20⟩ ⟨m.e01, m.e11, m.e21⟩

end Spec

/-- The element in a row and column; outside of the nine numbers the access is undefined. -/
theorem C87_index (m : Mat33 ℝ) (row col : Nat) (hc : col < 3) :
    (m.at? row col).isSome = decide (row < 3) ∧
    (∀ r : Fin 3, ∀ c : Fin 3, m.at? r c = some (!![m.e00, m.e01, m.e02; m.e10, m.e11, m.e12; m.e20, m.e21, m.e22] r c)) := by
  constructor
  · unfold Mat33.at?
    by_cases h : row < 3
    · simp [h]; omega
    · simp [h]; omega
  · intro r c
    fin_cases r <;> fin_cases c <;> rfl

/-- The matrix of three axes takes the coordinates of a vector along these axes to the vector. -/
theorem C87_from_axes (x y z v : Vec3 ℝ) :
    Spec.apply (Mat33.fromAxes x y z) v = Vec3.add (Vec3.add (Vec3.smul v.x x) (Vec3.smul v.y y)) (Vec3.smul v.z z) := by
  simp only [Spec.apply, Mat33.fromAxes, Vec3.add, Vec3.smul, Vec3.mk.injEq]

/-- The matrix of a diagonal scales every coordinate. -/
theorem C87_diagonal (d v : Vec3 ℝ) : Spec.apply (Mat33.fromDiagonal d) v = ⟨d.x * v.x, d.y * v.y, d.z * v.z⟩ := by
  simp [Spec.apply, Mat33.fromDiagonal]

/-- The matrix with the axes of a quaternion turns vectors as the quaternion does. -/
theorem C87_axes (q : Quat ℝ) (v : Vec3 ℝ) :
    Spec.apply (Mat33.fromAxes (Quat.localX q) (Quat.localY q) (Quat.localZ q)) v = Quat.rot q v := by
  simp only [Spec.apply, Mat33.fromAxes, Quat.localX, Quat.localY, Quat.localZ, Quat.rot, Vec3.cross, Vec3.add, Vec3.smul, Vec3.mk.injEq]
  refine ⟨?_, ?_, ?_⟩ <;> ring

/-- … and is the matrix of a rotation. -/
theorem C87_axes_rotation (q : Quat ℝ) (h : UnitLength q) :
    Spec.IsRotation (Mat33.fromAxes (Quat.localX q) (Quat.localY q) (Quat.localZ q)) := by
  simp only [UnitLength] at h
  simp only [Spec.IsRotation, Mat33.fromAxes, Quat.localX, Quat.localY, Quat.localZ, Vec3.cross, Vec3.mk.injEq]
  refine ⟨?_, ?_, ?_, ?_, ?_, ?_⟩
  · linear_combination 4 * (q.y ^ 2 + q.z ^ 2) * h
  · linear_combination 4 * (q.x ^ 2 + q.z ^ 2) * h
  · linear_combination -4 * q.x * q.y * h
  · linear_combination -4 * q.x * q.z * h
  · linear_combination -4 * q.y * q.z * h
  · linear_combination -4 * q.z ^ 2 * h

/-- A matrix of rank one with a positive number `p` on its diagonal is the product of a vector with itself. -/
theorem rank_one (p pa pb pc A B C ab ac bc : ℝ) (h : 0 < p) (hA : p * A = pa ^ 2) (hB : p * B = pb ^ 2) (hC : p * C = pc ^ 2)
    (hab : p * ab = pa * pb) (hac : p * ac = pa * pc) (hbc : p * bc = pb * pc) :
    ∃ u a b c : ℝ, 4 * u ^ 2 = p ∧ 4 * u * a = pa ∧ 4 * u * b = pb ∧ 4 * u * c = pc ∧ 4 * a ^ 2 = A ∧ 4 * b ^ 2 = B ∧ 4 * c ^ 2 = C ∧
      4 * a * b = ab ∧ 4 * a * c = ac ∧ 4 * b * c = bc := by
  have hs : √p ^ 2 = p := Real.sq_sqrt h.le
  have h0 : √p ≠ 0 := (Real.sqrt_pos.2 h).ne'
  have key : ∀ y r z : ℝ, p * z = y * r → 4 * (y / (2 * √p)) * (r / (2 * √p)) = z := by
    intro y r z e
    field_simp
    rw [hs]; linarith
  have k1 : ∀ y : ℝ, 4 * (√p / 2) * (y / (2 * √p)) = y := by
    intro y
    field_simp
    norm_num
  have sq : ∀ y z : ℝ, p * z = y ^ 2 → 4 * (y / (2 * √p)) ^ 2 = z := by
    intro y z e
    rw [pow_two, ← mul_assoc]
    exact key y y z (by rw [e, pow_two])
  refine ⟨√p / 2, pa / (2 * √p), pb / (2 * √p), pc / (2 * √p), ?_, k1 _, k1 _, k1 _, sq _ _ hA, sq _ _ hB, sq _ _ hC, key _ _ _ hab,
    key _ _ _ hac, key _ _ _ hbc⟩
  rw [div_pow, hs]; ring

/-- Every rotation matrix has the axes of a quaternion of length one. -/
theorem rotation_exists (m : Mat33 ℝ) (h : Spec.IsRotation m) :
    ∃ q : Quat ℝ, UnitLength q ∧ m = Mat33.fromAxes (Quat.localX q) (Quat.localY q) (Quat.localZ q) := by
  obtain ⟨m00, m01, m02, m10, m11, m12, m20, m21, m22⟩ := m
  obtain ⟨hx, hy, hxy, hz⟩ := h
  simp only [Vec3.cross, Vec3.mk.injEq] at hx hy hxy hz
  obtain ⟨z0, z1, z2⟩ := hz
  -- the other cofactors
  have x0 : m00 = m11 * m22 - m21 * m12 := by rw [z1, z2]; linear_combination -m00 * hy + m01 * hxy
  have x1 : m10 = m21 * m02 - m01 * m22 := by rw [z0, z2]; linear_combination -m10 * hy + m11 * hxy
  have x2 : m20 = m01 * m12 - m11 * m02 := by rw [z0, z1]; linear_combination -m20 * hy + m21 * hxy
  have y0 : m01 = m12 * m20 - m22 * m10 := by rw [z1, z2]; linear_combination -m01 * hx + m00 * hxy
  have y1 : m11 = m22 * m00 - m02 * m20 := by rw [z0, z2]; linear_combination -m11 * hx + m10 * hxy
  have y2 : m21 = m02 * m10 - m12 * m00 := by rw [z0, z1]; linear_combination -m21 * hx + m20 * hxy
  -- the third column and the rows
  have hz : m02 ^ 2 + m12 ^ 2 + m22 ^ 2 = 1 := by linear_combination m02 * z0 + m12 * z1 + m22 * z2 - m00 * x0 - m10 * x1 - m20 * x2 + hx
  have hxz : m00 * m02 + m10 * m12 + m20 * m22 = 0 := by linear_combination m00 * z0 + m10 * z1 + m20 * z2
  have hyz : m01 * m02 + m11 * m12 + m21 * m22 = 0 := by linear_combination m01 * z0 + m11 * z1 + m21 * z2
  have r0 : m00 ^ 2 + m01 ^ 2 + m02 ^ 2 = 1 := by linear_combination m01 * y0 + m02 * z0 - m10 * x1 - m20 * x2 + hx
  have r1 : m10 ^ 2 + m11 ^ 2 + m12 ^ 2 = 1 := by linear_combination m11 * y1 + m12 * z1 - m00 * x0 - m20 * x2 + hx
  have r2 : m20 ^ 2 + m21 ^ 2 + m22 ^ 2 = 1 := by linear_combination m21 * y2 + m22 * z2 - m00 * x0 - m10 * x1 + hx
  have r01 : m00 * m10 + m01 * m11 + m02 * m12 = 0 := by linear_combination m00 * x1 + m01 * y1 + m02 * z1
  have r02 : m00 * m20 + m01 * m21 + m02 * m22 = 0 := by linear_combination m00 * x2 + m01 * y2 + m02 * z2
  have r12 : m10 * m20 + m11 * m21 + m12 * m22 = 0 := by linear_combination m10 * x2 + m11 * y2 + m12 * z2
  suffices ∃ w x y z : ℝ, 4 * w ^ 2 = 1 + m00 + m11 + m22 ∧ 4 * x ^ 2 = 1 + m00 - m11 - m22 ∧ 4 * y ^ 2 = 1 - m00 + m11 - m22 ∧
      4 * z ^ 2 = 1 - m00 - m11 + m22 ∧ 4 * w * x = m21 - m12 ∧ 4 * w * y = m02 - m20 ∧ 4 * w * z = m10 - m01 ∧
      4 * x * y = m10 + m01 ∧ 4 * x * z = m02 + m20 ∧ 4 * y * z = m12 + m21 by
    obtain ⟨w, x, y, z, ha, hb, hc, hd, wx, wy, wz, xy, xz, yz⟩ := this
    refine ⟨⟨w, x, y, z⟩, ?_, ?_⟩
    · simp only [UnitLength]; linarith
    · simp only [Mat33.fromAxes, Quat.localX, Quat.localY, Quat.localZ, Mat33.mk.injEq]
      refine ⟨?_, ?_, ?_, ?_, ?_, ?_, ?_, ?_, ?_⟩ <;> linarith
  have ab : (1 + m00 + m11 + m22) * (1 + m00 - m11 - m22) = (m21 - m12) ^ 2 := by linear_combination 2 * x0 - r1 - r2 + hx
  have ac : (1 + m00 + m11 + m22) * (1 - m00 + m11 - m22) = (m02 - m20) ^ 2 := by linear_combination 2 * y1 - r0 - r2 + hy
  have ad : (1 + m00 + m11 + m22) * (1 - m00 - m11 + m22) = (m10 - m01) ^ 2 := by linear_combination 2 * z2 - r0 - r1 + hz
  have bc : (1 + m00 - m11 - m22) * (1 - m00 + m11 - m22) = (m10 + m01) ^ 2 := by linear_combination -2 * z2 - r0 - r1 + hz
  have bd : (1 + m00 - m11 - m22) * (1 - m00 - m11 + m22) = (m02 + m20) ^ 2 := by linear_combination -2 * y1 - r0 - r2 + hy
  have cd : (1 - m00 + m11 - m22) * (1 - m00 - m11 + m22) = (m12 + m21) ^ 2 := by linear_combination -2 * x0 - r1 - r2 + hx
  rcases lt_or_ge 0 (1 + m00 + m11 + m22) with pa | pa
  · obtain ⟨w, x, y, z, e1, e2, e3, e4, e5, e6, e7, e8, e9, e10⟩ := rank_one _ _ _ _ _ _ _ (m10 + m01) (m02 + m20) (m12 + m21) pa ab ac ad
      (by linear_combination x1 + y0 + hxy + r01) (by linear_combination x2 + z0 + hxz + r02) (by linear_combination y2 + z1 + hyz + r12)
    exact ⟨w, x, y, z, e1, e5, e6, e7, e2, e3, e4, e8, e9, e10⟩
  rcases lt_or_ge 0 (1 + m00 - m11 - m22) with pb | pb
  · obtain ⟨x, w, y, z, e1, e2, e3, e4, e5, e6, e7, e8, e9, e10⟩ := rank_one (1 + m00 - m11 - m22) (m21 - m12) (m10 + m01) (m02 + m20) _ _ _
      (m02 - m20) (m10 - m01) (m12 + m21) pb ((mul_comm _ _).trans ab) bc bd
      (by linear_combination z0 - x2 + hxz - r02) (by linear_combination x1 - y0 + r01 - hxy) (by linear_combination y2 + z1 - hyz - r12)
    exact ⟨w, x, y, z, e5, e1, e6, e7, by linarith, e8, e9, e3, e4, e10⟩
  rcases lt_or_ge 0 (1 - m00 + m11 - m22) with pc | pc
  · obtain ⟨y, w, x, z, e1, e2, e3, e4, e5, e6, e7, e8, e9, e10⟩ := rank_one (1 - m00 + m11 - m22) (m02 - m20) (m10 + m01) (m12 + m21) _ _ _
      (m21 - m12) (m10 - m01) (m02 + m20) pc ((mul_comm _ _).trans ac) ((mul_comm _ _).trans bc) cd
      (by linear_combination y2 - z1 + r12 - hyz) (by linear_combination x1 - y0 + hxy - r01) (by linear_combination z0 + x2 - hxz - r02)
    exact ⟨w, x, y, z, e5, e6, e1, e7, e8, by linarith, e9, by linarith, e10, e4⟩
  · obtain ⟨z, w, x, y, e1, e2, e3, e4, e5, e6, e7, e8, e9, e10⟩ := rank_one (1 - m00 - m11 + m22) (m10 - m01) (m02 + m20) (m12 + m21) _ _ _
      (m21 - m12) (m02 - m20) (m10 + m01) (by linarith) ((mul_comm _ _).trans ad) ((mul_comm _ _).trans bd) ((mul_comm _ _).trans cd)
      (by linear_combination y2 - z1 + hyz - r12) (by linear_combination z0 - x2 + r02 - hxz) (by linear_combination x1 + y0 - r01 - hxy)
    exact ⟨w, x, y, z, e5, e6, e7, e1, e8, e9, by linarith, e10, by linarith, by linarith⟩

theorem abs_cases (w : ℝ) (h : w ≠ 0) : ∃ s : ℝ, (s = 1 ∨ s = -1) ∧ √(4 * w ^ 2) = 2 * (s * w) ∧ ∀ x : ℝ, 4 * w * x * (0.5 / (2 * (s * w))) = s * x := by
  rcases lt_or_gt_of_ne h with h' | h'
  · refine ⟨-1, Or.inr rfl, ?_, ?_⟩
    · rw [show 4 * w ^ 2 = (2 * (-1 * w)) ^ 2 by ring, Real.sqrt_sq (by linarith)]
    · intro x; field_simp; norm_num; ring
  · refine ⟨1, Or.inl rfl, ?_, ?_⟩
    · rw [show 4 * w ^ 2 = (2 * (1 * w)) ^ 2 by ring, Real.sqrt_sq (by linarith)]
    · intro x; field_simp; norm_num; ring

/-- **C87.** From the matrix with the axes of a quaternion of length one, the quaternion is found again, up to the sign of all its numbers
(both signs stand for the same rotation). -/
theorem C87_round_trip (q : Quat ℝ) (h : UnitLength q) :
    (Mat33.fromAxes (Quat.localX q) (Quat.localY q) (Quat.localZ q)).toQuat = q ∨
    (Mat33.fromAxes (Quat.localX q) (Quat.localY q) (Quat.localZ q)).toQuat = ⟨-q.w, -q.x, -q.y, -q.z⟩ := by
  obtain ⟨w, x, y, z⟩ := q
  simp only [UnitLength] at h
  suffices ∃ s : ℝ, (s = 1 ∨ s = -1) ∧
      (Mat33.fromAxes (Quat.localX ⟨w, x, y, z⟩) (Quat.localY ⟨w, x, y, z⟩) (Quat.localZ ⟨w, x, y, z⟩)).toQuat = ⟨s * w, s * x, s * y, s * z⟩ by
    obtain ⟨s, rfl | rfl, e⟩ := this
    · left; rw [e]; simp
    · right; rw [e]; simp
  generalize hm : Mat33.fromAxes (Quat.localX ⟨w, x, y, z⟩) (Quat.localY ⟨w, x, y, z⟩) (Quat.localZ ⟨w, x, y, z⟩) = m
  obtain ⟨m00, m01, m02, m10, m11, m12, m20, m21, m22⟩ := m
  simp only [Mat33.fromAxes, Quat.localX, Quat.localY, Quat.localZ, Mat33.mk.injEq] at hm
  obtain ⟨h00, h01, h02, h10, h11, h12, h20, h21, h22⟩ := hm
  have e00 : (⟨m00, m01, m02, m10, m11, m12, m20, m21, m22⟩ : Mat33 ℝ).el 0 0 = m00 := rfl
  have e01 : (⟨m00, m01, m02, m10, m11, m12, m20, m21, m22⟩ : Mat33 ℝ).el 0 1 = m01 := rfl
  have e02 : (⟨m00, m01, m02, m10, m11, m12, m20, m21, m22⟩ : Mat33 ℝ).el 0 2 = m02 := rfl
  have e10 : (⟨m00, m01, m02, m10, m11, m12, m20, m21, m22⟩ : Mat33 ℝ).el 1 0 = m10 := rfl
  have e11 : (⟨m00, m01, m02, m10, m11, m12, m20, m21, m22⟩ : Mat33 ℝ).el 1 1 = m11 := rfl
  have e12 : (⟨m00, m01, m02, m10, m11, m12, m20, m21, m22⟩ : Mat33 ℝ).el 1 2 = m12 := rfl
  have e20 : (⟨m00, m01, m02, m10, m11, m12, m20, m21, m22⟩ : Mat33 ℝ).el 2 0 = m20 := rfl
  have e21 : (⟨m00, m01, m02, m10, m11, m12, m20, m21, m22⟩ : Mat33 ℝ).el 2 1 = m21 := rfl
  have e22 : (⟨m00, m01, m02, m10, m11, m12, m20, m21, m22⟩ : Mat33 ℝ).el 2 2 = m22 := rfl
  unfold Mat33.toQuat
  by_cases ht : m00 + m11 + m22 > 0
  · obtain ⟨s, hs, r, f⟩ := abs_cases w (by rintro rfl; nlinarith [sq_nonneg x, sq_nonneg y, sq_nonneg z])
    refine ⟨s, hs, ?_⟩
    simp only [if_pos ht, e02, e20, e10, e01]
    rw [show m00 + m11 + m22 + 1 = 4 * w ^ 2 by linarith, r, show m21 - m12 = 4 * w * x by linarith, show m02 - m20 = 4 * w * y by linarith,
      show m10 - m01 = 4 * w * z by linarith, f, f, f]
    congr 1; norm_num; ring
  · simp only [if_neg ht]
    have hlarge : (⟨m00, m01, m02, m10, m11, m12, m20, m21, m22⟩ : Mat33 ℝ).largest = 0 ∧ m11 ≤ m00 ∧ m22 ≤ m00 ∨
        (⟨m00, m01, m02, m10, m11, m12, m20, m21, m22⟩ : Mat33 ℝ).largest = 1 ∧ m00 ≤ m11 ∧ m22 ≤ m11 ∨
        (⟨m00, m01, m02, m10, m11, m12, m20, m21, m22⟩ : Mat33 ℝ).largest = 2 ∧ m00 ≤ m22 ∧ m11 ≤ m22 := by
      unfold Mat33.largest
      simp only [e00, e11, e22]
      by_cases h1 : m11 > m00
      · simp only [if_pos h1, e11]
        by_cases h2 : m22 > m11
        · rw [if_pos h2]; right; right; exact ⟨rfl, by linarith, by linarith⟩
        · rw [if_neg h2]; right; left; exact ⟨rfl, by linarith, by linarith⟩
      · simp only [if_neg h1, e00]
        by_cases h2 : m22 > m00
        · rw [if_pos h2]; right; right; exact ⟨rfl, by linarith, by linarith⟩
        · rw [if_neg h2]; left; exact ⟨rfl, by linarith, by linarith⟩
    rcases hlarge with ⟨hl, l1, l2⟩ | ⟨hl, l1, l2⟩ | ⟨hl, l1, l2⟩
    · obtain ⟨s, hs, r, f⟩ := abs_cases x (by rintro rfl; nlinarith [sq_nonneg w, sq_nonneg y, sq_nonneg z])
      refine ⟨s, hs, ?_⟩
      simp only [hl, Nat.reduceAdd, Nat.reduceMod, Mat33.put, e00, e01, e02, e10, e11, e12, e20, e21, e22]
      rw [show m00 - m11 - m22 + 1 = 4 * x ^ 2 by linarith, r, show m21 - m12 = 4 * x * w by linarith, show m10 + m01 = 4 * x * y by linarith,
        show m20 + m02 = 4 * x * z by linarith, f, f, f]
      congr 1; norm_num; ring
    · obtain ⟨s, hs, r, f⟩ := abs_cases y (by rintro rfl; nlinarith [sq_nonneg w, sq_nonneg x, sq_nonneg z])
      refine ⟨s, hs, ?_⟩
      simp only [hl, Nat.reduceAdd, Nat.reduceMod, Mat33.put, e00, e01, e02, e10, e11, e12, e20, e21, e22]
      rw [show m11 - m22 - m00 + 1 = 4 * y ^ 2 by linarith, r, show m02 - m20 = 4 * y * w by linarith, show m21 + m12 = 4 * y * z by linarith,
        show m01 + m10 = 4 * y * x by linarith, f, f, f]
      congr 1; norm_num; ring
    · obtain ⟨s, hs, r, f⟩ := abs_cases z (by rintro rfl; nlinarith [sq_nonneg w, sq_nonneg x, sq_nonneg y])
      refine ⟨s, hs, ?_⟩
      simp only [hl, Nat.reduceAdd, Nat.reduceMod, Mat33.put, e00, e01, e02, e10, e11, e12, e20, e21, e22]
      rw [show m22 - m00 - m11 + 1 = 4 * z ^ 2 by linarith, r, show m10 - m01 = 4 * z * w by linarith, show m02 + m20 = 4 * z * x by linarith,
        show m12 + m21 = 4 * z * y by linarith, f, f, f]
      congr 1; norm_num; ring

/-- **C87.** The quaternion of a rotation matrix has length one and turns every vector as the matrix does. -/
theorem C87_rotation (m : Mat33 ℝ) (h : Spec.IsRotation m) :
    UnitLength m.toQuat ∧ ∀ v, Quat.rot m.toQuat v = Spec.apply m v := by
  obtain ⟨q, hq, rfl⟩ := rotation_exists m h
  rcases C87_round_trip q hq with e | e
  · rw [e]; exact ⟨hq, fun v => (C87_axes q v).symm⟩
  · rw [e]
    refine ⟨?_, fun v => ?_⟩
    · simp only [UnitLength] at hq ⊢; linarith
    · rw [C87_axes]
      simp only [Quat.rot, Vec3.cross, Vec3.add, Vec3.smul, Vec3.mk.injEq]
      refine ⟨?_, ?_, ?_⟩ <;> ring

example : Spec.IsRotation ⟨0, 0, 1, 1, 0, 0, 0, 1, 0⟩ := by simp [Spec.IsRotation, Vec3.cross]

/-- A half turn is in the second branch. -/
example : Spec.IsRotation (Mat33.fromDiagonal ⟨-1, -1, 1⟩) ∧ (Mat33.fromDiagonal ⟨-1, -1, 1⟩).toQuat = ⟨0, 0, 0, 1⟩ := by
  have hl : (Mat33.fromDiagonal (⟨-1, -1, 1⟩ : Vec3 ℝ)).largest = 2 := by
    simp [Mat33.largest, Mat33.el, Mat33.at?, Mat33.fromDiagonal]
  refine ⟨by simp [Spec.IsRotation, Mat33.fromDiagonal, Vec3.cross], ?_⟩
  unfold Mat33.toQuat
  rw [if_neg (by simp [Mat33.fromDiagonal])]
  simp only [hl]
  have h4 : √(4 : ℝ) = 2 := by rw [show (4 : ℝ) = 2 ^ 2 by norm_num, Real.sqrt_sq (by norm_num)]
  simp [Mat33.put, Mat33.el, Mat33.at?, Mat33.fromDiagonal]
  norm_num [h4]

/-- Only rotation matrices have a quaternion that turns vectors as they do; for all others, `quat_from_mat33` gives a wrong answer instead of
an error. -/
theorem C87_only_rotations (m : Mat33 ℝ) (h : ¬ Spec.IsRotation m) (hq : UnitLength m.toQuat) : ∃ v, Quat.rot m.toQuat v ≠ Spec.apply m v := by
  by_contra hc
  have hv : ∀ v, Quat.rot m.toQuat v = Spec.apply m v := fun v => by
    by_contra e
    exact hc ⟨v, e⟩
  apply h
  have key : m = Mat33.fromAxes (Quat.localX m.toQuat) (Quat.localY m.toQuat) (Quat.localZ m.toQuat) := by
    have a := (hv ⟨1, 0, 0⟩).symm.trans (C87_axes m.toQuat ⟨1, 0, 0⟩).symm
    have b := (hv ⟨0, 1, 0⟩).symm.trans (C87_axes m.toQuat ⟨0, 1, 0⟩).symm
    have c := (hv ⟨0, 0, 1⟩).symm.trans (C87_axes m.toQuat ⟨0, 0, 1⟩).symm
    generalize Mat33.fromAxes (Quat.localX m.toQuat) (Quat.localY m.toQuat) (Quat.localZ m.toQuat) = n at a b c ⊢
    obtain ⟨_, _, _, _, _, _, _, _, _⟩ := m
    obtain ⟨_, _, _, _, _, _, _, _, _⟩ := n
    simp only [Spec.apply, Vec3.mk.injEq, mul_one, mul_zero, add_zero, zero_add] at a b c
    simp only [Mat33.mk.injEq]
    tauto
  rw [key]
  exact C87_axes_rotation _ hq

example : ¬ Spec.IsRotation (Mat33.fromDiagonal ⟨-1, -1, -1⟩) := by
  simp [Spec.IsRotation, Mat33.fromDiagonal, Vec3.cross]
  norm_num

/-- **C87 is violated by matrices that also scale**: the quaternion of `s` times the identity turns nothing, so the scale is lost, and it
has the wrong length; for `s = 2` it is `√7 / 2`. -/
theorem C87_scaled_violated (s : ℝ) (hs : 0 < s) :
    (Mat33.fromDiagonal ⟨s, s, s⟩).toQuat = ⟨√(3 * s + 1) / 2, 0, 0, 0⟩ := by
  unfold Mat33.toQuat
  rw [if_pos (by simp [Mat33.fromDiagonal]; linarith)]
  simp only [Mat33.el, Mat33.at?, Mat33.fromDiagonal]
  simp
  rw [show s + s + s + 1 = 3 * s + 1 by ring]
  ring

end Xo.Geom
