import Verif.Model.GeomReal
import Verif.Props.C54_Quat
import Mathlib.Tactic.NormNum

/-!
C73: Euler angles. Both directions of the conversion, for all six orders.
-/
namespace Xo.Geom
open Spec Real
open Quat (EulerOrder)

namespace Spec

/-- The angle that is applied second, whose sine is read off directly. -/
def middle (o : EulerOrder) (e : Vec3 ℝ) : ℝ :=
  match o with
  | .xyz | .zyx => e.y
  | .xzy | .yzx => e.z
  | .yxz | .zxy => e.x

/-- The two other angles. -/
def outer (o : EulerOrder) (e : Vec3 ℝ) : ℝ × ℝ :=
  match o with
  | .xyz | .zyx => (e.x, e.z)
  | .xzy | .yzx => (e.x, e.y)
  | .yxz | .zxy => (e.y, e.z)

/-- The ranges in which Euler angles are unique. -/
def Principal (o : EulerOrder) (e : Vec3 ℝ) : Prop :=
  -(π / 2) < middle o e ∧ middle o e < π / 2 ∧ (-π < (outer o e).1 ∧ (outer o e).1 ≤ π) ∧
    (-π < (outer o e).2 ∧ (outer o e).2 ≤ π)

/-- The rotation about one axis by an angle, as the usual matrix. -/
noncomputable def aboutX (a : ℝ) (v : Vec3 ℝ) : Vec3 ℝ := ⟨v.x, cos a * v.y - sin a * v.z, sin a * v.y + cos a * v.z⟩
noncomputable def aboutY (a : ℝ) (v : Vec3 ℝ) : Vec3 ℝ := ⟨cos a * v.x + sin a * v.z, v.y, cos a * v.z - sin a * v.x⟩
noncomputable def aboutZ (a : ℝ) (v : Vec3 ℝ) : Vec3 ℝ := ⟨cos a * v.x - sin a * v.y, sin a * v.x + cos a * v.y, v.z⟩

/-- Three rotations, the last letter of the order first. -/
noncomputable def eulerRotate (o : EulerOrder) (e v : Vec3 ℝ) : Vec3 ℝ :=
  match o with
  | .xyz => aboutX e.x (aboutY e.y (aboutZ e.z v))
  | .xzy => aboutX e.x (aboutZ e.z (aboutY e.y v))
  | .yxz => aboutY e.y (aboutX e.x (aboutZ e.z v))
  | .yzx => aboutY e.y (aboutZ e.z (aboutX e.x v))
  | .zxy => aboutZ e.z (aboutX e.x (aboutY e.y v))
  | .zyx => aboutZ e.z (aboutY e.y (aboutX e.x v))

/-- The sine of the middle angle as an entry of the rotation matrix of a unit quaternion. -/
noncomputable def lockEntry (o : EulerOrder) (q : Quat ℝ) : ℝ :=
  match o with
  | .xyz => (rotate q Vec3.unitZ).x
  | .xzy => -(rotate q Vec3.unitY).x
  | .yxz => -(rotate q Vec3.unitZ).y
  | .yzx => (rotate q Vec3.unitX).y
  | .zxy => (rotate q Vec3.unitY).z
  | .zyx => -(rotate q Vec3.unitX).z

end Spec

theorem sin_two_half (a : ℝ) : sin a = 2 * sin (1 / 2 * a) * cos (1 / 2 * a) := by
  conv_lhs => rw [show a = 2 * (1 / 2 * a) by ring]
  exact sin_two_mul _

theorem cos_two_half (a : ℝ) : cos a = cos (1 / 2 * a) ^ 2 - sin (1 / 2 * a) ^ 2 := by
  conv_lhs => rw [show a = 2 * (1 / 2 * a) by ring]
  exact cos_two_mul' _

theorem unit_fromX (a : ℝ) : UnitLength (Quat.fromX a) := by
  unfold UnitLength Quat.fromX; simp
theorem unit_fromY (a : ℝ) : UnitLength (Quat.fromY a) := by
  unfold UnitLength Quat.fromY; simp
theorem unit_fromZ (a : ℝ) : UnitLength (Quat.fromZ a) := by
  unfold UnitLength Quat.fromZ; simp

theorem rot_fromX (a : ℝ) (v : Vec3 ℝ) : Quat.rot (Quat.fromX a) v = aboutX a v := by
  have h := cos_sq_add_sin_sq (1 / 2 * a)
  rw [C54_rotation _ _ (unit_fromX a)]
  unfold rotate aboutX Quat.fromX
  rw [sin_two_half a, cos_two_half a]
  ext
  · simp only; linear_combination v.x * h
  · simp only; ring
  · simp only; ring
theorem rot_fromY (a : ℝ) (v : Vec3 ℝ) : Quat.rot (Quat.fromY a) v = aboutY a v := by
  have h := cos_sq_add_sin_sq (1 / 2 * a)
  rw [C54_rotation _ _ (unit_fromY a)]
  unfold rotate aboutY Quat.fromY
  rw [sin_two_half a, cos_two_half a]
  ext
  · simp only; ring
  · simp only; linear_combination v.y * h
  · simp only; ring
theorem rot_fromZ (a : ℝ) (v : Vec3 ℝ) : Quat.rot (Quat.fromZ a) v = aboutZ a v := by
  have h := cos_sq_add_sin_sq (1 / 2 * a)
  rw [C54_rotation _ _ (unit_fromZ a)]
  unfold rotate aboutZ Quat.fromZ
  rw [sin_two_half a, cos_two_half a]
  ext
  · simp only; ring
  · simp only; ring
  · simp only; linear_combination v.z * h

/-- **C73.** The quaternion of Euler angles has length one and rotates about the three axes in the given order. -/
theorem C73_from_euler (o : EulerOrder) (e v : Vec3 ℝ) :
    UnitLength (Quat.fromEuler o e) ∧ Quat.rot (Quat.fromEuler o e) v = eulerRotate o e v := by
  have ux := unit_fromX e.x
  have uy := unit_fromY e.y
  have uz := unit_fromZ e.z
  cases o
  all_goals
    simp only [Quat.fromEuler, eulerRotate]
    refine ⟨unit_mul _ _ (unit_mul _ _ (by assumption) (by assumption)) (by assumption), ?_⟩
    rw [C54_product_partial _ _ _ (unit_mul _ _ (by assumption) (by assumption)) (by assumption),
      C54_product_partial _ _ _ (by assumption) (by assumption), rot_fromX, rot_fromY, rot_fromZ]

theorem atan2_polar (r θ : ℝ) (hr : 0 < r) (h1 : -π < θ) (h2 : θ ≤ π) : atan2 (r * sin θ) (r * cos θ) = θ := by
  unfold atan2
  have : (⟨r * cos θ, r * sin θ⟩ : ℂ) = (r : ℂ) * (Complex.cos θ + Complex.sin θ * Complex.I) := by
    apply Complex.ext <;> simp [Complex.cos_ofReal_re, Complex.sin_ofReal_re]
  rw [this]
  exact Complex.arg_mul_cos_add_sin_mul_I hr ⟨h1, h2⟩

/-- The six conversions read entries of the rotation matrix. -/
theorem toEuler_entries (q : Quat ℝ) :
    let cx := rotate q Vec3.unitX
    let cy := rotate q Vec3.unitY
    let cz := rotate q Vec3.unitZ
    Quat.toEuler .xyz q = ⟨atan2 (-cz.y) cz.z, arcsin cz.x, atan2 (-cy.x) cx.x⟩ ∧
    Quat.toEuler .xzy q = ⟨atan2 cy.z cy.y, atan2 cz.x cx.x, arcsin (-cy.x)⟩ ∧
    Quat.toEuler .yxz q = ⟨arcsin (-cz.y), atan2 cz.x cz.z, atan2 cx.y cy.y⟩ ∧
    Quat.toEuler .yzx q = ⟨atan2 (-cz.y) cy.y, atan2 (-cx.z) cx.x, arcsin cx.y⟩ ∧
    Quat.toEuler .zxy q = ⟨arcsin cy.z, atan2 (-cx.z) cz.z, atan2 (-cy.x) cy.y⟩ ∧
    Quat.toEuler .zyx q = ⟨atan2 cy.z cz.z, arcsin (-cx.z), atan2 cx.y cx.x⟩ := by
  simp only [Quat.toEuler, rotate, Vec3.unitX, Vec3.unitY, Vec3.unitZ]
  refine ⟨?_, ?_, ?_, ?_, ?_, ?_⟩ <;> ext <;> simp only <;> congr 1 <;> ring

/-- **C73.** Converting principal Euler angles to a quaternion and back gives the same angles, for all six orders. -/
theorem C73_angles (o : EulerOrder) (e : Vec3 ℝ) (h : Principal o e) : Quat.toEuler o (Quat.fromEuler o e) = e := by
  have hr : ∀ v, rotate (Quat.fromEuler o e) v = eulerRotate o e v := fun v => by
    rw [← C54_rotation _ _ (C73_from_euler o e v).1]; exact (C73_from_euler o e v).2
  obtain ⟨h1, h2, ⟨h3, h4⟩, ⟨h5, h6⟩⟩ := h
  have hc : 0 < cos (middle o e) := cos_pos_of_mem_Ioo ⟨h1, h2⟩
  have hs : arcsin (sin (middle o e)) = middle o e := arcsin_sin h1.le h2.le
  have he := toEuler_entries (Quat.fromEuler o e)
  simp only [hr] at he
  have p1 := atan2_polar _ _ hc h3 h4
  have p2 := atan2_polar _ _ hc h5 h6
  obtain ⟨e1, e2, e3, e4, e5, e6⟩ := he
  cases o
  · rw [e1]
    simp only [eulerRotate, aboutX, aboutY, aboutZ, Vec3.unitX, Vec3.unitY, Vec3.unitZ, middle, outer] at *
    ext
    · simp only; convert p1 using 2 <;> ring
    · simp only; convert hs using 2 <;> ring
    · simp only; convert p2 using 2 <;> ring
  · rw [e2]
    simp only [eulerRotate, aboutX, aboutY, aboutZ, Vec3.unitX, Vec3.unitY, Vec3.unitZ, middle, outer] at *
    ext
    · simp only; convert p1 using 2 <;> ring
    · simp only; convert p2 using 2 <;> ring
    · simp only; convert hs using 2 <;> ring
  · rw [e3]
    simp only [eulerRotate, aboutX, aboutY, aboutZ, Vec3.unitX, Vec3.unitY, Vec3.unitZ, middle, outer] at *
    ext
    · simp only; convert hs using 2 <;> ring
    · simp only; convert p1 using 2 <;> ring
    · simp only; convert p2 using 2 <;> ring
  · rw [e4]
    simp only [eulerRotate, aboutX, aboutY, aboutZ, Vec3.unitX, Vec3.unitY, Vec3.unitZ, middle, outer] at *
    ext
    · simp only; convert p1 using 2 <;> ring
    · simp only; convert p2 using 2 <;> ring
    · simp only; convert hs using 2 <;> ring
  · rw [e5]
    simp only [eulerRotate, aboutX, aboutY, aboutZ, Vec3.unitX, Vec3.unitY, Vec3.unitZ, middle, outer] at *
    ext
    · simp only; convert hs using 2 <;> ring
    · simp only; convert p1 using 2 <;> ring
    · simp only; convert p2 using 2 <;> ring
  · rw [e6]
    simp only [eulerRotate, aboutX, aboutY, aboutZ, Vec3.unitX, Vec3.unitY, Vec3.unitZ, middle, outer] at *
    ext
    · simp only; convert p1 using 2 <;> ring
    · simp only; convert hs using 2 <;> ring
    · simp only; convert p2 using 2 <;> ring

/-- Two unit quaternions that agree on two independent vectors rotate alike. -/
theorem rot_eq_of_agree (p q : Quat ℝ) (hp : UnitLength p) (hq : UnitLength q) (a b : Vec3 ℝ) (ha : Quat.rot p a = Quat.rot q a)
    (hb : Quat.rot p b = Quat.rot q b) (hn : Vec3.sqLen (Vec3.cross a b) ≠ 0) (v : Vec3 ℝ) : Quat.rot p v = Quat.rot q v := by
  have hc : Quat.rot p (Vec3.cross a b) = Quat.rot q (Vec3.cross a b) := by
    rw [← C54_orientation p a b hp, ← C54_orientation q a b hq, ha, hb]
  generalize hN : Vec3.cross a b = n at *
  have key : Vec3.smul (Vec3.sqLen n) v = Vec3.add (Vec3.add (Vec3.smul (Vec3.dot v (Vec3.cross b n)) a)
      (Vec3.smul (Vec3.dot v (Vec3.cross n a)) b)) (Vec3.smul (Vec3.dot v n) n) := by
    subst hN
    ext <;> simp only [Vec3.smul, Vec3.add, Vec3.dot, Vec3.cross, Vec3.sqLen] <;> ring
  have e : Vec3.smul (Vec3.sqLen n) (Quat.rot p v) = Vec3.smul (Vec3.sqLen n) (Quat.rot q v) := by
    rw [← (C54_linear p v v _).2, ← (C54_linear q v v _).2, key, (C54_linear p _ _ 0).1, (C54_linear p _ _ 0).1,
      (C54_linear q _ _ 0).1, (C54_linear q _ _ 0).1, (C54_linear p a a _).2, (C54_linear p b b _).2, (C54_linear p n n _).2,
      (C54_linear q a a _).2, (C54_linear q b b _).2, (C54_linear q n n _).2, ha, hb, hc]
  simp only [Vec3.smul, Vec3.mk.injEq] at e
  ext
  · exact mul_right_cancel₀ hn e.1
  · exact mul_right_cancel₀ hn e.2.1
  · exact mul_right_cancel₀ hn e.2.2

/-- A unit quaternion takes the rows of its matrix to the unit vectors. -/
theorem rot_rows (q : Quat ℝ) (h : UnitLength q) :
    Quat.rot q ⟨(rotate q Vec3.unitX).x, (rotate q Vec3.unitY).x, (rotate q Vec3.unitZ).x⟩ = Vec3.unitX ∧
    Quat.rot q ⟨(rotate q Vec3.unitX).y, (rotate q Vec3.unitY).y, (rotate q Vec3.unitZ).y⟩ = Vec3.unitY ∧
    Quat.rot q ⟨(rotate q Vec3.unitX).z, (rotate q Vec3.unitY).z, (rotate q Vec3.unitZ).z⟩ = Vec3.unitZ := by
  have h1 : ∀ v, Quat.rot q (rotate (Quat.conj q) v) = v := fun v => by
    rw [← C54_rotation _ _ (unit_conj q h)]; exact (C54_conjugate q v h).2.2.2.1
  refine ⟨?_, ?_, ?_⟩
  · conv_rhs => rw [← h1 Vec3.unitX]
    congr 1
    ext <;> simp only [rotate, Quat.conj, Vec3.unitX, Vec3.unitY, Vec3.unitZ] <;> ring
  · conv_rhs => rw [← h1 Vec3.unitY]
    congr 1
    ext <;> simp only [rotate, Quat.conj, Vec3.unitX, Vec3.unitY, Vec3.unitZ] <;> ring
  · conv_rhs => rw [← h1 Vec3.unitZ]
    congr 1
    ext <;> simp only [rotate, Quat.conj, Vec3.unitX, Vec3.unitY, Vec3.unitZ] <;> ring

/-- The angle of a point at a known distance. -/
theorem atan2_spec (y x r : ℝ) (hr : 0 ≤ r) (h : x ^ 2 + y ^ 2 = r ^ 2) : r * sin (atan2 y x) = y ∧ r * cos (atan2 y x) = x := by
  have hn : ‖(⟨x, y⟩ : ℂ)‖ = r := by
    have : ‖(⟨x, y⟩ : ℂ)‖ ^ 2 = r ^ 2 := by rw [← h, Complex.sq_norm, Complex.normSq_mk]; ring
    exact (pow_left_inj₀ (norm_nonneg _) hr (by norm_num)).1 this
  constructor
  · have := Complex.norm_mul_sin_arg (⟨x, y⟩ : ℂ); rw [hn] at this; exact this
  · have := Complex.norm_mul_cos_arg (⟨x, y⟩ : ℂ); rw [hn] at this; exact this

/-- Rows and columns of the matrix of a unit quaternion have length one. -/
theorem matrix_unit (q : Quat ℝ) (h : UnitLength q) :
    let cx := rotate q Vec3.unitX
    let cy := rotate q Vec3.unitY
    let cz := rotate q Vec3.unitZ
    (cx.x ^ 2 + cx.y ^ 2 + cx.z ^ 2 = 1 ∧ cy.x ^ 2 + cy.y ^ 2 + cy.z ^ 2 = 1 ∧ cz.x ^ 2 + cz.y ^ 2 + cz.z ^ 2 = 1) ∧
    (cx.x ^ 2 + cy.x ^ 2 + cz.x ^ 2 = 1 ∧ cx.y ^ 2 + cy.y ^ 2 + cz.y ^ 2 = 1 ∧ cx.z ^ 2 + cy.z ^ 2 + cz.z ^ 2 = 1) := by
  unfold UnitLength at h
  have h2 : (q.w ^ 2 + q.x ^ 2 + q.y ^ 2 + q.z ^ 2) ^ 2 = 1 := by rw [h]; ring
  simp only [rotate, Vec3.unitX, Vec3.unitY, Vec3.unitZ]
  refine ⟨⟨?_, ?_, ?_⟩, ?_, ?_, ?_⟩ <;> linear_combination h2

theorem euler_back_xyz (q : Quat ℝ) (hq : UnitLength q) (hl : |lockEntry .xyz q| < 1) (v : Vec3 ℝ) :
    Quat.rot (Quat.fromEuler .xyz (Quat.toEuler .xyz q)) v = Quat.rot q v := by
  set e := Quat.toEuler .xyz q with he
  set E := Quat.fromEuler .xyz e with hE
  have hu : UnitLength E := (C73_from_euler .xyz e v).1
  have hr : ∀ v, rotate E v = eulerRotate .xyz e v := fun v => by
    rw [← C54_rotation _ _ hu]; exact (C73_from_euler .xyz e v).2
  have hrot : ∀ (p : Quat ℝ), UnitLength p → ∀ v, Quat.rot p v = rotate p v := fun p hp v => C54_rotation p v hp
  obtain ⟨⟨mx, my, mz⟩, nx, ny, nz⟩ := matrix_unit q hq
  obtain ⟨qx, qy, qz⟩ := rot_rows q hq
  obtain ⟨sx, sy, sz⟩ := rot_rows E hu
  have ent := toEuler_entries q
  obtain ⟨e1, e2, e3, e4, e5, e6⟩ := ent
  have hl3 : lockEntry .xyz q ^ 2 < 1 := (sq_lt_one_iff_abs_lt_one _).2 hl
  obtain ⟨hl1, hl2⟩ := abs_lt.1 hl
  have hcs : ∀ s : ℝ, -1 < s → s < 1 → sin (arcsin s) = s ∧ 0 ≤ cos (arcsin s) ∧ cos (arcsin s) ^ 2 = 1 - s ^ 2 := by
    intro s h1 h2
    refine ⟨sin_arcsin h1.le h2.le, cos_arcsin_nonneg s, ?_⟩
    have := cos_sq_add_sin_sq (arcsin s)
    rw [sin_arcsin h1.le h2.le] at this
    linarith
  rw [e1] at he
  simp only [lockEntry] at hl1 hl2 hl3
  obtain ⟨t1, t2, t3⟩ := hcs _ hl1 hl2
  obtain ⟨a1, a2⟩ := atan2_spec (-(rotate q Vec3.unitZ).y) ((rotate q Vec3.unitZ).z) _ t2 (by rw [t3]; linarith)
  obtain ⟨b1, b2⟩ := atan2_spec (-(rotate q Vec3.unitY).x) ((rotate q Vec3.unitX).x) _ t2 (by rw [t3]; linarith)
  have g0 : e.y = arcsin ((rotate q Vec3.unitZ).x) := by rw [he]
  have g1 : e.x = atan2 (-(rotate q Vec3.unitZ).y) ((rotate q Vec3.unitZ).z) := by rw [he]
  have g2 : e.z = atan2 (-(rotate q Vec3.unitY).x) ((rotate q Vec3.unitX).x) := by rw [he]
  rw [← g0, ← g1] at a1 a2
  rw [← g0, ← g2] at b1 b2
  rw [← g0] at t1
  have rxz : (rotate E Vec3.unitZ).x = (rotate q Vec3.unitZ).x := by
    rw [hr]
    simp only [eulerRotate, aboutX, aboutY, aboutZ, Vec3.unitZ, mul_zero, mul_one, add_zero, zero_add, sub_zero, zero_sub] at *
    linarith
  have ryz : (rotate E Vec3.unitZ).y = (rotate q Vec3.unitZ).y := by
    rw [hr]
    simp only [eulerRotate, aboutX, aboutY, aboutZ, Vec3.unitZ, mul_zero, mul_one, add_zero, zero_add, sub_zero, zero_sub] at *
    linarith
  have rzz : (rotate E Vec3.unitZ).z = (rotate q Vec3.unitZ).z := by
    rw [hr]
    simp only [eulerRotate, aboutX, aboutY, aboutZ, Vec3.unitZ, mul_zero, mul_one, add_zero, zero_add, sub_zero, zero_sub] at *
    linarith
  have rxx : (rotate E Vec3.unitX).x = (rotate q Vec3.unitX).x := by
    rw [hr]
    simp only [eulerRotate, aboutX, aboutY, aboutZ, Vec3.unitX, mul_zero, mul_one, add_zero, zero_add, sub_zero, zero_sub] at *
    linarith
  have rxy : (rotate E Vec3.unitY).x = (rotate q Vec3.unitY).x := by
    rw [hr]
    simp only [eulerRotate, aboutX, aboutY, aboutZ, Vec3.unitY, mul_zero, mul_one, add_zero, zero_add, sub_zero, zero_sub] at *
    linarith
  have hcol : Quat.rot E Vec3.unitZ = Quat.rot q Vec3.unitZ := by
    rw [hrot E hu, hrot q hq]; exact Vec3.ext rxz ryz rzz
  rw [rxx, rxy, rxz] at sx
  refine rot_eq_of_agree E q hu hq _ _ hcol (sx.trans qx.symm) ?_ v
  simp only [Vec3.cross, Vec3.sqLen, Vec3.unitX, Vec3.unitY, Vec3.unitZ] at *
  nlinarith

theorem euler_back_xzy (q : Quat ℝ) (hq : UnitLength q) (hl : |lockEntry .xzy q| < 1) (v : Vec3 ℝ) :
    Quat.rot (Quat.fromEuler .xzy (Quat.toEuler .xzy q)) v = Quat.rot q v := by
  set e := Quat.toEuler .xzy q with he
  set E := Quat.fromEuler .xzy e with hE
  have hu : UnitLength E := (C73_from_euler .xzy e v).1
  have hr : ∀ v, rotate E v = eulerRotate .xzy e v := fun v => by
    rw [← C54_rotation _ _ hu]; exact (C73_from_euler .xzy e v).2
  have hrot : ∀ (p : Quat ℝ), UnitLength p → ∀ v, Quat.rot p v = rotate p v := fun p hp v => C54_rotation p v hp
  obtain ⟨⟨mx, my, mz⟩, nx, ny, nz⟩ := matrix_unit q hq
  obtain ⟨qx, qy, qz⟩ := rot_rows q hq
  obtain ⟨sx, sy, sz⟩ := rot_rows E hu
  have ent := toEuler_entries q
  obtain ⟨e1, e2, e3, e4, e5, e6⟩ := ent
  have hl3 : lockEntry .xzy q ^ 2 < 1 := (sq_lt_one_iff_abs_lt_one _).2 hl
  obtain ⟨hl1, hl2⟩ := abs_lt.1 hl
  have hcs : ∀ s : ℝ, -1 < s → s < 1 → sin (arcsin s) = s ∧ 0 ≤ cos (arcsin s) ∧ cos (arcsin s) ^ 2 = 1 - s ^ 2 := by
    intro s h1 h2
    refine ⟨sin_arcsin h1.le h2.le, cos_arcsin_nonneg s, ?_⟩
    have := cos_sq_add_sin_sq (arcsin s)
    rw [sin_arcsin h1.le h2.le] at this
    linarith
  rw [e2] at he
  simp only [lockEntry] at hl1 hl2 hl3
  obtain ⟨t1, t2, t3⟩ := hcs _ hl1 hl2
  obtain ⟨a1, a2⟩ := atan2_spec ((rotate q Vec3.unitY).z) ((rotate q Vec3.unitY).y) _ t2 (by rw [t3]; linarith)
  obtain ⟨b1, b2⟩ := atan2_spec ((rotate q Vec3.unitZ).x) ((rotate q Vec3.unitX).x) _ t2 (by rw [t3]; linarith)
  have g0 : e.z = arcsin (-(rotate q Vec3.unitY).x) := by rw [he]
  have g1 : e.x = atan2 ((rotate q Vec3.unitY).z) ((rotate q Vec3.unitY).y) := by rw [he]
  have g2 : e.y = atan2 ((rotate q Vec3.unitZ).x) ((rotate q Vec3.unitX).x) := by rw [he]
  rw [← g0, ← g1] at a1 a2
  rw [← g0, ← g2] at b1 b2
  rw [← g0] at t1
  have rxy : (rotate E Vec3.unitY).x = (rotate q Vec3.unitY).x := by
    rw [hr]
    simp only [eulerRotate, aboutX, aboutY, aboutZ, Vec3.unitY, mul_zero, mul_one, add_zero, zero_add, sub_zero, zero_sub] at *
    linarith
  have ryy : (rotate E Vec3.unitY).y = (rotate q Vec3.unitY).y := by
    rw [hr]
    simp only [eulerRotate, aboutX, aboutY, aboutZ, Vec3.unitY, mul_zero, mul_one, add_zero, zero_add, sub_zero, zero_sub] at *
    linarith
  have rzy : (rotate E Vec3.unitY).z = (rotate q Vec3.unitY).z := by
    rw [hr]
    simp only [eulerRotate, aboutX, aboutY, aboutZ, Vec3.unitY, mul_zero, mul_one, add_zero, zero_add, sub_zero, zero_sub] at *
    linarith
  have rxx : (rotate E Vec3.unitX).x = (rotate q Vec3.unitX).x := by
    rw [hr]
    simp only [eulerRotate, aboutX, aboutY, aboutZ, Vec3.unitX, mul_zero, mul_one, add_zero, zero_add, sub_zero, zero_sub] at *
    linarith
  have rxz : (rotate E Vec3.unitZ).x = (rotate q Vec3.unitZ).x := by
    rw [hr]
    simp only [eulerRotate, aboutX, aboutY, aboutZ, Vec3.unitZ, mul_zero, mul_one, add_zero, zero_add, sub_zero, zero_sub] at *
    linarith
  have hcol : Quat.rot E Vec3.unitY = Quat.rot q Vec3.unitY := by
    rw [hrot E hu, hrot q hq]; exact Vec3.ext rxy ryy rzy
  rw [rxx, rxy, rxz] at sx
  refine rot_eq_of_agree E q hu hq _ _ hcol (sx.trans qx.symm) ?_ v
  simp only [Vec3.cross, Vec3.sqLen, Vec3.unitX, Vec3.unitY, Vec3.unitZ] at *
  nlinarith

theorem euler_back_yxz (q : Quat ℝ) (hq : UnitLength q) (hl : |lockEntry .yxz q| < 1) (v : Vec3 ℝ) :
    Quat.rot (Quat.fromEuler .yxz (Quat.toEuler .yxz q)) v = Quat.rot q v := by
  set e := Quat.toEuler .yxz q with he
  set E := Quat.fromEuler .yxz e with hE
  have hu : UnitLength E := (C73_from_euler .yxz e v).1
  have hr : ∀ v, rotate E v = eulerRotate .yxz e v := fun v => by
    rw [← C54_rotation _ _ hu]; exact (C73_from_euler .yxz e v).2
  have hrot : ∀ (p : Quat ℝ), UnitLength p → ∀ v, Quat.rot p v = rotate p v := fun p hp v => C54_rotation p v hp
  obtain ⟨⟨mx, my, mz⟩, nx, ny, nz⟩ := matrix_unit q hq
  obtain ⟨qx, qy, qz⟩ := rot_rows q hq
  obtain ⟨sx, sy, sz⟩ := rot_rows E hu
  have ent := toEuler_entries q
  obtain ⟨e1, e2, e3, e4, e5, e6⟩ := ent
  have hl3 : lockEntry .yxz q ^ 2 < 1 := (sq_lt_one_iff_abs_lt_one _).2 hl
  obtain ⟨hl1, hl2⟩ := abs_lt.1 hl
  have hcs : ∀ s : ℝ, -1 < s → s < 1 → sin (arcsin s) = s ∧ 0 ≤ cos (arcsin s) ∧ cos (arcsin s) ^ 2 = 1 - s ^ 2 := by
    intro s h1 h2
    refine ⟨sin_arcsin h1.le h2.le, cos_arcsin_nonneg s, ?_⟩
    have := cos_sq_add_sin_sq (arcsin s)
    rw [sin_arcsin h1.le h2.le] at this
    linarith
  rw [e3] at he
  simp only [lockEntry] at hl1 hl2 hl3
  obtain ⟨t1, t2, t3⟩ := hcs _ hl1 hl2
  obtain ⟨a1, a2⟩ := atan2_spec ((rotate q Vec3.unitZ).x) ((rotate q Vec3.unitZ).z) _ t2 (by rw [t3]; linarith)
  obtain ⟨b1, b2⟩ := atan2_spec ((rotate q Vec3.unitX).y) ((rotate q Vec3.unitY).y) _ t2 (by rw [t3]; linarith)
  have g0 : e.x = arcsin (-(rotate q Vec3.unitZ).y) := by rw [he]
  have g1 : e.y = atan2 ((rotate q Vec3.unitZ).x) ((rotate q Vec3.unitZ).z) := by rw [he]
  have g2 : e.z = atan2 ((rotate q Vec3.unitX).y) ((rotate q Vec3.unitY).y) := by rw [he]
  rw [← g0, ← g1] at a1 a2
  rw [← g0, ← g2] at b1 b2
  rw [← g0] at t1
  have rxz : (rotate E Vec3.unitZ).x = (rotate q Vec3.unitZ).x := by
    rw [hr]
    simp only [eulerRotate, aboutX, aboutY, aboutZ, Vec3.unitZ, mul_zero, mul_one, add_zero, zero_add, sub_zero, zero_sub] at *
    linarith
  have ryz : (rotate E Vec3.unitZ).y = (rotate q Vec3.unitZ).y := by
    rw [hr]
    simp only [eulerRotate, aboutX, aboutY, aboutZ, Vec3.unitZ, mul_zero, mul_one, add_zero, zero_add, sub_zero, zero_sub] at *
    linarith
  have rzz : (rotate E Vec3.unitZ).z = (rotate q Vec3.unitZ).z := by
    rw [hr]
    simp only [eulerRotate, aboutX, aboutY, aboutZ, Vec3.unitZ, mul_zero, mul_one, add_zero, zero_add, sub_zero, zero_sub] at *
    linarith
  have ryx : (rotate E Vec3.unitX).y = (rotate q Vec3.unitX).y := by
    rw [hr]
    simp only [eulerRotate, aboutX, aboutY, aboutZ, Vec3.unitX, mul_zero, mul_one, add_zero, zero_add, sub_zero, zero_sub] at *
    linarith
  have ryy : (rotate E Vec3.unitY).y = (rotate q Vec3.unitY).y := by
    rw [hr]
    simp only [eulerRotate, aboutX, aboutY, aboutZ, Vec3.unitY, mul_zero, mul_one, add_zero, zero_add, sub_zero, zero_sub] at *
    linarith
  have hcol : Quat.rot E Vec3.unitZ = Quat.rot q Vec3.unitZ := by
    rw [hrot E hu, hrot q hq]; exact Vec3.ext rxz ryz rzz
  rw [ryx, ryy, ryz] at sy
  refine rot_eq_of_agree E q hu hq _ _ hcol (sy.trans qy.symm) ?_ v
  simp only [Vec3.cross, Vec3.sqLen, Vec3.unitX, Vec3.unitY, Vec3.unitZ] at *
  nlinarith

theorem euler_back_yzx (q : Quat ℝ) (hq : UnitLength q) (hl : |lockEntry .yzx q| < 1) (v : Vec3 ℝ) :
    Quat.rot (Quat.fromEuler .yzx (Quat.toEuler .yzx q)) v = Quat.rot q v := by
  set e := Quat.toEuler .yzx q with he
  set E := Quat.fromEuler .yzx e with hE
  have hu : UnitLength E := (C73_from_euler .yzx e v).1
  have hr : ∀ v, rotate E v = eulerRotate .yzx e v := fun v => by
    rw [← C54_rotation _ _ hu]; exact (C73_from_euler .yzx e v).2
  have hrot : ∀ (p : Quat ℝ), UnitLength p → ∀ v, Quat.rot p v = rotate p v := fun p hp v => C54_rotation p v hp
  obtain ⟨⟨mx, my, mz⟩, nx, ny, nz⟩ := matrix_unit q hq
  obtain ⟨qx, qy, qz⟩ := rot_rows q hq
  obtain ⟨sx, sy, sz⟩ := rot_rows E hu
  have ent := toEuler_entries q
  obtain ⟨e1, e2, e3, e4, e5, e6⟩ := ent
  have hl3 : lockEntry .yzx q ^ 2 < 1 := (sq_lt_one_iff_abs_lt_one _).2 hl
  obtain ⟨hl1, hl2⟩ := abs_lt.1 hl
  have hcs : ∀ s : ℝ, -1 < s → s < 1 → sin (arcsin s) = s ∧ 0 ≤ cos (arcsin s) ∧ cos (arcsin s) ^ 2 = 1 - s ^ 2 := by
    intro s h1 h2
    refine ⟨sin_arcsin h1.le h2.le, cos_arcsin_nonneg s, ?_⟩
    have := cos_sq_add_sin_sq (arcsin s)
    rw [sin_arcsin h1.le h2.le] at this
    linarith
  rw [e4] at he
  simp only [lockEntry] at hl1 hl2 hl3
  obtain ⟨t1, t2, t3⟩ := hcs _ hl1 hl2
  obtain ⟨a1, a2⟩ := atan2_spec (-(rotate q Vec3.unitZ).y) ((rotate q Vec3.unitY).y) _ t2 (by rw [t3]; linarith)
  obtain ⟨b1, b2⟩ := atan2_spec (-(rotate q Vec3.unitX).z) ((rotate q Vec3.unitX).x) _ t2 (by rw [t3]; linarith)
  have g0 : e.z = arcsin ((rotate q Vec3.unitX).y) := by rw [he]
  have g1 : e.x = atan2 (-(rotate q Vec3.unitZ).y) ((rotate q Vec3.unitY).y) := by rw [he]
  have g2 : e.y = atan2 (-(rotate q Vec3.unitX).z) ((rotate q Vec3.unitX).x) := by rw [he]
  rw [← g0, ← g1] at a1 a2
  rw [← g0, ← g2] at b1 b2
  rw [← g0] at t1
  have rxx : (rotate E Vec3.unitX).x = (rotate q Vec3.unitX).x := by
    rw [hr]
    simp only [eulerRotate, aboutX, aboutY, aboutZ, Vec3.unitX, mul_zero, mul_one, add_zero, zero_add, sub_zero, zero_sub] at *
    linarith
  have ryx : (rotate E Vec3.unitX).y = (rotate q Vec3.unitX).y := by
    rw [hr]
    simp only [eulerRotate, aboutX, aboutY, aboutZ, Vec3.unitX, mul_zero, mul_one, add_zero, zero_add, sub_zero, zero_sub] at *
    linarith
  have rzx : (rotate E Vec3.unitX).z = (rotate q Vec3.unitX).z := by
    rw [hr]
    simp only [eulerRotate, aboutX, aboutY, aboutZ, Vec3.unitX, mul_zero, mul_one, add_zero, zero_add, sub_zero, zero_sub] at *
    linarith
  have ryy : (rotate E Vec3.unitY).y = (rotate q Vec3.unitY).y := by
    rw [hr]
    simp only [eulerRotate, aboutX, aboutY, aboutZ, Vec3.unitY, mul_zero, mul_one, add_zero, zero_add, sub_zero, zero_sub] at *
    linarith
  have ryz : (rotate E Vec3.unitZ).y = (rotate q Vec3.unitZ).y := by
    rw [hr]
    simp only [eulerRotate, aboutX, aboutY, aboutZ, Vec3.unitZ, mul_zero, mul_one, add_zero, zero_add, sub_zero, zero_sub] at *
    linarith
  have hcol : Quat.rot E Vec3.unitX = Quat.rot q Vec3.unitX := by
    rw [hrot E hu, hrot q hq]; exact Vec3.ext rxx ryx rzx
  rw [ryx, ryy, ryz] at sy
  refine rot_eq_of_agree E q hu hq _ _ hcol (sy.trans qy.symm) ?_ v
  simp only [Vec3.cross, Vec3.sqLen, Vec3.unitX, Vec3.unitY, Vec3.unitZ] at *
  nlinarith

theorem euler_back_zxy (q : Quat ℝ) (hq : UnitLength q) (hl : |lockEntry .zxy q| < 1) (v : Vec3 ℝ) :
    Quat.rot (Quat.fromEuler .zxy (Quat.toEuler .zxy q)) v = Quat.rot q v := by
  set e := Quat.toEuler .zxy q with he
  set E := Quat.fromEuler .zxy e with hE
  have hu : UnitLength E := (C73_from_euler .zxy e v).1
  have hr : ∀ v, rotate E v = eulerRotate .zxy e v := fun v => by
    rw [← C54_rotation _ _ hu]; exact (C73_from_euler .zxy e v).2
  have hrot : ∀ (p : Quat ℝ), UnitLength p → ∀ v, Quat.rot p v = rotate p v := fun p hp v => C54_rotation p v hp
  obtain ⟨⟨mx, my, mz⟩, nx, ny, nz⟩ := matrix_unit q hq
  obtain ⟨qx, qy, qz⟩ := rot_rows q hq
  obtain ⟨sx, sy, sz⟩ := rot_rows E hu
  have ent := toEuler_entries q
  obtain ⟨e1, e2, e3, e4, e5, e6⟩ := ent
  have hl3 : lockEntry .zxy q ^ 2 < 1 := (sq_lt_one_iff_abs_lt_one _).2 hl
  obtain ⟨hl1, hl2⟩ := abs_lt.1 hl
  have hcs : ∀ s : ℝ, -1 < s → s < 1 → sin (arcsin s) = s ∧ 0 ≤ cos (arcsin s) ∧ cos (arcsin s) ^ 2 = 1 - s ^ 2 := by
    intro s h1 h2
    refine ⟨sin_arcsin h1.le h2.le, cos_arcsin_nonneg s, ?_⟩
    have := cos_sq_add_sin_sq (arcsin s)
    rw [sin_arcsin h1.le h2.le] at this
    linarith
  rw [e5] at he
  simp only [lockEntry] at hl1 hl2 hl3
  obtain ⟨t1, t2, t3⟩ := hcs _ hl1 hl2
  obtain ⟨a1, a2⟩ := atan2_spec (-(rotate q Vec3.unitX).z) ((rotate q Vec3.unitZ).z) _ t2 (by rw [t3]; linarith)
  obtain ⟨b1, b2⟩ := atan2_spec (-(rotate q Vec3.unitY).x) ((rotate q Vec3.unitY).y) _ t2 (by rw [t3]; linarith)
  have g0 : e.x = arcsin ((rotate q Vec3.unitY).z) := by rw [he]
  have g1 : e.y = atan2 (-(rotate q Vec3.unitX).z) ((rotate q Vec3.unitZ).z) := by rw [he]
  have g2 : e.z = atan2 (-(rotate q Vec3.unitY).x) ((rotate q Vec3.unitY).y) := by rw [he]
  rw [← g0, ← g1] at a1 a2
  rw [← g0, ← g2] at b1 b2
  rw [← g0] at t1
  have rxy : (rotate E Vec3.unitY).x = (rotate q Vec3.unitY).x := by
    rw [hr]
    simp only [eulerRotate, aboutX, aboutY, aboutZ, Vec3.unitY, mul_zero, mul_one, add_zero, zero_add, sub_zero, zero_sub] at *
    linarith
  have ryy : (rotate E Vec3.unitY).y = (rotate q Vec3.unitY).y := by
    rw [hr]
    simp only [eulerRotate, aboutX, aboutY, aboutZ, Vec3.unitY, mul_zero, mul_one, add_zero, zero_add, sub_zero, zero_sub] at *
    linarith
  have rzy : (rotate E Vec3.unitY).z = (rotate q Vec3.unitY).z := by
    rw [hr]
    simp only [eulerRotate, aboutX, aboutY, aboutZ, Vec3.unitY, mul_zero, mul_one, add_zero, zero_add, sub_zero, zero_sub] at *
    linarith
  have rzx : (rotate E Vec3.unitX).z = (rotate q Vec3.unitX).z := by
    rw [hr]
    simp only [eulerRotate, aboutX, aboutY, aboutZ, Vec3.unitX, mul_zero, mul_one, add_zero, zero_add, sub_zero, zero_sub] at *
    linarith
  have rzz : (rotate E Vec3.unitZ).z = (rotate q Vec3.unitZ).z := by
    rw [hr]
    simp only [eulerRotate, aboutX, aboutY, aboutZ, Vec3.unitZ, mul_zero, mul_one, add_zero, zero_add, sub_zero, zero_sub] at *
    linarith
  have hcol : Quat.rot E Vec3.unitY = Quat.rot q Vec3.unitY := by
    rw [hrot E hu, hrot q hq]; exact Vec3.ext rxy ryy rzy
  rw [rzx, rzy, rzz] at sz
  refine rot_eq_of_agree E q hu hq _ _ hcol (sz.trans qz.symm) ?_ v
  simp only [Vec3.cross, Vec3.sqLen, Vec3.unitX, Vec3.unitY, Vec3.unitZ] at *
  nlinarith

theorem euler_back_zyx (q : Quat ℝ) (hq : UnitLength q) (hl : |lockEntry .zyx q| < 1) (v : Vec3 ℝ) :
    Quat.rot (Quat.fromEuler .zyx (Quat.toEuler .zyx q)) v = Quat.rot q v := by
  set e := Quat.toEuler .zyx q with he
  set E := Quat.fromEuler .zyx e with hE
  have hu : UnitLength E := (C73_from_euler .zyx e v).1
  have hr : ∀ v, rotate E v = eulerRotate .zyx e v := fun v => by
    rw [← C54_rotation _ _ hu]; exact (C73_from_euler .zyx e v).2
  have hrot : ∀ (p : Quat ℝ), UnitLength p → ∀ v, Quat.rot p v = rotate p v := fun p hp v => C54_rotation p v hp
  obtain ⟨⟨mx, my, mz⟩, nx, ny, nz⟩ := matrix_unit q hq
  obtain ⟨qx, qy, qz⟩ := rot_rows q hq
  obtain ⟨sx, sy, sz⟩ := rot_rows E hu
  have ent := toEuler_entries q
  obtain ⟨e1, e2, e3, e4, e5, e6⟩ := ent
  have hl3 : lockEntry .zyx q ^ 2 < 1 := (sq_lt_one_iff_abs_lt_one _).2 hl
  obtain ⟨hl1, hl2⟩ := abs_lt.1 hl
  have hcs : ∀ s : ℝ, -1 < s → s < 1 → sin (arcsin s) = s ∧ 0 ≤ cos (arcsin s) ∧ cos (arcsin s) ^ 2 = 1 - s ^ 2 := by
    intro s h1 h2
    refine ⟨sin_arcsin h1.le h2.le, cos_arcsin_nonneg s, ?_⟩
    have := cos_sq_add_sin_sq (arcsin s)
    rw [sin_arcsin h1.le h2.le] at this
    linarith
  rw [e6] at he
  simp only [lockEntry] at hl1 hl2 hl3
  obtain ⟨t1, t2, t3⟩ := hcs _ hl1 hl2
  obtain ⟨a1, a2⟩ := atan2_spec ((rotate q Vec3.unitY).z) ((rotate q Vec3.unitZ).z) _ t2 (by rw [t3]; linarith)
  obtain ⟨b1, b2⟩ := atan2_spec ((rotate q Vec3.unitX).y) ((rotate q Vec3.unitX).x) _ t2 (by rw [t3]; linarith)
  have g0 : e.y = arcsin (-(rotate q Vec3.unitX).z) := by rw [he]
  have g1 : e.x = atan2 ((rotate q Vec3.unitY).z) ((rotate q Vec3.unitZ).z) := by rw [he]
  have g2 : e.z = atan2 ((rotate q Vec3.unitX).y) ((rotate q Vec3.unitX).x) := by rw [he]
  rw [← g0, ← g1] at a1 a2
  rw [← g0, ← g2] at b1 b2
  rw [← g0] at t1
  have rxx : (rotate E Vec3.unitX).x = (rotate q Vec3.unitX).x := by
    rw [hr]
    simp only [eulerRotate, aboutX, aboutY, aboutZ, Vec3.unitX, mul_zero, mul_one, add_zero, zero_add, sub_zero, zero_sub] at *
    linarith
  have ryx : (rotate E Vec3.unitX).y = (rotate q Vec3.unitX).y := by
    rw [hr]
    simp only [eulerRotate, aboutX, aboutY, aboutZ, Vec3.unitX, mul_zero, mul_one, add_zero, zero_add, sub_zero, zero_sub] at *
    linarith
  have rzx : (rotate E Vec3.unitX).z = (rotate q Vec3.unitX).z := by
    rw [hr]
    simp only [eulerRotate, aboutX, aboutY, aboutZ, Vec3.unitX, mul_zero, mul_one, add_zero, zero_add, sub_zero, zero_sub] at *
    linarith
  have rzy : (rotate E Vec3.unitY).z = (rotate q Vec3.unitY).z := by
    rw [hr]
    simp only [eulerRotate, aboutX, aboutY, aboutZ, Vec3.unitY, mul_zero, mul_one, add_zero, zero_add, sub_zero, zero_sub] at *
    linarith
  have rzz : (rotate E Vec3.unitZ).z = (rotate q Vec3.unitZ).z := by
    rw [hr]
    simp only [eulerRotate, aboutX, aboutY, aboutZ, Vec3.unitZ, mul_zero, mul_one, add_zero, zero_add, sub_zero, zero_sub] at *
    linarith
  have hcol : Quat.rot E Vec3.unitX = Quat.rot q Vec3.unitX := by
    rw [hrot E hu, hrot q hq]; exact Vec3.ext rxx ryx rzx
  rw [rzx, rzy, rzz] at sz
  refine rot_eq_of_agree E q hu hq _ _ hcol (sz.trans qz.symm) ?_ v
  simp only [Vec3.cross, Vec3.sqLen, Vec3.unitX, Vec3.unitY, Vec3.unitZ] at *
  nlinarith

/-- **C73.** Converting a unit quaternion to Euler angles and back gives the same rotation, for all six orders, except when
the middle angle is a right angle. -/
theorem C73_rotation_partial (o : EulerOrder) (q : Quat ℝ) (hq : UnitLength q) (hl : |lockEntry o q| < 1) (v : Vec3 ℝ) :
    Quat.rot (Quat.fromEuler o (Quat.toEuler o q)) v = Quat.rot q v := by
  cases o
  · exact euler_back_xyz q hq hl v
  · exact euler_back_xzy q hq hl v
  · exact euler_back_yxz q hq hl v
  · exact euler_back_yzx q hq hl v
  · exact euler_back_zxy q hq hl v
  · exact euler_back_zyx q hq hl v

/-- **C73 is violated** when the middle angle is a right angle: the other two angles come out as zero, so a rotation about x
followed by a right angle about y is not recovered. -/
theorem C73_gimbal_violated : ∃ (q : Quat ℝ) (v : Vec3 ℝ), UnitLength q ∧
    Quat.rot (Quat.fromEuler .xyz (Quat.toEuler .xyz q)) v ≠ Quat.rot q v := by
  refine ⟨Quat.fromEuler .xyz ⟨π / 2, π / 2, 0⟩, Vec3.unitY, (C73_from_euler _ _ Vec3.zero).1, ?_⟩
  have hr : ∀ v, rotate (Quat.fromEuler .xyz ⟨π / 2, π / 2, 0⟩) v = eulerRotate .xyz ⟨π / 2, π / 2, 0⟩ v := fun v => by
    rw [← C54_rotation _ _ (C73_from_euler .xyz ⟨π / 2, π / 2, 0⟩ v).1]; exact (C73_from_euler _ _ v).2
  have he := (toEuler_entries (Quat.fromEuler .xyz ⟨π / 2, π / 2, 0⟩)).1
  simp only [hr] at he
  rw [he, (C73_from_euler .xyz _ _).2, (C73_from_euler .xyz ⟨π / 2, π / 2, 0⟩ _).2]
  have h0 : atan2 0 0 = 0 := by unfold atan2; exact Complex.arg_zero
  intro h
  have h1 := congrArg Vec3.y h
  simp [eulerRotate, aboutX, aboutY, aboutZ, Vec3.unitX, Vec3.unitY, Vec3.unitZ, h0] at h1

/-- Non-vacuity: principal angles, and a quaternion away from the lock. -/
example : Principal .zyx ⟨1, 1 / 2, -1⟩ ∧ |lockEntry .xyz Quat.one| < 1 ∧ UnitLength (Quat.one : Quat ℝ) := by
  have h3 := two_le_pi
  refine ⟨⟨?_, ?_, ⟨?_, ?_⟩, ?_, ?_⟩, ?_, ?_⟩
  · simp only [middle]; linarith
  · simp only [middle]; linarith
  · simp only [outer]; linarith
  · simp only [outer]; linarith
  · simp only [outer]; linarith
  · simp only [outer]; linarith
  · norm_num [lockEntry, rotate, Quat.one, Vec3.unitZ]
  · norm_num [UnitLength, Quat.one]

end Xo.Geom
