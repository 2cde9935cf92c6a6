import Verif.Props.C74_Distance
import Mathlib.MeasureTheory.Measure.Lebesgue.VolumeOfBalls
import Mathlib.Analysis.SpecialFunctions.Integrals.Basic

/-!
C75 and C64: volumes and moments of inertia are those of the solid bodies, and how they scale.
-/
namespace Xo.Geom

namespace Spec
open MeasureTheory

/-- A body of revolution about the y axis, between the heights `a` and `b`, whose radius squared at height `y` is `R2 y`.
Points are pairs of the position in the x-z plane, as a complex number, and the height. -/
def revolved (a b : ℝ) (R2 : ℝ → ℝ) : Set (ℂ × ℝ) := {p | (a ≤ p.2 ∧ p.2 ≤ b) ∧ ‖p.1‖ ^ 2 ≤ R2 p.2}

/-- The points of a shape in those coordinates. -/
def body (s : Shape ℝ) : Set (ℂ × ℝ) := {p | Contains s ⟨p.1.re, p.2, p.1.im⟩}

/-- Moment of inertia about the y axis of such a body: a disc of radius R has second moment π R⁴ / 2. -/
noncomputable def inertiaAxis (density a b : ℝ) (R2 : ℝ → ℝ) : ℝ := density * ∫ y in a..b, Real.pi / 2 * R2 y ^ 2

/-- Moment of inertia about the x axis (or z axis): a disc of radius R has second moment π R⁴ / 4 about its diameter, plus the
area times the square of the height. -/
noncomputable def inertiaCross (density a b : ℝ) (R2 : ℝ → ℝ) : ℝ :=
  density * ∫ y in a..b, (Real.pi / 4 * R2 y ^ 2 + Real.pi * R2 y * y ^ 2)

end Spec
open Spec MeasureTheory Real

/-! ### Volumes are measures of sets -/

/-- The volume of a body of revolution is the integral of the areas of its discs. -/
theorem revolved_volume (a b : ℝ) (hab : a ≤ b) (R2 : ℝ → ℝ) (hc : Continuous R2) (h0 : ∀ y, a ≤ y → y ≤ b → 0 ≤ R2 y) :
    volume (revolved a b R2) = ENNReal.ofReal (∫ y in a..b, π * R2 y) := by
  have hm : MeasurableSet (revolved a b R2) := by
    apply IsClosed.measurableSet
    refine IsClosed.inter (IsClosed.inter ?_ ?_) ?_
    · exact isClosed_le continuous_const continuous_snd
    · exact isClosed_le continuous_snd continuous_const
    · exact isClosed_le (continuous_fst.norm.pow 2) (hc.comp continuous_snd)
  rw [Measure.volume_eq_prod, Measure.prod_apply_symm hm]
  have hslice : ∀ y, volume ((fun x => (x, y)) ⁻¹' revolved a b R2) = (Set.Icc a b).indicator (fun y => ENNReal.ofReal (π * R2 y)) y := by
    intro y
    by_cases hy : y ∈ Set.Icc a b
    · rw [Set.indicator_of_mem hy]
      have e : ((fun x : ℂ => (x, y)) ⁻¹' revolved a b R2) = Metric.closedBall 0 (√(R2 y)) := by
        ext x
        simp only [Set.mem_preimage, revolved, Set.mem_setOf_eq, Metric.mem_closedBall, dist_zero_right]
        rw [Real.le_sqrt (norm_nonneg _) (h0 y hy.1 hy.2)]
        exact ⟨fun h => h.2, fun h => ⟨⟨hy.1, hy.2⟩, h⟩⟩
      rw [e, Complex.volume_closedBall, ← ENNReal.ofReal_pow (sqrt_nonneg _), sq_sqrt (h0 y hy.1 hy.2), mul_comm,
        ENNReal.ofReal_mul pi_pos.le]
      congr 1
      exact (ENNReal.ofReal_coe_nnreal (p := NNReal.pi)).symm
    · rw [Set.indicator_of_notMem hy]
      have e : ((fun x : ℂ => (x, y)) ⁻¹' revolved a b R2) = ∅ := by
        ext x
        simp only [Set.mem_preimage, revolved, Set.mem_setOf_eq, Set.mem_empty_iff_false, iff_false]
        exact fun h => hy ⟨h.1.1, h.1.2⟩
      rw [e, measure_empty]
  simp only [hslice]
  rw [lintegral_indicator measurableSet_Icc, intervalIntegral.integral_of_le hab, ← integral_Icc_eq_integral_Ioc,
    ofReal_integral_eq_lintegral_ofReal]
  · exact ((continuous_const.mul hc).continuousOn).integrableOn_Icc
  · refine (ae_restrict_iff' measurableSet_Icc).2 (Filter.Eventually.of_forall fun y hy => ?_)
    exact mul_nonneg pi_pos.le (h0 y hy.1 hy.2)

/-- The integral of a polynomial of degree four. -/
theorem integral_poly (c0 c1 c2 c3 c4 a b : ℝ) : ∫ y in a..b, (c0 + c1 * y + c2 * y ^ 2 + c3 * y ^ 3 + c4 * y ^ 4) =
    (c0 * b + c1 * b ^ 2 / 2 + c2 * b ^ 3 / 3 + c3 * b ^ 4 / 4 + c4 * b ^ 5 / 5) -
    (c0 * a + c1 * a ^ 2 / 2 + c2 * a ^ 3 / 3 + c3 * a ^ 4 / 4 + c4 * a ^ 5 / 5) := by
  rw [intervalIntegral.integral_eq_sub_of_hasDerivAt
    (f := fun y => c0 * y + c1 * y ^ 2 / 2 + c2 * y ^ 3 / 3 + c3 * y ^ 4 / 4 + c4 * y ^ 5 / 5)]
  · intro y _
    have h := (((((hasDerivAt_id y).const_mul c0).add (((hasDerivAt_pow 2 y).const_mul c1).div_const 2)).add
      (((hasDerivAt_pow 3 y).const_mul c2).div_const 3)).add (((hasDerivAt_pow 4 y).const_mul c3).div_const 4)).add
      (((hasDerivAt_pow 5 y).const_mul c4).div_const 5)
    refine h.congr_deriv ?_
    push_cast
    ring
  · apply Continuous.intervalIntegrable
    fun_prop

/-- Radius squared of a capsule at height `y`. -/
noncomputable def capsuleR2 (r h y : ℝ) : ℝ := r ^ 2 - (max 0 (|y| - h / 2)) ^ 2

theorem capsuleR2_continuous (r h : ℝ) : Continuous (capsuleR2 r h) := by
  unfold capsuleR2
  fun_prop

/-- Integrals over a capsule split into the two caps and the cylinder. -/
theorem capsule_split (r h : ℝ) (hr : 0 ≤ r) (hh : 0 ≤ h) (G : ℝ → ℝ → ℝ) (hG : Continuous fun p : ℝ × ℝ => G p.1 p.2) :
    ∫ y in (-(h / 2) - r)..(h / 2 + r), G (capsuleR2 r h y) y =
      (∫ y in (-(h / 2) - r)..(-(h / 2)), G (r ^ 2 - (y + h / 2) ^ 2) y) + (∫ y in (-(h / 2))..(h / 2), G (r ^ 2) y) +
      ∫ y in (h / 2)..(h / 2 + r), G (r ^ 2 - (y - h / 2) ^ 2) y := by
  have hc : Continuous fun y => G (capsuleR2 r h y) y := hG.comp ((capsuleR2_continuous r h).prodMk continuous_id)
  have hi : ∀ a b, IntervalIntegrable (fun y => G (capsuleR2 r h y) y) volume a b := fun a b => hc.intervalIntegrable a b
  rw [← intervalIntegral.integral_add_adjacent_intervals (hi _ (h / 2)) (hi _ _),
    ← intervalIntegral.integral_add_adjacent_intervals (hi _ (-(h / 2))) (hi _ _)]
  congr 1
  · congr 1
    · refine intervalIntegral.integral_congr fun y hy => ?_
      rw [Set.uIcc_of_le (by linarith)] at hy
      have : capsuleR2 r h y = r ^ 2 - (y + h / 2) ^ 2 := by
        unfold capsuleR2
        rw [abs_of_nonpos (by linarith [hy.2]), max_eq_right (by linarith [hy.2])]; ring
      simp only [this]
    · refine intervalIntegral.integral_congr fun y hy => ?_
      rw [Set.uIcc_of_le (by linarith)] at hy
      have : capsuleR2 r h y = r ^ 2 := by
        unfold capsuleR2
        have : |y| ≤ h / 2 := abs_le.2 ⟨hy.1, hy.2⟩
        rw [max_eq_left (by linarith)]; ring
      simp only [this]
  · refine intervalIntegral.integral_congr fun y hy => ?_
    rw [Set.uIcc_of_le (by linarith)] at hy
    have : capsuleR2 r h y = r ^ 2 - (y - h / 2) ^ 2 := by
      unfold capsuleR2
      rw [abs_of_nonneg (by linarith [hy.1]), max_eq_right (by linarith [hy.1])]
    simp only [this]

theorem norm_sq_complex (c : ℂ) : ‖c‖ ^ 2 = c.re ^ 2 + c.im ^ 2 := by
  rw [← Complex.normSq_eq_norm_sq, Complex.normSq_apply]; ring

/-- Spheres, cylinders and capsules are bodies of revolution. -/
theorem body_revolved (r h : ℝ) (hr : 0 ≤ r) (hh : 0 ≤ h) :
    body (.sphere r) = revolved (-r) r (fun y => r ^ 2 - y ^ 2) ∧
    body (.cylinder r h) = revolved (-(h / 2)) (h / 2) (fun _ => r ^ 2) ∧
    body (.capsule r h) = revolved (-(h / 2) - r) (h / 2 + r) (capsuleR2 r h) := by
  refine ⟨?_, ?_, ?_⟩
  · ext p
    simp only [body, revolved, Set.mem_setOf_eq, Contains, norm_sq_complex]
    constructor
    · intro hp
      have : |p.2| ≤ r := abs_le_of_sq_le_sq (by nlinarith [sq_nonneg p.1.re, sq_nonneg p.1.im]) hr
      exact ⟨⟨(abs_le.1 this).1, (abs_le.1 this).2⟩, by linarith⟩
    · rintro ⟨_, hp⟩; linarith
  · ext p
    simp only [body, revolved, Set.mem_setOf_eq, Contains, norm_sq_complex, abs_le]
    exact ⟨fun h => ⟨h.2, h.1⟩, fun h => ⟨h.2, h.1⟩⟩
  · ext p
    simp only [body, revolved, Set.mem_setOf_eq, norm_sq_complex]
    rw [capsule_contains r h hh]
    unfold capsuleR2
    simp only
    constructor
    · intro hp
      have h1 : (max 0 (|p.2| - h / 2)) ^ 2 ≤ r ^ 2 := by nlinarith [sq_nonneg p.1.re, sq_nonneg p.1.im]
      have h2 := le_of_sq_le h1 hr
      have h3 := (le_max_right 0 (|p.2| - h / 2)).trans h2
      have h4 := abs_le.1 (show |p.2| ≤ h / 2 + r by linarith)
      exact ⟨⟨by linarith [h4.1], h4.2⟩, by linarith⟩
    · rintro ⟨_, hp⟩; linarith

/-- **C75.** The volumes of spheres, cylinders and capsules are the volumes of these bodies in space. -/
theorem C75_volume (r h : ℝ) (hr : 0 ≤ r) (hh : 0 ≤ h) :
    volume (body (.sphere r)) = ENNReal.ofReal (Shape.volume π (.sphere r)) ∧
    volume (body (.cylinder r h)) = ENNReal.ofReal (Shape.volume π (.cylinder r h)) ∧
    volume (body (.capsule r h)) = ENNReal.ofReal (Shape.volume π (.capsule r h)) := by
  obtain ⟨b1, b2, b3⟩ := body_revolved r h hr hh
  refine ⟨?_, ?_, ?_⟩
  · rw [b1, revolved_volume _ _ (by linarith) _ (by fun_prop)]
    · congr 1
      have := integral_poly (π * r ^ 2) 0 (-π) 0 0 (-r) r
      rw [show (fun y : ℝ => π * (r ^ 2 - y ^ 2)) = fun y => π * r ^ 2 + 0 * y + -π * y ^ 2 + 0 * y ^ 3 + 0 * y ^ 4 by
        ext y; ring, this]
      simp only [Shape.volume]; ring
    · intro y h1 h2
      have := abs_le.2 ⟨h1, h2⟩
      have := sq_le_sq' h1 h2
      linarith
  · rw [b2, revolved_volume _ _ (by linarith) _ (by fun_prop)]
    · congr 1
      rw [intervalIntegral.integral_const]
      simp only [Shape.volume, smul_eq_mul]; ring
    · intro y _ _; positivity
  · rw [b3, revolved_volume _ _ (by linarith) _ (capsuleR2_continuous r h)]
    · congr 1
      rw [capsule_split r h hr hh (fun R _ => π * R) (by fun_prop)]
      have e1 := integral_poly (π * r ^ 2 - π * h ^ 2 / 4) (-π * h) (-π) 0 0 (-(h / 2) - r) (-(h / 2))
      have e3 := integral_poly (π * r ^ 2 - π * h ^ 2 / 4) (π * h) (-π) 0 0 (h / 2) (h / 2 + r)
      rw [show (fun y : ℝ => π * (r ^ 2 - (y + h / 2) ^ 2)) =
        fun y => π * r ^ 2 - π * h ^ 2 / 4 + -π * h * y + -π * y ^ 2 + 0 * y ^ 3 + 0 * y ^ 4 by ext y; ring, e1,
        show (fun y : ℝ => π * (r ^ 2 - (y - h / 2) ^ 2)) =
        fun y => π * r ^ 2 - π * h ^ 2 / 4 + π * h * y + -π * y ^ 2 + 0 * y ^ 3 + 0 * y ^ 4 by ext y; ring, e3,
        intervalIntegral.integral_const]
      simp only [Shape.volume, smul_eq_mul]; ring
    · intro y h1 h2
      unfold capsuleR2
      have h3 : |y| ≤ h / 2 + r := abs_le.2 ⟨by linarith, h2⟩
      have h4 : max 0 (|y| - h / 2) ≤ r := max_le hr (by linarith)
      have := pow_le_pow_left₀ (le_max_left 0 (|y| - h / 2)) h4 2
      linarith

/-- **C75.** The volume of a cone is that of the body narrowing from the base to the tip. -/
theorem C75_cone (r h : ℝ) (hh : 0 < h) :
    volume (revolved 0 h fun y => (r * (1 - y / h)) ^ 2) = ENNReal.ofReal (Shape.volume π (.cone r h)) := by
  rw [revolved_volume _ _ hh.le _ (by fun_prop) (fun y _ _ => sq_nonneg _)]
  congr 1
  have := integral_poly (π * r ^ 2) (-2 * π * r ^ 2 / h) (π * r ^ 2 / h ^ 2) 0 0 0 h
  rw [show (fun y : ℝ => π * (r * (1 - y / h)) ^ 2) = fun y => π * r ^ 2 + -2 * π * r ^ 2 / h * y + π * r ^ 2 / h ^ 2 * y ^ 2 + 0 * y ^ 3 + 0 * y ^ 4 by
    ext y; field_simp; ring, this]
  simp only [Shape.volume]
  field_simp
  ring

/-- **C75.** The volume of a box is the volume of the set of its points. -/
theorem C75_box_volume (h : Vec3 ℝ) (hx : 0 ≤ h.x) (hy : 0 ≤ h.y) :
    volume {p : ℝ × ℝ × ℝ | Contains (.box h) ⟨p.1, p.2.1, p.2.2⟩} = ENNReal.ofReal (Shape.volume π (.box h)) := by
  have e : {p : ℝ × ℝ × ℝ | Contains (.box h) ⟨p.1, p.2.1, p.2.2⟩} = Set.Icc (-h.x) h.x ×ˢ Set.Icc (-h.y) h.y ×ˢ Set.Icc (-h.z) h.z := by
    ext p
    simp only [Contains, abs_le, Set.mem_setOf_eq, Set.mem_prod, Set.mem_Icc]
  rw [e, Measure.volume_eq_prod, Measure.prod_prod, Measure.volume_eq_prod, Measure.prod_prod, Real.volume_Icc, Real.volume_Icc,
    Real.volume_Icc, ← ENNReal.ofReal_mul (by linarith), ← ENNReal.ofReal_mul (by linarith)]
  congr 1
  simp only [Shape.volume]; ring

/-! ### Moments of inertia -/

/-- **C75.** The moments of inertia of spheres and cylinders are those of the solid bodies of revolution. -/
theorem C75_inertia (r h d : ℝ) :
    Shape.inertia π (.sphere r) d = .ok ⟨inertiaCross d (-r) r fun y => r ^ 2 - y ^ 2, inertiaAxis d (-r) r fun y => r ^ 2 - y ^ 2,
      inertiaCross d (-r) r fun y => r ^ 2 - y ^ 2⟩ ∧
    Shape.inertia π (.cylinder r h) d = .ok ⟨inertiaCross d (-(h / 2)) (h / 2) fun _ => r ^ 2, inertiaAxis d (-(h / 2)) (h / 2) fun _ => r ^ 2,
      inertiaCross d (-(h / 2)) (h / 2) fun _ => r ^ 2⟩ := by
  have s1 : inertiaCross d (-r) r (fun y => r ^ 2 - y ^ 2) = 2 / 5 * (4 / 3 * π * (r * r * r)) * d * (r * r) := by
    unfold inertiaCross
    rw [show (fun y : ℝ => π / 4 * (r ^ 2 - y ^ 2) ^ 2 + π * (r ^ 2 - y ^ 2) * y ^ 2) =
      fun y => π / 4 * r ^ 4 + 0 * y + π / 2 * r ^ 2 * y ^ 2 + 0 * y ^ 3 + -3 * π / 4 * y ^ 4 by ext y; ring, integral_poly]
    ring
  have s2 : inertiaAxis d (-r) r (fun y => r ^ 2 - y ^ 2) = 2 / 5 * (4 / 3 * π * (r * r * r)) * d * (r * r) := by
    unfold inertiaAxis
    rw [show (fun y : ℝ => π / 2 * (r ^ 2 - y ^ 2) ^ 2) =
      fun y => π / 2 * r ^ 4 + 0 * y + -π * r ^ 2 * y ^ 2 + 0 * y ^ 3 + π / 2 * y ^ 4 by ext y; ring, integral_poly]
    ring
  have c1 : inertiaCross d (-(h / 2)) (h / 2) (fun _ => r ^ 2) = d * (π * (r * r) * h) / 12 * (3 * (r * r) + h * h) := by
    unfold inertiaCross
    rw [show (fun y : ℝ => π / 4 * (r ^ 2) ^ 2 + π * r ^ 2 * y ^ 2) =
      fun y => π / 4 * r ^ 4 + 0 * y + π * r ^ 2 * y ^ 2 + 0 * y ^ 3 + 0 * y ^ 4 by ext y; ring, integral_poly]
    ring
  have c2 : inertiaAxis d (-(h / 2)) (h / 2) (fun _ => r ^ 2) = 1 / 2 * (d * (π * (r * r) * h)) * (r * r) := by
    unfold inertiaAxis
    rw [intervalIntegral.integral_const]
    simp only [smul_eq_mul]; ring
  rw [s1, s2, c1, c2]
  exact ⟨rfl, rfl⟩

/-- **C75.** The moment of inertia of a box about an axis is the integral of the squared distance to it over the box: shown
as the three second moments, each the product of the two other sides with the integral of a square. -/
theorem C75_box_inertia (h : Vec3 ℝ) (d : ℝ) :
    Shape.inertia π (.box h) d = .ok
      ⟨d * ((2 * h.x) * (2 * h.z) * (∫ y in (-h.y)..h.y, y ^ 2) + (2 * h.x) * (2 * h.y) * ∫ z in (-h.z)..h.z, z ^ 2),
       d * ((2 * h.y) * (2 * h.z) * (∫ x in (-h.x)..h.x, x ^ 2) + (2 * h.x) * (2 * h.y) * ∫ z in (-h.z)..h.z, z ^ 2),
       d * ((2 * h.y) * (2 * h.z) * (∫ x in (-h.x)..h.x, x ^ 2) + (2 * h.x) * (2 * h.z) * ∫ y in (-h.y)..h.y, y ^ 2)⟩ := by
  simp only [integral_pow, Shape.inertia, Shape.volume]
  congr 2 <;> (push_cast; ring)

/-- The moments of inertia of a capsule as a solid body. -/
theorem capsule_inertia (r h d : ℝ) (hr : 0 ≤ r) (hh : 0 ≤ h) :
    inertiaAxis d (-(h / 2) - r) (h / 2 + r) (capsuleR2 r h) =
      (π * r ^ 2 * h * d * (1 / 2) + 4 / 3 * π * r ^ 3 * d * (2 / 5)) * r ^ 2 ∧
    inertiaCross d (-(h / 2) - r) (h / 2 + r) (capsuleR2 r h) =
      π * r ^ 2 * h * d * (1 / 4 * r ^ 2 + 1 / 12 * h ^ 2) + 4 / 3 * π * r ^ 3 * d * (2 / 5 * r ^ 2 + 3 / 8 * r * h + 1 / 4 * h ^ 2) := by
  constructor
  · unfold inertiaAxis
    rw [capsule_split r h hr hh (fun R _ => π / 2 * R ^ 2) (by fun_prop)]
    rw [show (fun y : ℝ => π / 2 * (r ^ 2 - (y + h / 2) ^ 2) ^ 2) = fun y => π / 2 * (r ^ 2 - h ^ 2 / 4) ^ 2 + -π * (r ^ 2 - h ^ 2 / 4) * h * y +
        (π / 2 * h ^ 2 - π * (r ^ 2 - h ^ 2 / 4)) * y ^ 2 + π * h * y ^ 3 + π / 2 * y ^ 4 by ext y; ring, integral_poly,
      show (fun y : ℝ => π / 2 * (r ^ 2 - (y - h / 2) ^ 2) ^ 2) = fun y => π / 2 * (r ^ 2 - h ^ 2 / 4) ^ 2 + π * (r ^ 2 - h ^ 2 / 4) * h * y +
        (π / 2 * h ^ 2 - π * (r ^ 2 - h ^ 2 / 4)) * y ^ 2 + -π * h * y ^ 3 + π / 2 * y ^ 4 by ext y; ring, integral_poly,
      intervalIntegral.integral_const]
    simp only [smul_eq_mul]
    ring
  · unfold inertiaCross
    rw [capsule_split r h hr hh (fun R y => π / 4 * R ^ 2 + π * R * y ^ 2) (by fun_prop)]
    rw [show (fun y : ℝ => π / 4 * (r ^ 2 - (y + h / 2) ^ 2) ^ 2 + π * (r ^ 2 - (y + h / 2) ^ 2) * y ^ 2) =
        fun y => π / 4 * (r ^ 2 - h ^ 2 / 4) ^ 2 + -π / 2 * (r ^ 2 - h ^ 2 / 4) * h * y +
        (π / 4 * h ^ 2 - π / 2 * (r ^ 2 - h ^ 2 / 4) + π * (r ^ 2 - h ^ 2 / 4)) * y ^ 2 + (π / 2 * h - π * h) * y ^ 3 + (π / 4 - π) * y ^ 4 by
          ext y; ring, integral_poly,
      show (fun y : ℝ => π / 4 * (r ^ 2 - (y - h / 2) ^ 2) ^ 2 + π * (r ^ 2 - (y - h / 2) ^ 2) * y ^ 2) =
        fun y => π / 4 * (r ^ 2 - h ^ 2 / 4) ^ 2 + π / 2 * (r ^ 2 - h ^ 2 / 4) * h * y +
        (π / 4 * h ^ 2 - π / 2 * (r ^ 2 - h ^ 2 / 4) + π * (r ^ 2 - h ^ 2 / 4)) * y ^ 2 + -(π / 2 * h - π * h) * y ^ 3 + (π / 4 - π) * y ^ 4 by
          ext y; ring, integral_poly,
      show (fun y : ℝ => π / 4 * (r ^ 2) ^ 2 + π * r ^ 2 * y ^ 2) =
        fun y => π / 4 * r ^ 4 + 0 * y + π * r ^ 2 * y ^ 2 + 0 * y ^ 3 + 0 * y ^ 4 by ext y; ring, integral_poly]
    ring

/-- **C75 (partial).** For a capsule the moment about its axis is always right; the other two are right exactly if the mass of
its cylinder is one, or has no length. -/
theorem C75_capsule_partial (r h d : ℝ) (hr : 0 ≤ r) (hh : 0 ≤ h) : ∃ i, Shape.inertia π (.capsule r h) d = .ok i ∧
    i.y = inertiaAxis d (-(h / 2) - r) (h / 2 + r) (capsuleR2 r h) ∧ i.x = i.z ∧
    (i.x = inertiaCross d (-(h / 2) - r) (h / 2 + r) (capsuleR2 r h) ↔ π * r ^ 2 * h * d = 0 ∨ π * r ^ 2 * h * d = 1) := by
  obtain ⟨e1, e2⟩ := capsule_inertia r h d hr hh
  refine ⟨_, rfl, ?_, rfl, ?_⟩
  · rw [e1]; simp only; ring
  · rw [e2]
    simp only
    have key : π * (r * r) * h * d * (1 / 4 * (r * r) + 1 / 12 * (π * (r * r) * h * d) * h * h) +
        4 / 3 * π * (r * r * r) * d * (2 / 5 * (r * r) + 3 / 8 * r * h + 1 / 4 * h * h) -
        (π * r ^ 2 * h * d * (1 / 4 * r ^ 2 + 1 / 12 * h ^ 2) + 4 / 3 * π * r ^ 3 * d * (2 / 5 * r ^ 2 + 3 / 8 * r * h + 1 / 4 * h ^ 2)) =
        1 / 12 * h ^ 2 * ((π * r ^ 2 * h * d) * (π * r ^ 2 * h * d - 1)) := by ring
    rw [← sub_eq_zero, key]
    constructor
    · intro h0
      rcases mul_eq_zero.1 h0 with h0 | h0
      · have : h = 0 := by
          rcases mul_eq_zero.1 h0 with h0 | h0
          · norm_num at h0
          · exact pow_eq_zero_iff (by norm_num) |>.1 h0
        left; rw [this]; ring
      · rcases mul_eq_zero.1 h0 with h0 | h0
        · exact .inl h0
        · exact .inr (by linarith)
    · rintro (h0 | h0) <;> rw [h0] <;> ring

/-- **C75 is violated** by a capsule: with any other mass of the cylinder the moment of inertia is wrong. -/
theorem C75_capsule_violated (r h d : ℝ) (hr : 0 < r) (hh : 0 < h) (hd : 0 < d) (hm : π * r ^ 2 * h * d ≠ 1) :
    ∃ i, Shape.inertia π (.capsule r h) d = .ok i ∧ i.x ≠ inertiaCross d (-(h / 2) - r) (h / 2 + r) (capsuleR2 r h) := by
  obtain ⟨i, h1, _, _, h2⟩ := C75_capsule_partial r h d hr.le hh.le
  refine ⟨i, h1, fun h3 => ?_⟩
  rcases h2.1 h3 with h4 | h4
  · have : 0 < π * r ^ 2 * h * d := by positivity
    linarith
  · exact hm h4

/-! ### Scaling (C64) -/

section field
variable {K : Type} [Field K]

/-- **C64.** Scaling by a factor multiplies the volume by its cube. -/
theorem C64_volume (pi f : K) (s : Shape K) : Shape.volume pi (s.scale f) = f ^ 3 * Shape.volume pi s := by
  cases s <;> simp only [Shape.scale, Shape.volume, Vec3.smul] <;> ring

/-- **C64.** Scaling by a factor multiplies the dimensions by it. -/
theorem C64_dim (f : K) (s : Shape K) : (s.scale f).dim = s.dim.map (Vec3.smul f) := by
  cases s <;> simp only [Shape.scale, Shape.dim, Vec3.smul, Vec3.diagonal, Res.map, Res.ok.injEq, Vec3.mk.injEq]
  all_goals (refine ⟨?_, ?_, ?_⟩ <;> first | ring | simp)

/-- **C64.** Scaling successively is scaling by the product; scaling by one changes nothing. -/
theorem C64_scale (f g : K) (s : Shape K) : (s.scale f).scale g = s.scale (f * g) ∧ s.scale 1 = s := by
  cases s <;> simp only [Shape.scale, Vec3.smul, mul_one, mul_assoc, and_self]

/-- **C64 (partial).** The moments of inertia are proportional to the density, for all shapes but capsules and cones, and
scaling by a factor multiplies them by its fifth power. -/
theorem C64_inertia_partial (pi f d k : K) (s : Shape K) (h1 : ∀ r h, s ≠ .capsule r h) (h2 : ∀ r h, s ≠ .cone r h) :
    Shape.inertia pi s (k * d) = (Shape.inertia pi s d).map (Vec3.smul k) ∧
    Shape.inertia pi (s.scale f) d = (Shape.inertia pi s d).map (Vec3.smul (f ^ 5)) := by
  cases s
  case capsule r h => exact absurd rfl (h1 r h)
  case cone r h => exact absurd rfl (h2 r h)
  all_goals
    simp only [Shape.inertia, Shape.scale, Shape.volume, Vec3.smul, Vec3.diagonal, Vec3.zero, Res.map, Res.ok.injEq, Vec3.mk.injEq]
    refine ⟨⟨?_, ?_, ?_⟩, ⟨?_, ?_, ?_⟩⟩ <;> ring

end field

/-- **C64 is violated** by capsules and cones: doubling the density of a capsule does not double its moments of inertia, and a
cone has none. -/
theorem C64_inertia_violated : (∃ (s : Shape ℚ) (pi d : ℚ), Shape.inertia pi s (2 * d) ≠ (Shape.inertia pi s d).map (Vec3.smul 2)) ∧
    ∀ pi r h d : ℚ, Shape.inertia pi (.cone r h) d = .err := by
  refine ⟨⟨.capsule 1 1, 3, 1, ?_⟩, fun _ _ _ _ => rfl⟩
  simp only [Shape.inertia, Res.map, Vec3.smul, ne_eq, Res.ok.injEq, Vec3.mk.injEq]
  norm_num

theorem cbrt_cube (x : ℝ) : cbrt x ^ 3 = x := by
  have key : ∀ y : ℝ, 0 ≤ y → (y ^ (1 / 3 : ℝ)) ^ 3 = y := by
    intro y hy
    rw [← Real.rpow_natCast, ← Real.rpow_mul hy]
    norm_num
  unfold cbrt
  split
  · rename_i h; exact key x h
  · rename_i h
    have := key (-x) (by linarith)
    linear_combination -this

/-- **C64 (partial).** Scaling along the axes multiplies the volume by the product of the factors, for spheres and boxes always and
for cylinders and cones where the factors across the axis have equal sign. -/
theorem C64_scale_by_partial (v : Vec3 ℝ) (s : Shape ℝ) (h1 : ∀ r h, s ≠ .capsule r h) (hv : 0 ≤ v.x * v.z) :
    ∃ s', s.scaleBy v = some s' ∧ Shape.volume π s' = v.x * v.y * v.z * Shape.volume π s := by
  have hs := sq_sqrt hv
  cases s with
  | sphere r =>
    refine ⟨_, rfl, ?_⟩
    have := cbrt_cube (v.x * v.y * v.z)
    simp only [Shape.volume]
    linear_combination 4 / 3 * π * r ^ 3 * this
  | box h => exact ⟨_, rfl, by simp only [Shape.volume]; ring⟩
  | cylinder r h =>
    refine ⟨_, if_neg (not_lt.2 hv), ?_⟩
    simp only [Shape.volume]
    linear_combination π * r ^ 2 * h * v.y * hs
  | capsule r h => exact absurd rfl (h1 r h)
  | cone r h =>
    refine ⟨_, if_neg (not_lt.2 hv), ?_⟩
    simp only [Shape.volume]
    linear_combination π * r ^ 2 * h * v.y / 3 * hs
  | plane n => exact ⟨_, rfl, by simp only [Shape.volume]; ring⟩

/-- **C64.** Equal factors along all axes scale every shape like a single factor. -/
theorem C64_scale_uniform (f : ℝ) (hf : 0 ≤ f) (s : Shape ℝ) : s.scaleBy ⟨f, f, f⟩ = some (s.scale f) := by
  have hff : ¬ f * f < 0 := by nlinarith
  have hs : √(f * f) = f := sqrt_mul_self hf
  have hc : cbrt (f * f * f) = f := by
    have h1 := cbrt_cube (f * f * f)
    have h0 : 0 ≤ cbrt (f * f * f) := by
      unfold cbrt
      rw [if_pos (by positivity)]
      positivity
    have h2 : cbrt (f * f * f) ^ 3 = f ^ 3 := by rw [h1]; ring
    exact (pow_left_inj₀ h0 hf (by norm_num)).1 h2
  cases s <;> simp only [Shape.scaleBy, Shape.scale, Vec3.smul, hc, hs, if_neg hff]

/-- Non-vacuity: a capsule of radius 1 and length 2 has the volume of a ball and a cylinder. -/
example : Shape.volume (1 : ℚ) (.capsule 1 2) = 4 / 3 + 2 ∧ Shape.volume (1 : ℚ) ((Shape.capsule 1 2).scale 2) = 80 / 3 := by
  norm_num [Shape.volume, Shape.scale]

/-! ### Dimensions -/

/-- **C64.** The dimensions of spheres, boxes and cylinders are those of the smallest upright box around them: every point is inside, and
every side is touched. (partial: capsules) -/
theorem C64_extent_partial (s : Shape ℝ) (h0 : match s with
      | .sphere r => 0 ≤ r
      | .box h => 0 ≤ h.x ∧ 0 ≤ h.y ∧ 0 ≤ h.z
      | .cylinder r h => 0 ≤ r ∧ 0 ≤ h
      | _ => False) (d : Vec3 ℝ) (hd : s.dim = .ok d) :
    (∀ p, Contains s p → |p.x| ≤ d.x / 2 ∧ |p.y| ≤ d.y / 2 ∧ |p.z| ≤ d.z / 2) ∧
    (∃ p, Contains s p ∧ p.x = d.x / 2) ∧ (∃ p, Contains s p ∧ p.y = d.y / 2) ∧ (∃ p, Contains s p ∧ p.z = d.z / 2) := by
  cases s with
  | sphere r =>
    cases hd
    simp only [Contains, Vec3.diagonal]
    have e : 2 * r / 2 = r := by ring
    rw [e]
    refine ⟨fun p hp => ⟨?_, ?_, ?_⟩, ⟨⟨r, 0, 0⟩, by simp, rfl⟩, ⟨⟨0, r, 0⟩, by simp, rfl⟩, ⟨⟨0, 0, r⟩, by simp, rfl⟩⟩ <;>
      exact abs_le_of_sq_le_sq (by nlinarith [sq_nonneg p.x, sq_nonneg p.y, sq_nonneg p.z]) h0
  | box h =>
    cases hd
    obtain ⟨h1, h2, h3⟩ := h0
    simp only [Contains, Vec3.smul]
    rw [show h.x * 2 / 2 = h.x by ring, show h.y * 2 / 2 = h.y by ring, show h.z * 2 / 2 = h.z by ring]
    exact ⟨fun p hp => hp, ⟨⟨h.x, 0, 0⟩, by simp [abs_of_nonneg, *], rfl⟩, ⟨⟨0, h.y, 0⟩, by simp [abs_of_nonneg, *], rfl⟩,
      ⟨⟨0, 0, h.z⟩, by simp [abs_of_nonneg, *], rfl⟩⟩
  | cylinder r h =>
    cases hd
    obtain ⟨h1, h2⟩ := h0
    simp only [Contains]
    rw [show 2 * r / 2 = r by ring]
    have hh : 0 ≤ h / 2 := by linarith
    refine ⟨fun p hp => ⟨?_, hp.2, ?_⟩, ⟨⟨r, 0, 0⟩, by simp [hh], rfl⟩, ⟨⟨0, h / 2, 0⟩, by simp [abs_of_nonneg hh, sq_nonneg], rfl⟩,
      ⟨⟨0, 0, r⟩, by simp [hh], rfl⟩⟩ <;>
      exact abs_le_of_sq_le_sq (by nlinarith [hp.1, sq_nonneg p.x, sq_nonneg p.z]) h1
  | capsule r h => exact h0.elim
  | cone r h => exact h0.elim
  | plane n => exact h0.elim

/-- **C64 is violated by capsules**: they reach beyond the height that is reported, by their radius on either side. -/
theorem C64_extent_violated (r h : ℝ) (hr : 0 < r) (hh : 0 ≤ h) : ∃ d p, (Shape.capsule r h).dim = .ok d ∧ Contains (.capsule r h) p ∧
    p.y = d.y / 2 + r := by
  refine ⟨_, ⟨0, h / 2 + r, 0⟩, rfl, ⟨h / 2, ?_, ?_⟩, rfl⟩
  · rw [abs_of_nonneg (by linarith)]
  · simp

end Xo.Geom
