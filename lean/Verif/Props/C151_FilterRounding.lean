import Verif.Model.FilterFl
import Verif.Model.Filter
import Verif.Lemmas.LongSum
import Verif.Props.C144_Norm
import Mathlib.Analysis.Complex.Norm

/-!
C151: the digital filter with rounded numbers stays bounded and close to the exact filter for inputs of any length.
-/
namespace Xo.FiltFl
open Num (Fl Fmt binary32 binary64)
open Ieee Norm LongSum
open Ieee.Spec (OfType)
open Norm.Spec (FloatOrDouble)

namespace Spec

/-- A filter of second order with finite coefficients. -/
structure Coefficients where
  b0 : Fl
  b1 : Fl
  b2 : Fl
  a1 : Fl
  a2 : Fl

/-- The filter with rounding and the exact one. -/
def Coefficients.rounded (c : Coefficients) : Iir := Iir.make c.b0 [c.b1, c.b2] [c.a1, c.a2]
def Coefficients.exact (c : Coefficients) : Filt.Iir Rat := Filt.Iir.make (val c.b0) [val c.b1, val c.b2] [val c.a1, val c.a2]

/-- The coefficients are finite, and the poles of the filter have a distance from zero of no more than `r`. -/
def Coefficients.Stable (c : Coefficients) (r : ℝ) : Prop :=
  (Ieee.Spec.Finite c.b0 ∧ Ieee.Spec.Finite c.b1 ∧ Ieee.Spec.Finite c.b2 ∧ Ieee.Spec.Finite c.a1 ∧ Ieee.Spec.Finite c.a2) ∧
    ∃ p q : ℂ, ‖p‖ ≤ r ∧ ‖q‖ ≤ r ∧ ((val c.a1 : ℝ) : ℂ) = p + q ∧ ((val c.a2 : ℝ) : ℂ) = -(p * q)

/-- The sum of the magnitudes of the coefficients of the input. -/
def Coefficients.gain (c : Coefficients) : ℝ := |(val c.b0 : ℝ)| + |(val c.b1 : ℝ)| + |(val c.b2 : ℝ)|

end Spec
open Spec

/-! ### Recurrences -/

/-- What holds of two values of a recurrence one after the other. -/
def Inv (p : ℂ) (r ε y1 y2 : ℝ) : Prop := ‖(y1 : ℂ) - p * y2‖ ≤ ε / (1 - r) ∧ |y1| ≤ ε / (1 - r) ^ 2 ∧ |y2| ≤ ε / (1 - r) ^ 2

theorem inv_zero {p : ℂ} {r ε : ℝ} (hr1 : r < 1) (hε : 0 ≤ ε) : Inv p r ε 0 0 := by
  have h : 0 < 1 - r := by linarith
  refine ⟨?_, ?_, ?_⟩ <;> simp <;> positivity

theorem inv_step {p q : ℂ} {r ε a1 a2 y0 y1 y2 d : ℝ} (hr1 : r < 1) (hp : ‖p‖ ≤ r) (hq : ‖q‖ ≤ r) (ha1 : (a1 : ℂ) = p + q) (ha2 : (a2 : ℂ) = -(p * q)) (h : Inv p r ε y1 y2) (hd : |d| ≤ ε)
    (hy : y0 = a1 * y1 + a2 * y2 + d) : Inv p r ε y0 y1 := by
  obtain ⟨h1, h2, h3⟩ := h
  have r0 : 0 ≤ r := (norm_nonneg p).trans hp
  have g : 0 < 1 - r := by linarith
  have e : (y0 : ℂ) - p * y1 = q * (y1 - p * y2) + d := by
    rw [hy]
    push_cast
    rw [ha1, ha2]
    ring
  have k1 : ‖(y0 : ℂ) - p * y1‖ ≤ ε / (1 - r) := by
    rw [e]
    refine (norm_add_le _ _).trans ?_
    rw [norm_mul, Complex.norm_real, Real.norm_eq_abs]
    have := mul_le_mul hq h1 (norm_nonneg _) r0
    have e2 : r * (ε / (1 - r)) + ε = ε / (1 - r) := by field_simp; ring
    linarith
  refine ⟨k1, ?_, h2⟩
  have k2 : |y0| ≤ ‖(y0 : ℂ) - p * y1‖ + ‖p‖ * |y1| := by
    have := norm_add_le ((y0 : ℂ) - p * y1) (p * y1)
    rw [sub_add_cancel, norm_mul, Complex.norm_real, Complex.norm_real, Real.norm_eq_abs, Real.norm_eq_abs] at this
    exact this
  have k3 := mul_le_mul hp h2 (abs_nonneg _) r0
  have e3 : ε / (1 - r) + r * (ε / (1 - r) ^ 2) = ε / (1 - r) ^ 2 := by field_simp; ring
  linarith

/-! ### One call -/

/-- A sum of two numbers with errors. -/
theorem add_err {f : Fmt} (w : Wide f) {a b : Fl} {x y A B c d d' : Rat} (ha : Fine f a) (hb : Fine f b) (hA : |x| ≤ A) (hB : |y| ≤ B) (c0 : 0 ≤ c) (c4 : c ≤ 4) (d0 : 0 ≤ d) (d0' : 0 ≤ d') (d4 : d + d' ≤ 6)
    (h1 : |val a - x| ≤ c * un f * A + d * et f) (h2 : |val b - y| ≤ c * un f * B + d' * et f) (hM : 4 * (A + B) + 4 ≤ 2 ^ f.emax) :
    Fine f (add f a b) ∧ |val (add f a b) - (x + y)| ≤ (c + 101 / 100) * un f * (A + B) + (d + d' + 1 / 100) * et f := by
  have u0 := un_pos f
  have u1 := un_le w
  have e0 := et_pos f
  have e1 : et f ≤ 1 / 100 := (et_le w).trans ((pow_le_pow_left₀ u0.le u1 5).trans (by norm_num))
  norm_num at u1
  have A0 : 0 ≤ A := (abs_nonneg _).trans hA
  have B0 : 0 ≤ B := (abs_nonneg _).trans hB
  have cu : c * un f ≤ 1 / 1000 := by nlinarith
  have hs : |val a + val b| ≤ (A + B) + (c * un f * (A + B) + (d + d') * et f) := by
    have e : val a + val b = (x + y) + ((val a - x) + (val b - y)) := by ring
    rw [e]
    refine (abs_add_le _ _).trans (add_le_add ((abs_add_le _ _).trans (add_le_add hA hB)) ((abs_add_le _ _).trans ?_))
    linarith
  have k1 : c * un f * (A + B) ≤ 1 / 1000 * (A + B) := mul_le_mul_of_nonneg_right cu (by linarith)
  have k2 : (d + d') * et f ≤ 6 * et f := mul_le_mul_of_nonneg_right d4 e0.le
  have k3 : (d + d') * et f ≤ 6 / 100 := by linarith
  obtain ⟨f1, f2⟩ := add_fine w ha hb hs (by linarith)
  refine ⟨f1, ?_⟩
  have e : val (add f a b) - (x + y) = (val (add f a b) - (val a + val b)) + ((val a - x) + (val b - y)) := by ring
  rw [e]
  refine (abs_add_le _ _).trans ((add_le_add f2 ((abs_add_le _ _).trans (add_le_add h1 h2))).trans ?_)
  have k4 : un f * (c * un f * (A + B)) ≤ un f * (1 / 1000 * (A + B)) := mul_le_mul_of_nonneg_left k1 u0.le
  have k5 : un f * ((d + d') * et f) ≤ un f * (6 * et f) := mul_le_mul_of_nonneg_left k2 u0.le
  have k6 : un f * (6 * et f) ≤ 1 / 1000 * (6 * et f) := mul_le_mul_of_nonneg_right (by linarith) (by positivity)
  have k7 : 0 ≤ un f * (A + B) := by positivity
  nlinarith

theorem mul_err {f : Fmt} (w : Wide f) {a b : Fl} {M : Rat} (ha : Ieee.Spec.Finite a) (hb : Ieee.Spec.Finite b) (hB : |val a * val b| ≤ M) (hM : 4 * M + 4 ≤ 2 ^ f.emax) :
    Fine f (mul f a b) ∧ |val (mul f a b) - val a * val b| ≤ 1 * un f * |val a * val b| + 1 * et f := by
  obtain ⟨h1, h2⟩ := mul_fine w ha hb (by linarith [abs_nonneg (val a * val b)])
  exact ⟨h1, by linarith⟩

/-- The new output of a filter of second order against the exact combination of what is stored. -/
theorem call_err {f : Fmt} (w : Wide f) {b0 b1 b2 a1 a2 x x1 x2 y1 y2 : Fl} {S : Rat} (h0 : Ieee.Spec.Finite b0) (h1 : Ieee.Spec.Finite b1) (h2 : Ieee.Spec.Finite b2) (h3 : Ieee.Spec.Finite a1) (h4 : Ieee.Spec.Finite a2)
    (hx : Ieee.Spec.Finite x) (hx1 : Ieee.Spec.Finite x1) (hx2 : Ieee.Spec.Finite x2) (hy1 : Ieee.Spec.Finite y1) (hy2 : Ieee.Spec.Finite y2)
    (hS : |val b0 * val x| + (|val b1 * val x1| + |val a1 * val y1|) + (|val b2 * val x2| + |val a2 * val y2|) ≤ S) (hM : 4 * S + 4 ≤ 2 ^ f.emax) :
    Fine f (add f (add f (mul f b0 x) (add f (mul f b1 x1) (mul f a1 y1))) (add f (mul f b2 x2) (mul f a2 y2))) ∧
      |val (add f (add f (mul f b0 x) (add f (mul f b1 x1) (mul f a1 y1))) (add f (mul f b2 x2) (mul f a2 y2))) -
        (val b0 * val x + (val b1 * val x1 + val a1 * val y1) + (val b2 * val x2 + val a2 * val y2))| ≤ 5 * un f * S + 6 * et f := by
  have u0 := un_pos f
  have e0 := et_pos f
  have p0 := abs_nonneg (val b0 * val x)
  have p1 := abs_nonneg (val b1 * val x1)
  have p2 := abs_nonneg (val a1 * val y1)
  have p3 := abs_nonneg (val b2 * val x2)
  have p4 := abs_nonneg (val a2 * val y2)
  obtain ⟨f0, m0⟩ := mul_err w h0 hx (M := S) (by linarith) hM
  obtain ⟨f1, m1⟩ := mul_err w h1 hx1 (M := S) (by linarith) hM
  obtain ⟨f2, m2⟩ := mul_err w h3 hy1 (M := S) (by linarith) hM
  obtain ⟨f3, m3⟩ := mul_err w h2 hx2 (M := S) (by linarith) hM
  obtain ⟨f4, m4⟩ := mul_err w h4 hy2 (M := S) (by linarith) hM
  have e1 : et f ≤ 1 / 100 := (et_le w).trans ((pow_le_pow_left₀ u0.le (un_le w) 5).trans (by norm_num))
  generalize val b0 * val x = P0 at *
  generalize val b1 * val x1 = P1 at *
  generalize val a1 * val y1 = P2 at *
  generalize val b2 * val x2 = P3 at *
  generalize val a2 * val y2 = P4 at *
  obtain ⟨g1, t1⟩ := add_err w f1 f2 (le_refl _) (le_refl _) (c := 1) (d := 1) (d' := 1) (by norm_num) (by norm_num) (by norm_num) (by norm_num) (by norm_num) m1 m2 (by linarith)
  obtain ⟨g2, t2⟩ := add_err w f3 f4 (le_refl _) (le_refl _) (c := 1) (d := 1) (d' := 1) (by norm_num) (by norm_num) (by norm_num) (by norm_num) (by norm_num) m3 m4 (by linarith)
  have q0 : 0 ≤ un f * |P0| := by positivity
  obtain ⟨g3, t3⟩ := add_err w f0 g1 (A := |P0|) (B := |P1| + |P2|) (c := 1 + 101 / 100) (d := 1) (d' := 1 + 1 + 1 / 100) (le_refl _) (abs_add_le _ _) (by norm_num) (by norm_num) (by norm_num) (by norm_num) (by norm_num)
    (by linarith) t1 (by linarith)
  have q1 : 0 ≤ un f * (|P3| + |P4|) := by positivity
  obtain ⟨g4, t4⟩ := add_err w g3 g2 (A := |P0| + (|P1| + |P2|)) (B := |P3| + |P4|) (c := 1 + 101 / 100 + 101 / 100) (d := 1 + (1 + 1 + 1 / 100) + 1 / 100) (d' := 1 + 1 + 1 / 100)
    ((abs_add_le _ _).trans (add_le_add (le_refl _) (abs_add_le _ _))) (abs_add_le _ _) (by norm_num) (by norm_num) (by norm_num) (by norm_num) (by norm_num)
    t3 (by linarith) (by linarith)
  refine ⟨g4, t4.trans ?_⟩
  have q2 : un f * (|P0| + (|P1| + |P2|) + (|P3| + |P4|)) ≤ un f * S := mul_le_mul_of_nonneg_left hS u0.le
  have q3 : 0 ≤ un f * (|P0| + (|P1| + |P2|) + (|P3| + |P4|)) := by positivity
  linarith

/-! ### Histories -/

/-- The filters in the middle of a history. -/
def Spec.Coefficients.at (c : Coefficients) (x1 x2 y1 y2 : Fl) : Iir := ⟨c.b0, [x1, x2], [y1, y2], [c.b1, c.b2], [c.a1, c.a2]⟩
def Spec.Coefficients.exactAt (c : Coefficients) (x1 x2 z1 z2 : Rat) : Filt.Iir Rat := ⟨val c.b0, [x1, x2], [z1, z2], [val c.b1, val c.b2], [val c.a1, val c.a2]⟩

theorem step_at (f : Fmt) (c : Coefficients) (x1 x2 y1 y2 x : Fl) : (c.at x1 x2 y1 y2).step f x =
    .ok (add f (add f (mul f c.b0 x) (add f (mul f c.b1 x1) (mul f c.a1 y1))) (add f (mul f c.b2 x2) (mul f c.a2 y2)),
      c.at x x1 (add f (add f (mul f c.b0 x) (add f (mul f c.b1 x1) (mul f c.a1 y1))) (add f (mul f c.b2 x2) (mul f c.a2 y2))) y1) := rfl

theorem step_exact (c : Coefficients) (x1 x2 z1 z2 x : Rat) : (c.exactAt x1 x2 z1 z2).step x =
    .ok (val c.b0 * x + (val c.b1 * x1 + val c.a1 * z1) + (val c.b2 * x2 + val c.a2 * z2),
      c.exactAt x x1 (val c.b0 * x + (val c.b1 * x1 + val c.a1 * z1) + (val c.b2 * x2 + val c.a2 * z2)) z1) := rfl

/-- The bound of the output, and the bound of the error of one call. -/
noncomputable def bound (f : Fmt) (c : Coefficients) (r X : ℝ) : ℝ := 2 * (c.gain * X + 6 * 2 ^ f.emin) / (1 - r) ^ 2
noncomputable def callError (f : Fmt) (c : Coefficients) (r X : ℝ) : ℝ := 5 / 2 ^ f.prec * (c.gain * X + 3 * bound f c r X) + 6 * 2 ^ f.emin

theorem gain_nonneg (c : Coefficients) : 0 ≤ c.gain := by
  unfold Coefficients.gain
  positivity

theorem bound_enough {f : Fmt} {c : Coefficients} {r X : ℝ} (hr0 : 0 ≤ r) (hr1 : r < 1) (hX : 0 ≤ X) (hg : 60 / 2 ^ f.prec ≤ (1 - r) ^ 2) :
    0 ≤ callError f c r X ∧ (c.gain * X + callError f c r X) / (1 - r) ^ 2 ≤ bound f c r X ∧
      callError f c r X / (1 - r) ^ 2 ≤ 35 / 2 ^ f.prec * (c.gain * X) / (1 - r) ^ 4 + 10 * 2 ^ f.emin / (1 - r) ^ 2 := by
  have g0 := gain_nonneg c
  have h1 : 0 < 1 - r := by linarith
  have e0 : (0 : ℝ) < 2 ^ f.emin := zpow_pos (by norm_num) _
  have eg : (1 - r) ^ 4 = (1 - r) ^ 2 * (1 - r) ^ 2 := by ring
  have gp : 0 < (1 - r) ^ 2 := by positivity
  have g1 : (1 - r) ^ 2 ≤ 1 := by nlinarith
  have eu : (60 : ℝ) / 2 ^ f.prec = 60 * (1 / 2 ^ f.prec) := by ring
  have eu5 : (5 : ℝ) / 2 ^ f.prec = 5 * (1 / 2 ^ f.prec) := by ring
  have eu35 : (35 : ℝ) / 2 ^ f.prec = 35 * (1 / 2 ^ f.prec) := by ring
  have u0 : (0 : ℝ) < 1 / 2 ^ f.prec := by positivity
  rw [eu] at hg
  have W0 : 0 ≤ c.gain * X := by positivity
  unfold callError bound
  rw [eu5, eu35, eg]
  generalize (1 : ℝ) / 2 ^ f.prec = u at *
  generalize (2 : ℝ) ^ f.emin = e at *
  generalize c.gain * X = W at *
  generalize (1 - r) ^ 2 = g at *
  have k : 5 * u * (W + 3 * (2 * (W + 6 * e) / g)) = 5 * (u * W) + 30 * (u / g) * (W + 6 * e) := by
    field_simp
    ring
  rw [k]
  have ug : u / g ≤ 1 / 60 := by
    rw [div_le_iff₀ gp]
    linarith
  have ug0 : 0 ≤ u / g := by positivity
  have uW : u * W ≤ u / g * W := by
    refine mul_le_mul_of_nonneg_right ?_ W0
    rw [le_div_iff₀ gp]
    nlinarith
  have u1 : u / g * W ≤ 1 / 60 * W := mul_le_mul_of_nonneg_right ug W0
  have u2 : u / g * e ≤ 1 / 60 * e := mul_le_mul_of_nonneg_right ug e0.le
  refine ⟨by positivity, ?_, ?_⟩
  · refine div_le_div_of_nonneg_right ?_ gp.le
    have e1 : 30 * (u / g) * (W + 6 * e) = 30 * (u / g * W) + 180 * (u / g * e) := by ring
    rw [e1]
    linarith
  · have e2 : 35 * u * W / (g * g) + 10 * e / g = (35 * (u / g * W) + 10 * e) / g := by
      field_simp
    rw [e2]
    refine div_le_div_of_nonneg_right ?_ gp.le
    have e1 : 30 * (u / g) * (W + 6 * e) = 30 * (u / g * W) + 180 * (u / g * e) := by ring
    rw [e1]
    linarith

/-- The histories of both filters. -/
theorem histories {f : Fmt} (w : Wide f) (c : Coefficients) {r X : ℝ} {p q : ℂ} (hfin : Ieee.Spec.Finite c.b0 ∧ Ieee.Spec.Finite c.b1 ∧ Ieee.Spec.Finite c.b2 ∧ Ieee.Spec.Finite c.a1 ∧ Ieee.Spec.Finite c.a2)
    (hp : ‖p‖ ≤ r) (hq : ‖q‖ ≤ r) (ha1 : ((val c.a1 : ℝ) : ℂ) = p + q) (ha2 : ((val c.a2 : ℝ) : ℂ) = -(p * q)) (hr1 : r < 1) (hX : 0 ≤ X) (hg : 60 / 2 ^ f.prec ≤ (1 - r) ^ 2)
    (hM : 4 * (c.gain * X + 3 * bound f c r X) + 4 ≤ 2 ^ f.emax) : ∀ (xs : List Fl) (x1 x2 y1 y2 : Fl) (z1 z2 : Rat), (∀ x ∈ xs, Ieee.Spec.Finite x ∧ |(val x : ℝ)| ≤ X) →
      Ieee.Spec.Finite x1 → Ieee.Spec.Finite x2 → Ieee.Spec.Finite y1 → Ieee.Spec.Finite y2 → |(val x1 : ℝ)| ≤ X → |(val x2 : ℝ)| ≤ X →
      Inv p r (c.gain * X + callError f c r X) (val y1 : ℝ) (val y2 : ℝ) → Inv p r (callError f c r X) ((val y1 : ℝ) - z1) ((val y2 : ℝ) - z2) →
      ∃ (ys : List Fl) (zs : List Rat), (c.at x1 x2 y1 y2).run f xs = .ok ys ∧ (c.exactAt (val x1) (val x2) z1 z2).run (xs.map val) = .ok zs ∧
        List.Forall₂ (fun (y : Fl) (z : Rat) => Ieee.Spec.Finite y ∧ |(val y : ℝ)| ≤ bound f c r X ∧ |(val y : ℝ) - (z : ℝ)| ≤ 35 / 2 ^ f.prec * (c.gain * X) / (1 - r) ^ 4 + 10 * 2 ^ f.emin / (1 - r) ^ 2) ys zs
  | [], _, _, _, _, _, _, _, _, _, _, _, _, _, _, _ => ⟨[], [], rfl, rfl, .nil⟩
  | x :: xs, x1, x2, y1, y2, z1, z2, hx, fx1, fx2, fy1, fy2, bx1, bx2, i1, i2 => by
    have r0 : 0 ≤ r := (norm_nonneg p).trans hp
    obtain ⟨c0, c1, c2⟩ := bound_enough (c := c) r0 hr1 hX hg
    obtain ⟨fx, bx⟩ := hx x (by simp)
    obtain ⟨h0, h1, h2, h3, h4⟩ := hfin
    have ba1 : |(val c.a1 : ℝ)| ≤ 2 := by
      have : ‖((val c.a1 : ℝ) : ℂ)‖ ≤ r + r := by
        rw [ha1]
        exact (norm_add_le _ _).trans (add_le_add hp hq)
      rw [Complex.norm_real, Real.norm_eq_abs] at this
      linarith
    have ba2 : |(val c.a2 : ℝ)| ≤ 1 := by
      have : ‖((val c.a2 : ℝ) : ℂ)‖ ≤ r * r := by
        rw [ha2, norm_neg, norm_mul]
        exact mul_le_mul hp hq (norm_nonneg _) r0
      rw [Complex.norm_real, Real.norm_eq_abs] at this
      nlinarith
    have by1 : |(val y1 : ℝ)| ≤ bound f c r X := i1.2.1.trans c1
    have by2 : |(val y2 : ℝ)| ≤ bound f c r X := i1.2.2.trans c1
    have B0 : 0 ≤ bound f c r X := (abs_nonneg _).trans by1
    have sb : |(val c.b0 : ℝ) * val x| + |(val c.b1 : ℝ) * val x1| + |(val c.b2 : ℝ) * val x2| ≤ c.gain * X := by
      unfold Coefficients.gain
      rw [abs_mul, abs_mul, abs_mul]
      have k0 := mul_le_mul_of_nonneg_left bx (abs_nonneg (val c.b0 : ℝ))
      have k1 := mul_le_mul_of_nonneg_left bx1 (abs_nonneg (val c.b1 : ℝ))
      have k2 := mul_le_mul_of_nonneg_left bx2 (abs_nonneg (val c.b2 : ℝ))
      linarith
    have sa : |(val c.a1 : ℝ) * val y1| + |(val c.a2 : ℝ) * val y2| ≤ 3 * bound f c r X := by
      rw [abs_mul, abs_mul]
      have k1 := mul_le_mul ba1 by1 (abs_nonneg _) (by norm_num)
      have k2 := mul_le_mul ba2 by2 (abs_nonneg _) (by norm_num)
      linarith
    have hS : ((|val c.b0 * val x| + (|val c.b1 * val x1| + |val c.a1 * val y1|) + (|val c.b2 * val x2| + |val c.a2 * val y2|) : Rat) : ℝ) ≤ c.gain * X + 3 * bound f c r X := by
      push_cast
      linarith
    obtain ⟨F, E⟩ := call_err w h0 h1 h2 h3 h4 fx fx1 fx2 fy1 fy2 (le_refl _) (by
      have : ((4 * (|val c.b0 * val x| + (|val c.b1 * val x1| + |val c.a1 * val y1|) + (|val c.b2 * val x2| + |val c.a2 * val y2|)) + 4 : Rat) : ℝ) ≤ ((2 ^ f.emax : Rat) : ℝ) := by
        push_cast at hS ⊢
        linarith
      exact Rat.cast_le.1 this)
    generalize hY : add f (add f (mul f c.b0 x) (add f (mul f c.b1 x1) (mul f c.a1 y1))) (add f (mul f c.b2 x2) (mul f c.a2 y2)) = Y at *
    generalize hz : val c.b0 * val x + (val c.b1 * val x1 + val c.a1 * z1) + (val c.b2 * val x2 + val c.a2 * z2) = Z at *
    have E' := (Rat.cast_le (K := ℝ)).2 E
    have eu : ((un f : Rat) : ℝ) = 1 / 2 ^ f.prec := by unfold un; push_cast; rfl
    have ee : ((et f : Rat) : ℝ) = 2 ^ f.emin := by unfold et; push_cast; rfl
    have hd : |(val Y : ℝ) - (val c.b0 * val x + (val c.b1 * val x1 + val c.a1 * val y1) + (val c.b2 * val x2 + val c.a2 * val y2))| ≤ callError f c r X := by
      have l : 5 * (1 / 2 ^ f.prec) * ((|val c.b0 * val x| + (|val c.b1 * val x1| + |val c.a1 * val y1|) + (|val c.b2 * val x2| + |val c.a2 * val y2|) : Rat) : ℝ) ≤
          5 * (1 / 2 ^ f.prec) * (c.gain * X + 3 * bound f c r X) := mul_le_mul_of_nonneg_left hS (by positivity)
      unfold callError
      push_cast at E' l
      rw [eu, ee] at E'
      have e5 : (5 : ℝ) / 2 ^ f.prec = 5 * (1 / 2 ^ f.prec) := by ring
      rw [e5]
      linarith
    have j1 : Inv p r (c.gain * X + callError f c r X) (val Y : ℝ) (val y1 : ℝ) := by
      refine inv_step hr1 hp hq ha1 ha2 i1 (d := (val Y : ℝ) - (val c.a1 * val y1 + val c.a2 * val y2)) ?_ (by ring)
      have e : (val Y : ℝ) - (val c.a1 * val y1 + val c.a2 * val y2) = (val c.b0 * val x + val c.b1 * val x1 + val c.b2 * val x2) +
          ((val Y : ℝ) - (val c.b0 * val x + (val c.b1 * val x1 + val c.a1 * val y1) + (val c.b2 * val x2 + val c.a2 * val y2))) := by ring
      rw [e]
      exact (abs_add_le _ _).trans (add_le_add ((abs_add_three _ _ _).trans sb) hd)
    have j2 : Inv p r (callError f c r X) ((val Y : ℝ) - Z) ((val y1 : ℝ) - z1) := by
      refine inv_step hr1 hp hq ha1 ha2 i2 (d := (val Y : ℝ) - (val c.b0 * val x + (val c.b1 * val x1 + val c.a1 * val y1) + (val c.b2 * val x2 + val c.a2 * val y2))) hd ?_
      rw [← hz]
      push_cast
      ring
    obtain ⟨ys, zs, r1, r2, r3⟩ := histories w c ⟨h0, h1, h2, h3, h4⟩ hp hq ha1 ha2 hr1 hX hg hM xs x x1 Y y1 Z z1 (fun x h => hx x (by simp [h])) fx fx1 F.1 fy1 bx bx1 j1 j2
    refine ⟨Y :: ys, Z :: zs, ?_, ?_, .cons ⟨F.1, j1.2.1.trans c1, j2.2.1.trans c2⟩ r3⟩
    · have s := step_at f c x1 x2 y1 y2 x
      rw [hY] at s
      unfold Iir.run
      rw [s]
      show (Iir.run f (c.at x x1 Y y1) xs).bind _ = _
      rw [r1]
      rfl
    · have s := step_exact c (val x1) (val x2) z1 z2 (val x)
      rw [hz] at s
      rw [List.map_cons]
      unfold Filt.Iir.run
      rw [s]
      show (Filt.Iir.run (c.exactAt (val x) (val x1) Z z1) (xs.map val)).bind _ = _
      rw [r2]
      rfl

/-- For inputs of any length, the output of a stable filter of second order stays finite and bounded, and its difference from the exact filter with the same coefficients does not grow with the
length. -/
theorem C151_filter {f : Fmt} (hf : FloatOrDouble f) (c : Coefficients) (r X : ℝ) (hc : c.Stable r) (hr1 : r < 1) (hg : 60 / 2 ^ f.prec ≤ (1 - r) ^ 2) (hX : 0 ≤ X) (xs : List Fl)
    (hx : ∀ x ∈ xs, Ieee.Spec.Finite x ∧ |(val x : ℝ)| ≤ X) (hM : 4 * (c.gain * X + 3 * (2 * (c.gain * X + 6 * 2 ^ f.emin) / (1 - r) ^ 2)) + 4 ≤ 2 ^ f.emax) :
    ∃ (ys : List Fl) (zs : List Rat), c.rounded.run f xs = .ok ys ∧ c.exact.run (xs.map val) = .ok zs ∧
      List.Forall₂ (fun (y : Fl) (z : Rat) => Ieee.Spec.Finite y ∧ |(val y : ℝ)| ≤ 2 * (c.gain * X + 6 * 2 ^ f.emin) / (1 - r) ^ 2 ∧
        |(val y : ℝ) - (z : ℝ)| ≤ 35 / 2 ^ f.prec * (c.gain * X) / (1 - r) ^ 4 + 10 * 2 ^ f.emin / (1 - r) ^ 2) ys zs := by
  have w : Wide f := by
    rcases hf with rfl | rfl
    · exact wide32
    · exact wide64
  obtain ⟨hfin, p, q, hp, hq, ha1, ha2⟩ := hc
  have r0 : 0 ≤ r := (norm_nonneg p).trans hp
  obtain ⟨c0, _, _⟩ := bound_enough (c := c) r0 hr1 hX hg
  have g0 := mul_nonneg (gain_nonneg c) hX
  have z0 : val (ofNat 0) = 0 := by norm_num [val, ofNat]
  have := histories w c hfin hp hq ha1 ha2 hr1 hX hg hM xs (ofNat 0) (ofNat 0) (ofNat 0) (ofNat 0) 0 0 hx trivial trivial trivial trivial (by rw [z0]; simpa using hX) (by rw [z0]; simpa using hX)
    (by rw [z0]; simpa using inv_zero hr1 (by linarith)) (by rw [z0]; simpa using inv_zero hr1 c0)
  rw [z0] at this
  exact this

/-- Poles that are not real: the last coefficient tells their magnitude. -/
theorem C151_complex_poles (c : Coefficients) (r : ℝ) (hr : 0 ≤ r) (hfin : Ieee.Spec.Finite c.b0 ∧ Ieee.Spec.Finite c.b1 ∧ Ieee.Spec.Finite c.b2 ∧ Ieee.Spec.Finite c.a1 ∧ Ieee.Spec.Finite c.a2)
    (h1 : val c.a1 * val c.a1 + 4 * val c.a2 ≤ 0) (h2 : -(val c.a2 : ℝ) ≤ r ^ 2) : c.Stable r := by
  have h1 : (val c.a1 : ℝ) * val c.a1 + 4 * val c.a2 ≤ 0 := by
    have := (Rat.cast_le (K := ℝ)).2 h1
    push_cast at this
    exact this
  generalize hA : (val c.a1 : ℝ) = A at *
  generalize hB : (val c.a2 : ℝ) = B at *
  have hs : Real.sqrt (-(A * A + 4 * B)) * Real.sqrt (-(A * A + 4 * B)) = -(A * A + 4 * B) := Real.mul_self_sqrt (by linarith)
  have hn : ∀ t : ℝ, t * t = -(A * A + 4 * B) → ‖(⟨A / 2, t / 2⟩ : ℂ)‖ ≤ r := by
    intro t ht
    refine abs_le_of_sq_le_sq' ?_ hr |>.2
    rw [← Complex.normSq_eq_norm_sq, Complex.normSq_mk]
    nlinarith
  generalize Real.sqrt (-(A * A + 4 * B)) = t at hs
  refine ⟨hfin, ⟨A / 2, t / 2⟩, ⟨A / 2, -t / 2⟩, hn _ hs, hn _ (by rw [neg_mul_neg]; exact hs), ?_, ?_⟩
  · rw [hA]
    apply Complex.ext <;> simp
    ring
  · rw [hB]
    apply Complex.ext <;> simp
    · nlinarith
    · ring

/-! ### A filter that does not come to rest -/

/-- A filter with the poles three quarters and zero. -/
def slow : Coefficients := ⟨ofNat 1, ofNat 0, ofNat 0, .fin false (3 / 4), ofNat 0⟩

theorem shift_length : ∀ (i : Nat) (l : List Fl), (shift i l).length = l.length
  | 0, _ => rfl
  | i + 1, l => by rw [shift, shift_length i]; simp

theorem shift_get : ∀ (i : Nat) (l : List Fl), i < l.length → ∀ j : Nat, (shift i l)[j]? = if 1 ≤ j ∧ j ≤ i then l[j - 1]? else l[j]?
  | 0, l, _, j => by rw [if_neg (by omega)]; rfl
  | i + 1, l, h, j => by
    rw [shift, shift_get i _ (by simp; omega) j]
    by_cases h1 : 1 ≤ j ∧ j ≤ i
    · rw [if_pos h1, if_pos ⟨h1.1, by omega⟩, List.getElem?_set_ne (by omega)]
    · rw [if_neg h1]
      by_cases h2 : j = i + 1
      · subst h2
        rw [if_pos ⟨by omega, le_rfl⟩, List.getElem?_set_self h, Nat.add_sub_cancel, List.getD_eq_getElem?_getD, List.getElem?_eq_getElem (by omega)]
        rfl
      · rw [if_neg (by omega), List.getElem?_set_ne (by omega)]

theorem shift_push {l : List Fl} (h : l ≠ []) (x : Fl) : (shift (l.length - 1) l).set 0 x = x :: l.dropLast := by
  have hl := List.length_pos_iff.2 h
  refine List.ext_getElem? fun j => ?_
  rcases j with _ | j
  · rw [List.getElem?_set_self (by rw [shift_length]; exact hl)]; rfl
  · rw [List.getElem?_set_ne (by omega), shift_get _ _ (by omega), List.getElem?_cons_succ, List.getElem?_dropLast]
    by_cases hj : j < l.length - 1
    · rw [if_pos (by omega), if_pos hj]; rfl
    · rw [if_neg (by omega), if_neg hj, List.getElem?_eq_none (by omega)]

theorem accumulate_eq (f : Fmt) (s : Iir) (acc : Fl) : ∀ n : Nat, s.accumulate f n acc = (List.range n).foldl (fun acc k =>
    add f acc (add f (mul f (s.b.getD k (ofNat 0)) (s.x.getD k (ofNat 0))) (mul f (s.a.getD k (ofNat 0)) (s.y.getD k (ofNat 0))))) acc
  | 0 => rfl
  | n + 1 => by rw [List.range_succ, List.foldl_append, ← accumulate_eq f s acc n]; rfl

/-- **C151, filters of any order:** the output is `b₀ x` and then, for each remembered pair of input and output, `b x + a y`, added from the newest to the oldest. Afterwards the filter remembers
as many inputs and outputs as before, the newest first. A filter of order zero writes outside its arrays. -/
theorem C151_memory (f : Fmt) (s : Iir) (x : Fl) (hy : s.y.length = s.x.length) :
    (s.x = [] → s.step f x = .ub) ∧
    (s.x ≠ [] → ∃ y, y = (List.range s.x.length).foldl (fun acc k =>
        add f acc (add f (mul f (s.b.getD k (ofNat 0)) (s.x.getD k (ofNat 0))) (mul f (s.a.getD k (ofNat 0)) (s.y.getD k (ofNat 0))))) (mul f s.b0 x) ∧
      s.step f x = .ok (y, { s with x := x :: s.x.dropLast, y := y :: s.y.dropLast })) := by
  constructor
  · intro h
    unfold Iir.step
    simp [h]
  · intro h
    refine ⟨_, rfl, ?_⟩
    rw [← accumulate_eq]
    unfold Iir.step
    dsimp only
    rw [if_neg (by simpa using h)]
    have hy' : s.y ≠ [] := by
      rw [← List.length_pos_iff] at h ⊢
      omega
    have e := shift_push hy' (s.accumulate f s.x.length (mul f s.b0 x))
    rw [hy] at e
    rw [shift_push h, e]

/-- A filter of order three. -/
example (s : Iir) (hx : s.x = [ofNat 1, ofNat 2, ofNat 3]) (hy : s.y = [ofNat 4, ofNat 5, ofNat 6]) :
    ∃ y s', s.step binary64 (ofNat 7) = .ok (y, s') ∧ s'.x = [ofNat 7, ofNat 1, ofNat 2] ∧ s'.y = [y, ofNat 4, ofNat 5] := by
  obtain ⟨y, -, h⟩ := (C151_memory binary64 s (ofNat 7) (by rw [hx, hy]; rfl)).2 (by rw [hx]; simp)
  exact ⟨y, _, h, by simp [hx], by simp [hy]⟩

theorem slow_stable : slow.Stable (3 / 4) := by
  refine ⟨⟨trivial, trivial, trivial, trivial, trivial⟩, 3 / 4, 0, ?_, ?_, ?_, ?_⟩
  · norm_num
  · norm_num
  · norm_num [slow, val]
  · norm_num [slow, val, ofNat]

/-- The smallest number of `float`. -/
def least : Fl := .fin false (2 ^ binary32.emin)

theorem slow_zeros : ∀ (n : Nat), (slow.at (ofNat 0) (ofNat 0) least least).run binary32 (List.replicate n (ofNat 0)) = .ok (List.replicate n least)
  | 0 => rfl
  | n + 1 => by
    have s : (slow.at (ofNat 0) (ofNat 0) least least).step binary32 (ofNat 0) = .ok (least, slow.at (ofNat 0) (ofNat 0) least least) := by decide +kernel
    rw [List.replicate_succ]
    unfold Iir.run
    rw [s]
    show (Iir.run binary32 (slow.at (ofNat 0) (ofNat 0) least least) (List.replicate n (ofNat 0))).bind _ = _
    rw [slow_zeros n]
    rfl

/-- A stable filter whose input has ended need not come to rest: with rounding the output stays at the smallest number for ever, although that of the exact filter goes to zero. -/
theorem C151_rest_violated (n : Nat) : slow.rounded.run binary32 (least :: ofNat 0 :: ofNat 0 :: List.replicate n (ofNat 0)) = .ok (least :: least :: least :: List.replicate n least) := by
  have s1 : slow.rounded.step binary32 least = .ok (least, slow.at least (ofNat 0) least (ofNat 0)) := by decide +kernel
  have s2 : (slow.at least (ofNat 0) least (ofNat 0)).step binary32 (ofNat 0) = .ok (least, slow.at (ofNat 0) least least least) := by decide +kernel
  have s3 : (slow.at (ofNat 0) least least least).step binary32 (ofNat 0) = .ok (least, slow.at (ofNat 0) (ofNat 0) least least) := by decide +kernel
  simp only [Iir.run, s1, s2, s3, Res.bind_ok, slow_zeros]
  rfl

/-! ### A concrete case -/

/-- The low-pass filter for a tenth of the sampling rate, with coefficients of four digits. -/
def lowpass : Coefficients :=
  ⟨ofRat binary64 false (675 / 10000), ofRat binary64 false (1349 / 10000), ofRat binary64 false (675 / 10000), ofRat binary64 false (11430 / 10000), ofRat binary64 false (-(4128 / 10000))⟩

theorem finite_of {a : Fl} (h : (match a with | .fin _ _ => true | _ => false) = true) : Ieee.Spec.Finite a := by
  cases a with
  | nan => cases h
  | inf => cases h
  | fin => trivial

/-- Any number of inputs of up to a thousand: the output is below fifty thousand and correct to nine digits behind the point. -/
example (xs : List Fl) (hx : ∀ x ∈ xs, Ieee.Spec.Finite x ∧ |(val x : ℝ)| ≤ 1000) : ∃ (ys : List Fl) (zs : List Rat), lowpass.rounded.run binary64 xs = .ok ys ∧ lowpass.exact.run (xs.map val) = .ok zs ∧
    List.Forall₂ (fun (y : Fl) (z : Rat) => |(val y : ℝ) - (z : ℝ)| ≤ 1 / 10 ^ 9) ys zs := by
  have v0 : |val lowpass.b0| ≤ 1 / 10 ∧ |val lowpass.b1| ≤ 1 / 5 ∧ |val lowpass.b2| ≤ 1 / 10 := by unfold lowpass; decide +kernel
  have va : val lowpass.a1 * val lowpass.a1 + 4 * val lowpass.a2 ≤ 0 ∧ -val lowpass.a2 ≤ 4225 / 10000 := by unfold lowpass; decide +kernel
  have hst : lowpass.Stable (65 / 100) := by
    refine C151_complex_poles _ _ (by norm_num) ⟨?_, ?_, ?_, ?_, ?_⟩ va.1 ?_
    · exact finite_of (by unfold lowpass; decide +kernel)
    · exact finite_of (by unfold lowpass; decide +kernel)
    · exact finite_of (by unfold lowpass; decide +kernel)
    · exact finite_of (by unfold lowpass; decide +kernel)
    · exact finite_of (by unfold lowpass; decide +kernel)
    · have := (Rat.cast_le (K := ℝ)).2 va.2
      push_cast at this
      norm_num at this ⊢
      exact this
  have hgain : lowpass.gain ≤ 2 / 5 := by
    have k0 := (Rat.cast_le (K := ℝ)).2 v0.1
    have k1 := (Rat.cast_le (K := ℝ)).2 v0.2.1
    have k2 := (Rat.cast_le (K := ℝ)).2 v0.2.2
    push_cast at k0 k1 k2
    unfold Coefficients.gain
    linarith
  have he : (2 : ℝ) ^ binary64.emin ≤ 1 / 10 ^ 12 := by
    have : (2 : ℝ) ^ binary64.emin ≤ 2 ^ (-50 : Int) := zpow_le_zpow_right₀ (by norm_num) (by decide)
    exact this.trans (by norm_num)
  have he0 : (0 : ℝ) < 2 ^ binary64.emin := zpow_pos (by norm_num) _
  have hE : (10 : ℝ) ^ 9 ≤ 2 ^ binary64.emax := by
    have : (2 : ℝ) ^ (30 : Int) ≤ 2 ^ binary64.emax := zpow_le_zpow_right₀ (by norm_num) (by decide)
    exact le_trans (by norm_num) this
  have g0 := gain_nonneg lowpass
  have hW : lowpass.gain * 1000 ≤ 400 := by linarith
  have e2 : ((1 : ℝ) - 65 / 100) ^ 2 = 49 / 400 := by norm_num
  have e4 : ((1 : ℝ) - 65 / 100) ^ 4 = 2401 / 160000 := by norm_num
  obtain ⟨ys, zs, h1, h2, h3⟩ := C151_filter (.inr rfl) lowpass (65 / 100) 1000 hst (by norm_num) (by rw [e2]; norm_num [binary64]) (by norm_num) xs hx (by
    rw [e2]
    refine le_trans ?_ hE
    linarith)
  refine ⟨ys, zs, h1, h2, h3.imp fun y z h => h.2.2.trans ?_⟩
  rw [e2, e4]
  have ep : (35 : ℝ) / 2 ^ binary64.prec = 35 / 2 ^ 53 := rfl
  rw [ep]
  linarith

end Xo.FiltFl
