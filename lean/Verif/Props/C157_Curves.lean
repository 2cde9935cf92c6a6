import Verif.Model.CurvesFl
import Verif.Props.C131_Accuracy
import Verif.Props.C154_Samples
import Verif.Props.C96_Curves

/-!
C157: the minimum-jerk curve and the fast arc cosine, with rounding.
-/
namespace Xo.CurveFl
open Num (Fl Fmt binary32 binary64)
open Ieee Norm LongSum
open Ieee.Spec (OfType num IsNan)
open Norm.Spec (FloatOrDouble)
open LongSum.Spec

namespace Spec

/-- The exact minimum-jerk curve. -/
def jerk (x : Rat) : Rat := 6 * x ^ 5 - 15 * x ^ 4 + 10 * x ^ 3

end Spec
open Spec

/-- One product after another: `p` is near `P`, and the rounded `k · p` is near `k · P`. -/
theorem step_arith {u η k p P q X A B : Rat} (u0 : 0 < u) (u1 : u ≤ 1 / 2 ^ 24) (η0 : 0 < η) (A0 : 0 ≤ A) (A1 : A ≤ 1000) (B0 : 0 ≤ B) (k0 : 0 ≤ k) (X0 : 0 ≤ X) (P0 : 0 ≤ P) (hP : P ≤ X)
    (hp : |p - P| ≤ A * u * X + B * η) (hq : |q - k * p| ≤ u * |k * p| + η) : |q - k * P| ≤ (A + 1 + 1 / 100) * u * (k * X) + (k * B + 1 + k * B / 1000) * η := by
  norm_num at u1
  have hkp : |k * p - k * P| ≤ k * (A * u * X + B * η) := by
    rw [← mul_sub, abs_mul, abs_of_nonneg k0]
    exact mul_le_mul_of_nonneg_left hp k0
  have hm : |k * p| ≤ k * X + k * (A * u * X + B * η) := by
    have h1 : |k * p| ≤ |k * P| + |k * p - k * P| := by
      have := abs_add_le (k * P) (k * p - k * P)
      rwa [add_sub_cancel] at this
    rw [abs_of_nonneg (mul_nonneg k0 P0)] at h1
    have := mul_le_mul_of_nonneg_left hP k0
    linarith
  have ht : |q - k * P| ≤ |q - k * p| + |k * p - k * P| := abs_sub_le q (k * p) (k * P)
  have hu : u * |k * p| ≤ u * (k * X + k * (A * u * X + B * η)) := mul_le_mul_of_nonneg_left hm u0.le
  have uX : 0 ≤ u * (k * X) := by positivity
  have h1 : (A * u) * (u * (k * X)) ≤ 1 / 100 * (u * (k * X)) := by
    refine mul_le_mul_of_nonneg_right ?_ uX
    have := mul_le_mul A1 u1 u0.le (by norm_num)
    linarith
  have h2 : u * (k * (B * η)) ≤ k * B / 1000 * η := by
    have : 0 ≤ k * B * η := by positivity
    nlinarith [mul_le_mul_of_nonneg_right u1 this]
  nlinarith [h1, h2, hu, ht, hq, hkp]

theorem small_nat {f : Fmt} (w : Wide f) {n : Nat} (h : n < 16) : Fine f (ofNat n) ∧ val (ofNat n) = n := by
  have hp := w.ok.prec
  refine ⟨⟨trivial, n, 0, ?_, ?_, ?_, by simp⟩, by simp [val, ofNat]⟩
  · have : (2 : Nat) ^ 24 ≤ 2 ^ f.prec := Nat.pow_le_pow_right (by norm_num) hp
    omega
  · have := w.small; omega
  · obtain ⟨k, h1, h2, h3⟩ := w.half
    omega

theorem mul_near {f : Fmt} (w : Wide f) {k p : Fl} (hk : Fine f k) (hp : Fine f p) {K P X A B : Rat} (A0 : 0 ≤ A) (A1 : A ≤ 1000) (B0 : 0 ≤ B) (B1 : B ≤ 1000) (eK : val k = K) (k0 : 0 ≤ K) (k1 : K ≤ 15)
    (X0 : 0 ≤ X) (X1 : X ≤ 1) (P0 : 0 ≤ P) (hP : P ≤ X) (h : |val p - P| ≤ A * un f * X + B * et f) :
    (Fine f (mul f k p) ∧ |val (mul f k p) - K * P| ≤ (A + 1 + 1 / 100) * un f * (K * X) + (K * B + 1 + K * B / 1000) * et f) ∧
    (Fine f (mul f p k) ∧ |val (mul f p k) - K * P| ≤ (A + 1 + 1 / 100) * un f * (K * X) + (K * B + 1 + K * B / 1000) * et f) := by
  subst eK
  have u0 := un_pos f
  have u1 := un_le w
  have e0 := et_pos f
  have e2 : et f ≤ 1 / 2 ^ 24 := (et_le w).trans ((pow_le_pow_left₀ u0.le u1 5).trans (by norm_num))
  have u1' := u1
  norm_num at u1' e2
  have hs : |val p| ≤ 2 := by
    have h1 : A * un f * X ≤ 1000 * (1 / 16777216) * 1 := mul_le_mul (mul_le_mul A1 u1' u0.le (by norm_num)) X1 X0 (by norm_num)
    have h2 : B * et f ≤ 1000 * (1 / 16777216) := mul_le_mul B1 e2 e0.le (by norm_num)
    have h3 := abs_add_le P (val p - P)
    rw [add_sub_cancel, abs_of_nonneg P0] at h3
    linarith
  have hb : |val k * val p| ≤ 30 := by
    rw [abs_mul, abs_of_nonneg k0]
    have := mul_le_mul k1 hs (abs_nonneg _) (by norm_num)
    linarith
  have hbig := one_le w
  constructor
  · obtain ⟨f1, f2⟩ := mul_fine w hk.1 hp.1 (by norm_num at hbig; linarith)
    exact ⟨f1, step_arith u0 u1 e0 A0 A1 B0 k0 X0 P0 hP h f2⟩
  · obtain ⟨f1, f2⟩ := mul_fine w hp.1 hk.1 (by rw [mul_comm (val p)]; norm_num at hbig; linarith)
    rw [mul_comm (val p)] at f2
    exact ⟨f1, step_arith u0 u1 e0 A0 A1 B0 k0 X0 P0 hP h f2⟩

theorem end_arith {u η x3 x4 x5 a b c s r : Rat} (u0 : 0 < u) (u1 : u ≤ 1 / 2 ^ 24) (η0 : 0 < η) (h5 : 0 ≤ x5) (h54 : x5 ≤ x4) (h43 : x4 ≤ x3)
    (ha : |a - 6 * x5| ≤ 5.04 * u * (6 * x5) + 26 * η) (hb : |b - 15 * x4| ≤ 4.04 * u * (15 * x4) + 48 * η) (hc : |c - 10 * x3| ≤ 3.04 * u * (10 * x3) + 23 * η)
    (hs : |s - (a - b)| ≤ u * |a - b|) (hr : |r - (s + c)| ≤ u * |s + c|) : |r - (6 * x5 - 15 * x4 + 10 * x3)| ≤ 150 * u * x3 + 100 * η ∧ |a - b| ≤ 16 * x3 + 80 * η ∧ |s + c| ≤ 26 * x3 + 110 * η := by
  norm_num at u1
  have m5 : u * x5 ≤ u * x3 := mul_le_mul_of_nonneg_left (h54.trans h43) u0.le
  have m4 : u * x4 ≤ u * x3 := mul_le_mul_of_nonneg_left h43 u0.le
  have p5 : 0 ≤ u * x5 := mul_nonneg u0.le h5
  have x30 : 0 ≤ x3 := by linarith
  have m3 : u * x3 ≤ 1 / 16777216 * x3 := mul_le_mul_of_nonneg_right u1 x30
  have me : u * η ≤ 1 / 16777216 * η := mul_le_mul_of_nonneg_right u1 η0.le
  have d : |(a - b) - (6 * x5 - 15 * x4)| ≤ 92 * (u * x3) + 74 * η := by
    rw [abs_le] at ha hb ⊢
    constructor <;> linarith [ha.1, ha.2, hb.1, hb.2]
  have d1 : |a - b| ≤ 15.01 * x3 + 74 * η := by
    rw [abs_le] at d ⊢
    constructor <;> linarith [d.1, d.2]
  have d2 : u * |a - b| ≤ 15.02 * (u * x3) + η := by
    have := mul_le_mul_of_nonneg_left d1 u0.le
    nlinarith [mul_nonneg u0.le x30]
  have d3 : |s + c - (6 * x5 - 15 * x4 + 10 * x3)| ≤ 138.5 * (u * x3) + 98 * η := by
    rw [abs_le] at hs d hc ⊢
    constructor <;> linarith [hs.1, hs.2, d.1, d.2, hc.1, hc.2]
  have d4 : |s + c| ≤ 10.1 * x3 + 98 * η := by
    rw [abs_le] at d3 ⊢
    constructor <;> linarith [d3.1, d3.2]
  have d5 : u * |s + c| ≤ 10.2 * (u * x3) + η := by
    have := mul_le_mul_of_nonneg_left d4 u0.le
    nlinarith [mul_nonneg u0.le x30]
  refine ⟨?_, by linarith, by linarith⟩
  rw [abs_le] at hr d3 ⊢
  constructor <;> linarith [hr.1, hr.2, d3.1, d3.2]

/-- **C157, the minimum-jerk curve.** From 0 to 1 the result is finite and within 150 roundings of the exact curve, relative to the cube of the argument, but for the numbers next to zero. -/
theorem C157_jerk_partial {f : Fmt} (hf : FloatOrDouble f) (x : Fl) (hx : Ieee.Spec.Finite x ∧ OfType f x) (x0 : 0 ≤ val x) (x1 : val x ≤ 1) :
    Ieee.Spec.Finite (minimumJerk f x) ∧ |val (minimumJerk f x) - jerk (val x)| ≤ 150 * roundoff f * val x ^ 3 + 100 * tiny f := by
  have w := wide_of hf
  have u0 := un_pos f
  have u1 := un_le w
  have e0 := et_pos f
  have e2 : et f ≤ 1 / 2 ^ 24 := (et_le w).trans ((pow_le_pow_left₀ u0.le u1 5).trans (by norm_num))
  have fx : Fine f x := hx
  have hbig := one_le w
  norm_num at hbig e2
  set X := val x with hX
  have p2 : 0 ≤ X ^ 2 := by positivity
  have p3 : 0 ≤ X ^ 3 := by positivity
  have p4 : 0 ≤ X ^ 4 := by positivity
  have p5 : 0 ≤ X ^ 5 := by positivity
  have q2 : X ^ 2 ≤ 1 := pow_le_one₀ x0 x1
  have q3 : X ^ 3 ≤ 1 := pow_le_one₀ x0 x1
  have q4 : X ^ 4 ≤ 1 := pow_le_one₀ x0 x1
  have q5 : X ^ 5 ≤ 1 := pow_le_one₀ x0 x1
  have q43 : X ^ 4 ≤ X ^ 3 := pow_le_pow_of_le_one x0 x1 (by norm_num)
  have q54 : X ^ 5 ≤ X ^ 4 := pow_le_pow_of_le_one x0 x1 (by norm_num)
  have hu : ∀ {c d : Rat} (n : Nat), c ≤ d → c * un f * X ^ n ≤ d * un f * X ^ n := fun n h =>
    mul_le_mul_of_nonneg_right (mul_le_mul_of_nonneg_right h u0.le) (pow_nonneg x0 n)
  have he : ∀ {B C : Rat}, 0 ≤ B → B + 1 + B / 1000 ≤ C → (X * B + 1 + X * B / 1000) * et f ≤ C * et f := fun {B C} h0 h => by
    refine mul_le_mul_of_nonneg_right ?_ e0.le
    have := mul_le_mul_of_nonneg_right x1 h0
    linarith
  obtain ⟨f2, h2⟩ := mul_fine w fx.1 fx.1 (by rw [← hX, ← pow_two, abs_of_nonneg p2]; linarith)
  rw [← hX, ← pow_two, abs_of_nonneg p2] at h2
  obtain ⟨f3, h3⟩ := (mul_near w (A := 1) (B := 1) fx f2 (by norm_num) (by norm_num) (by norm_num) (by norm_num) hX.symm x0 (by linarith) p2 q2 p2 le_rfl (by linarith)).2
  rw [show X * X ^ 2 = X ^ 3 by ring] at h3
  replace h3 := h3.trans (add_le_add (hu (d := 2.01) 3 (by norm_num)) (he (C := 2.1) (by norm_num) (by norm_num)))
  obtain ⟨f4, h4⟩ := (mul_near w fx f3 (by norm_num) (by norm_num) (by norm_num) (by norm_num) hX.symm x0 (by linarith) p3 q3 p3 le_rfl h3).2
  rw [show X * X ^ 3 = X ^ 4 by ring] at h4
  replace h4 := h4.trans (add_le_add (hu (d := 3.02) 4 (by norm_num)) (he (C := 3.11) (by norm_num) (by norm_num)))
  obtain ⟨f5, h5⟩ := (mul_near w fx f4 (by norm_num) (by norm_num) (by norm_num) (by norm_num) hX.symm x0 (by linarith) p4 q4 p4 le_rfl h4).2
  rw [show X * X ^ 4 = X ^ 5 by ring] at h5
  replace h5 := h5.trans (add_le_add (hu (d := 4.03) 5 (by norm_num)) (he (C := 4.12) (by norm_num) (by norm_num)))
  obtain ⟨n6, v6⟩ := small_nat w (n := 6) (by norm_num)
  obtain ⟨n15, v15⟩ := small_nat w (n := 15) (by norm_num)
  obtain ⟨n10, v10⟩ := small_nat w (n := 10) (by norm_num)
  obtain ⟨g6, k6⟩ := (mul_near w n6 f5 (by norm_num) (by norm_num) (by norm_num) (by norm_num) v6 (by norm_num) (by norm_num) p5 q5 p5 le_rfl h5).1
  obtain ⟨g15, k15⟩ := (mul_near w n15 f4 (by norm_num) (by norm_num) (by norm_num) (by norm_num) v15 (by norm_num) (by norm_num) p4 q4 p4 le_rfl h4).1
  obtain ⟨g10, k10⟩ := (mul_near w n10 f3 (by norm_num) (by norm_num) (by norm_num) (by norm_num) v10 (by norm_num) (by norm_num) p3 q3 p3 le_rfl h3).1
  have u1' := u1
  norm_num at u1' k6 k15 k10
  have r3 : un f * X ^ 3 ≤ 1 / 16777216 := (mul_le_mul u1' q3 p3 (by norm_num)).trans (by norm_num)
  have r4 : un f * X ^ 4 ≤ 1 / 16777216 := (mul_le_mul u1' q4 p4 (by norm_num)).trans (by norm_num)
  have r5 : un f * X ^ 5 ≤ 1 / 16777216 := (mul_le_mul u1' q5 p5 (by norm_num)).trans (by norm_num)
  have z3 : 0 ≤ un f * X ^ 3 := mul_nonneg u0.le p3
  have z4 : 0 ≤ un f * X ^ 4 := mul_nonneg u0.le p4
  have z5 : 0 ≤ un f * X ^ 5 := mul_nonneg u0.le p5
  have k6' : |val (mul f (ofNat 6) (mul f (mul f (mul f (mul f x x) x) x) x)) - 6 * X ^ 5| ≤ 5.04 * un f * (6 * X ^ 5) + 26 * et f := k6.trans (by norm_num; linarith)
  have k15' : |val (mul f (ofNat 15) (mul f (mul f (mul f x x) x) x)) - 15 * X ^ 4| ≤ 4.04 * un f * (15 * X ^ 4) + 48 * et f := k15.trans (by norm_num; linarith)
  have k10' : |val (mul f (ofNat 10) (mul f (mul f x x) x)) - 10 * X ^ 3| ≤ 3.04 * un f * (10 * X ^ 3) + 23 * et f := k10.trans (by norm_num; linarith)
  have bab : |val (mul f (ofNat 6) (mul f (mul f (mul f (mul f x x) x) x) x)) - val (mul f (ofNat 15) (mul f (mul f (mul f x x) x) x))| ≤ 30 := by
    rw [abs_le] at k6' k15' ⊢
    constructor <;> linarith [k6'.1, k6'.2, k15'.1, k15'.2]
  obtain ⟨gs, hs⟩ := sub_fine w g6 g15 (by linarith)
  have bs : |val (sub f (mul f (ofNat 6) (mul f (mul f (mul f (mul f x x) x) x) x)) (mul f (ofNat 15) (mul f (mul f (mul f x x) x) x))) + val (mul f (ofNat 10) (mul f (mul f x x) x))| ≤ 60 := by
    have := mul_le_mul u1' bab (abs_nonneg _) (by norm_num)
    have hs' := hs
    rw [abs_le] at hs' bab k10' ⊢
    constructor <;> linarith [hs'.1, hs'.2, k10'.1, k10'.2, bab.1, bab.2]
  obtain ⟨gr, hr⟩ := add_fine w gs g10 le_rfl (by linarith)
  exact ⟨gr.1, (end_arith u0 u1 e0 p5 q54 q43 k6' k15' k10' hs hr).1⟩

theorem jerk_low {x : Rat} (x0 : 0 ≤ x) (x1 : x ≤ 1) : x ^ 3 ≤ jerk x ∧ jerk x ≤ 1 := by
  unfold jerk
  constructor
  · have : 6 * x ^ 5 - 15 * x ^ 4 + 10 * x ^ 3 - x ^ 3 = x ^ 3 * ((1 - x) * (9 - 6 * x)) := by ring
    have := mul_nonneg (pow_nonneg x0 3) (mul_nonneg (sub_nonneg.2 x1) (by linarith : (0 : Rat) ≤ 9 - 6 * x))
    linarith
  · have : 1 - (6 * x ^ 5 - 15 * x ^ 4 + 10 * x ^ 3) = (1 - x) ^ 3 * (6 * x ^ 2 + 3 * x + 1) := by ring
    have := mul_nonneg (pow_nonneg (sub_nonneg.2 x1) 3) (by positivity : (0 : Rat) ≤ 6 * x ^ 2 + 3 * x + 1)
    linarith

/-- **C157, the range of the minimum-jerk curve, in part:** it is positive when the cube of the argument is well above the smallest number of the type, and at most 1 but for 150 roundings. -/
theorem C157_jerk_range_partial {f : Fmt} (hf : FloatOrDouble f) (x : Fl) (hx : Ieee.Spec.Finite x ∧ OfType f x) (x0 : 0 ≤ val x) (x1 : val x ≤ 1) :
    (200 * tiny f ≤ val x ^ 3 → 0 < val (minimumJerk f x)) ∧ val (minimumJerk f x) ≤ 1 + 150 * roundoff f + 100 * tiny f := by
  have h := (C157_jerk_partial hf x hx x0 x1).2
  have w := wide_of hf
  have u0 := un_pos f
  have u1 := un_le w
  have e0 := et_pos f
  norm_num at u1
  change _ ≤ 150 * un f * _ + 100 * et f at h
  change (200 * et f ≤ _ → _) ∧ _ ≤ 1 + 150 * un f + 100 * et f
  obtain ⟨j0, j1⟩ := jerk_low x0 x1
  have c0 : 0 ≤ val x ^ 3 := pow_nonneg x0 3
  have c1 : val x ^ 3 ≤ 1 := pow_le_one₀ x0 x1
  have a1 := mul_le_mul_of_nonneg_right u1 c0
  have a2 := mul_le_mul_of_nonneg_left c1 u0.le
  rw [abs_le] at h
  constructor
  · intro ht
    linarith [h.1]
  · linarith [h.2]

/-- **C157, the ends of the minimum-jerk curve** are exact. -/
theorem C157_jerk_ends {f : Fmt} (hf : FloatOrDouble f) : minimumJerk f (ofNat 0) = ofNat 0 ∧ minimumJerk f (ofNat 1) = ofNat 1 := by
  rcases hf with rfl | rfl <;> decide +kernel

/-- **C157 is violated** next to 1: the curve gives more than 1 there, and then falls. -/
theorem C157_jerk_violated : lt (ofNat 1) (minimumJerk binary32 (.fin false (16777211 / 16777216))) = true ∧
    lt (minimumJerk binary32 (.fin false (16777212 / 16777216))) (minimumJerk binary32 (.fin false (16777211 / 16777216))) = true := by
  decide +kernel

/-! ### The fast arc cosine -/

theorem mul_abs {f : Fmt} (w : Wide f) {a b : Fl} (ha : Fine f a) (hb : Fine f b) {A B α β P Q : Rat} (h1 : |val a - A| ≤ α * un f) (h2 : |val b - B| ≤ β * un f) (hA : |A| ≤ P) (hB : |B| ≤ Q)
    (α1 : α ≤ 10) (β1 : β ≤ 10) (P1 : P ≤ 2) (Q1 : Q ≤ 2) : Fine f (mul f a b) ∧ |val (mul f a b) - A * B| ≤ (α * Q + P * β + P * Q + 1 / 100) * un f := by
  have u0 := un_pos f
  have u1 := un_le w
  have e0 := et_pos f
  have hbig := one_le w
  have e2 : et f ≤ 1 / 1000 * un f := by
    have := et_le w
    have h5 : un f ^ 5 ≤ 1 / 1000 * un f := by
      have : un f ^ 5 = un f ^ 4 * un f := by ring
      rw [this]
      refine mul_le_mul_of_nonneg_right ((pow_le_pow_left₀ u0.le u1 4).trans (by norm_num)) u0.le
    linarith
  norm_num at u1 hbig
  have α0 : 0 ≤ α := by by_contra h; have := mul_neg_of_neg_of_pos (not_le.1 h) u0; linarith [abs_nonneg (val a - A)]
  have β0 : 0 ≤ β := by by_contra h; have := mul_neg_of_neg_of_pos (not_le.1 h) u0; linarith [abs_nonneg (val b - B)]
  have P0 := (abs_nonneg A).trans hA
  have Q0 := (abs_nonneg B).trans hB
  have αu : α * un f ≤ 10 * (1 / 16777216) := mul_le_mul α1 u1 u0.le (by norm_num)
  have βu : β * un f ≤ 10 * (1 / 16777216) := mul_le_mul β1 u1 u0.le (by norm_num)
  have hb' : |val b| ≤ Q + β * un f := by
    have := abs_add_le B (val b - B)
    rw [add_sub_cancel] at this
    linarith
  have d : |val a * val b - A * B| ≤ α * un f * (Q + β * un f) + P * (β * un f) := by
    have e : val a * val b - A * B = (val a - A) * val b + A * (val b - B) := by ring
    rw [e]
    refine (abs_add_le _ _).trans (add_le_add ?_ ?_) <;> rw [abs_mul]
    · exact mul_le_mul h1 hb' (abs_nonneg _) ((abs_nonneg _).trans h1)
    · exact mul_le_mul hA h2 (abs_nonneg _) P0
  have t1 : α * un f * (β * un f) ≤ 1 / 1000 * un f := by
    have : α * (β * un f) ≤ 10 * (10 * (1 / 16777216)) := mul_le_mul α1 βu (mul_nonneg β0 u0.le) (by norm_num)
    have := mul_le_mul_of_nonneg_right this u0.le
    linarith
  have t2 : α * Q ≤ 20 := (mul_le_mul α1 Q1 Q0 (by norm_num)).trans (by norm_num)
  have t3 : P * β ≤ 20 := (mul_le_mul P1 β1 β0 (by norm_num)).trans (by norm_num)
  have t4 : P * Q ≤ 4 := (mul_le_mul P1 Q1 Q0 (by norm_num)).trans (by norm_num)
  have t2' := mul_le_mul_of_nonneg_right t2 u0.le
  have t3' := mul_le_mul_of_nonneg_right t3 u0.le
  have m : |val a * val b| ≤ P * Q + 41 * un f := by
    have h := abs_add_le (A * B) (val a * val b - A * B)
    rw [add_sub_cancel, abs_mul A B] at h
    have := mul_le_mul hA hB (abs_nonneg _) P0
    linarith
  obtain ⟨g, h⟩ := mul_fine w ha.1 hb.1 (by rw [abs_mul] at m ⊢; linarith)
  refine ⟨g, ?_⟩
  have hm := mul_le_mul_of_nonneg_left m u0.le
  have uu : un f * (41 * un f) ≤ 1 / 1000 * un f := by
    have := mul_le_mul_of_nonneg_right u1 u0.le
    linarith
  have := abs_sub_le (val (mul f a b)) (val a * val b) (A * B)
  linarith

theorem add_abs {f : Fmt} (w : Wide f) {a b : Fl} (ha : Fine f a) (hb : Fine f b) {A B α β M : Rat} (h1 : |val a - A| ≤ α * un f) (h2 : |val b - B| ≤ β * un f) (hM : |A + B| ≤ M)
    (α1 : α ≤ 10) (β1 : β ≤ 10) (M1 : M ≤ 2) : Fine f (add f a b) ∧ |val (add f a b) - (A + B)| ≤ (α + β + M + 1 / 100) * un f := by
  have u0 := un_pos f
  have u1 := un_le w
  have hbig := one_le w
  norm_num at u1 hbig
  have d : |val a + val b - (A + B)| ≤ (α + β) * un f := by
    rw [show val a + val b - (A + B) = (val a - A) + (val b - B) by ring]
    refine (abs_add_le _ _).trans ?_
    linarith
  have m : |val a + val b| ≤ M + 20 * un f := by
    have h := abs_add_le (A + B) (val a + val b - (A + B))
    rw [add_sub_cancel] at h
    have := mul_le_mul_of_nonneg_right (add_le_add α1 β1) u0.le
    linarith
  obtain ⟨g, h⟩ := add_fine w ha hb m (by linarith)
  refine ⟨g, ?_⟩
  have uu : un f * (20 * un f) ≤ 1 / 100 * un f := by
    have := mul_le_mul_of_nonneg_right u1 u0.le
    linarith
  have := abs_sub_le (val (add f a b)) (val a + val b) (A + B)
  linarith

theorem lit_ok {f : Fmt} (hf : FloatOrDouble f) : ∀ l ∈ [(-939115566365855 / 10 ^ 15 : Rat), 9217841528914573 / 10 ^ 16, -12845906244690837 / 10 ^ 16, 295624144969963174 / 10 ^ 18],
    Fine f (lit f l) ∧ |val (lit f l) - l| ≤ 1 * un f := by
  have fin : ∀ a : Fl, (match a with | .fin _ _ => true | _ => false) = true → Ieee.Spec.Finite a := fun a h => by
    cases a <;> first | exact trivial | cases h
  have w := wide_of hf
  intro l hl
  refine ⟨⟨fin _ ?_, ofRat_ofType w.1 _ _⟩, ?_⟩
  · revert l
    rcases hf with rfl | rfl <;> decide +kernel
  · revert l
    rcases hf with rfl | rfl <;> decide +kernel

/-- The exact numerator and denominator. -/
theorem exact_bounds {x : Rat} (h : |x| ≤ 1) : |(-939115566365855 / 10 ^ 15 : Rat) * x + 9217841528914573 / 10 ^ 16 * (x * x * x)| ≤ 1 ∧
    |1 + (-12845906244690837 / 10 ^ 16 : Rat) * (x * x)| ≤ 1 ∧ 0.011 ≤ 1 + (-12845906244690837 / 10 ^ 16 : Rat) * (x * x) + 295624144969963174 / 10 ^ 18 * (x * x * x) * x ∧
    1 + (-12845906244690837 / 10 ^ 16 : Rat) * (x * x) + 295624144969963174 / 10 ^ 18 * (x * x * x) * x ≤ 1 := by
  have hx := abs_le.1 h
  have s0 : 0 ≤ x * x := mul_self_nonneg x
  have s1 : x * x ≤ 1 := by nlinarith
  refine ⟨?_, ?_, ?_, ?_⟩
  · have e : (-939115566365855 / 10 ^ 15 : Rat) * x + 9217841528914573 / 10 ^ 16 * (x * x * x) = x * (-939115566365855 / 10 ^ 15 + 9217841528914573 / 10 ^ 16 * (x * x)) := by ring
    rw [e, abs_mul]
    have : |(-939115566365855 / 10 ^ 15 : Rat) + 9217841528914573 / 10 ^ 16 * (x * x)| ≤ 1 := by
      rw [abs_le]
      constructor <;> linarith
    exact (mul_le_mul h this (abs_nonneg _) (by norm_num)).trans (by norm_num)
  · rw [abs_le]
    constructor <;> linarith
  · nlinarith
  · nlinarith

/-- The rounded numerator and denominator. -/
theorem parts {f : Fmt} (hf : FloatOrDouble f) {x : Fl} (fx : Fine f x) (h : |val x| ≤ 1) : ∃ n d : Fl, fastAcos f x = add f (halfPi f) (div f n d) ∧ Fine f n ∧ Fine f d ∧
    |val n - (-939115566365855 / 10 ^ 15 * val x + 9217841528914573 / 10 ^ 16 * (val x * val x * val x))| ≤ 7 * un f ∧
    |val d - (1 + (-12845906244690837 / 10 ^ 16) * (val x * val x) + 295624144969963174 / 10 ^ 18 * (val x * val x * val x) * val x)| ≤ 8 * un f := by
  have w := wide_of hf
  have u0 := un_pos f
  obtain ⟨E1, E2, E3, E4⟩ := exact_bounds h
  obtain ⟨fa, ea⟩ := lit_ok hf (-939115566365855 / 10 ^ 15) (by simp)
  obtain ⟨fb, eb⟩ := lit_ok hf (9217841528914573 / 10 ^ 16) (by simp)
  obtain ⟨fc, ec⟩ := lit_ok hf (-12845906244690837 / 10 ^ 16) (by simp)
  obtain ⟨fd, ed⟩ := lit_ok hf (295624144969963174 / 10 ^ 18) (by simp)
  obtain ⟨f1, v1⟩ := small_nat w (n := 1) (by norm_num)
  have ex : |val x - val x| ≤ 0 * un f := by simp
  have e1 : |val (ofNat 1) - 1| ≤ 0 * un f := by rw [v1]; simp
  have h2 : |val x * val x| ≤ 1 := by rw [abs_mul]; exact (mul_le_mul h h (abs_nonneg _) (by norm_num)).trans (by norm_num)
  have h3 : |val x * val x * val x| ≤ 1 := by rw [abs_mul (val x * val x)]; exact (mul_le_mul h2 h (abs_nonneg _) (by norm_num)).trans (by norm_num)
  have ha : |(-939115566365855 / 10 ^ 15 : Rat)| ≤ 0.94 := by rw [abs_le]; norm_num
  have hb : |(9217841528914573 / 10 ^ 16 : Rat)| ≤ 0.93 := by rw [abs_le]; norm_num
  have hc : |(-12845906244690837 / 10 ^ 16 : Rat)| ≤ 1.29 := by rw [abs_le]; norm_num
  have hd : |(295624144969963174 / 10 ^ 18 : Rat)| ≤ 0.3 := by rw [abs_le]; norm_num
  have hd3 : |(295624144969963174 / 10 ^ 18 : Rat) * (val x * val x * val x)| ≤ 0.3 := by
    rw [abs_mul]; exact (mul_le_mul hd h3 (abs_nonneg _) (by norm_num)).trans (by norm_num)
  have up : ∀ {c d z : Rat}, z ≤ c * un f → c ≤ d → z ≤ d * un f := fun hz hcd => hz.trans (mul_le_mul_of_nonneg_right hcd u0.le)
  obtain ⟨g1, k1⟩ := mul_abs w fa fx ea ex ha h (by norm_num) (by norm_num) (by norm_num) (by norm_num)
  obtain ⟨g2, k2⟩ := mul_abs w fx fx ex ex h h (by norm_num) (by norm_num) (by norm_num) (by norm_num)
  obtain ⟨g3, k3⟩ := mul_abs w fc g2 ec k2 hc h2 (by norm_num) (by norm_num) (by norm_num) (by norm_num)
  obtain ⟨g4, k4⟩ := add_abs w f1 g3 e1 k3 E2 (by norm_num) (by norm_num) (by norm_num)
  obtain ⟨g5, k5⟩ := mul_abs w g2 fx k2 ex h2 h (by norm_num) (by norm_num) (by norm_num) (by norm_num)
  obtain ⟨g6, k6⟩ := mul_abs w fb g5 eb k5 hb h3 (by norm_num) (by norm_num) (by norm_num) (by norm_num)
  obtain ⟨g7, k7⟩ := add_abs w g1 g6 k1 k6 E1 (by norm_num) (by norm_num) (by norm_num)
  obtain ⟨g8, k8⟩ := mul_abs w fd g5 ed k5 hd h3 (by norm_num) (by norm_num) (by norm_num) (by norm_num)
  obtain ⟨g9, k9⟩ := mul_abs w g8 fx k8 ex hd3 h (by norm_num) (by norm_num) (by norm_num) (by norm_num)
  obtain ⟨g10, k10⟩ := add_abs w g4 g9 k4 k9 (M := 1) (by rw [abs_le]; constructor <;> linarith) (by norm_num) (by norm_num) (by norm_num)
  exact ⟨_, _, rfl, g7, g10, up k7 (by norm_num), up k10 (by norm_num)⟩

theorem half_pi_ok {f : Fmt} (hf : FloatOrDouble f) : Fine f (halfPi f) ∧ |(val (halfPi f) : ℝ) - Real.pi / 2| ≤ 2 * (un f : ℝ) := by
  have w := wide_of hf
  have fin : ∀ a : Fl, (match a with | .fin _ _ => true | _ => false) = true → Ieee.Spec.Finite a := fun a h => by
    cases a <;> first | exact trivial | cases h
  have h1 : |val (halfPi f) - 3141592653589793238 / 10 ^ 18 / 2| ≤ un f := by rcases hf with rfl | rfl <;> decide +kernel
  refine ⟨⟨fin _ (by rcases hf with rfl | rfl <;> decide +kernel), mul_ofType w.1 _ _⟩, ?_⟩
  have h2 : |(val (halfPi f) : ℝ) - 3141592653589793238 / 10 ^ 18 / 2| ≤ (un f : ℝ) := by
    have := (Rat.cast_le (K := ℝ)).2 h1
    push_cast at this
    exact this
  have h3 : (1 / 10 ^ 17 : Rat) ≤ un f := by rcases hf with rfl | rfl <;> decide +kernel
  have h4 : (1 / 10 ^ 17 : ℝ) ≤ (un f : ℝ) := by
    have := (Rat.cast_le (K := ℝ)).2 h3
    push_cast at this
    exact this
  have p1 := Real.pi_gt_d20
  have p2 := Real.pi_lt_d20
  rw [abs_le] at h2 ⊢
  norm_num at h2 h4 p1 p2 ⊢
  constructor <;> linarith [h2.1, h2.2]

theorem quotient_arith {u η n d n' d' q' : ℝ} (u0 : 0 < u) (u1 : u ≤ 1 / 2 ^ 24) (η0 : 0 < η) (η1 : η ≤ u) (hd : 0.011 ≤ d) (hq : |n / d| ≤ 1.58) (h1 : |n' - n| ≤ 7 * u) (h2 : |d' - d| ≤ 8 * u)
    (h3 : |q' - n' / d'| ≤ u * |n' / d'| + η) : |q' - n / d| ≤ 1900 * u := by
  norm_num at u1
  have d0 : 0 < d := by linarith
  have hd' : 0.0109 ≤ d' := by linarith [(abs_le.1 h2).1]
  have d0' : 0 < d' := by linarith
  have e : n' / d' - n / d = ((n' - n) - n / d * (d' - d)) / d' := by field_simp; ring
  have h4 : |n' / d' - n / d| ≤ 1810 * u := by
    rw [e, abs_div, abs_of_pos d0', div_le_iff₀ d0']
    have h5 : |(n' - n) - n / d * (d' - d)| ≤ 7 * u + 1.58 * (8 * u) := by
      refine (abs_sub _ _).trans (add_le_add h1 ?_)
      rw [abs_mul]
      exact mul_le_mul hq h2 (abs_nonneg _) (by norm_num)
    have := mul_le_mul_of_nonneg_left hd' u0.le
    linarith
  have h6 : |n' / d'| ≤ 2 := by
    have := abs_add_le (n / d) (n' / d' - n / d)
    rw [add_sub_cancel] at this
    linarith
  have h7 := mul_le_mul_of_nonneg_left h6 u0.le
  have := abs_sub_le q' (n' / d') (n / d)
  linarith

/-- **C157, the fast arc cosine.** For every number of the type from -1 to 1 the result is finite and within 0.017 and two thousand roundings of the arc cosine, less than one degree. -/
theorem C157_acos {f : Fmt} (hf : FloatOrDouble f) (x : Fl) (hx : Ieee.Spec.Finite x ∧ OfType f x) (x0 : -1 ≤ val x) (x1 : val x ≤ 1) :
    Ieee.Spec.Finite (fastAcos f x) ∧ |(val (fastAcos f x) : ℝ) - Real.arccos (val x : ℝ)| ≤ 0.017 + 2000 * (roundoff f : ℝ) ∧ 0.017 + 2000 * (roundoff f : ℝ) < Real.pi / 180 := by
  have w := wide_of hf
  have u0 := un_pos f
  have u1 := un_le w
  have e0 := et_pos f
  have hbig := one_le w
  have e1 : et f ≤ un f := by
    have := et_le w
    have h5 : un f ^ 5 ≤ un f := pow_le_of_le_one u0.le (u1.trans (by norm_num)) (by norm_num)
    linarith
  have hR : |val x| ≤ 1 := abs_le.2 ⟨x0, x1⟩
  obtain ⟨n, d, e, fn, fd, hn, hd⟩ := parts hf hx hR
  obtain ⟨E1, E2, E3, E4⟩ := exact_bounds hR
  obtain ⟨fh, hh⟩ := half_pi_ok hf
  set N := -939115566365855 / 10 ^ 15 * val x + 9217841528914573 / 10 ^ 16 * (val x * val x * val x) with hN
  set D := 1 + (-12845906244690837 / 10 ^ 16) * (val x * val x) + 295624144969963174 / 10 ^ 18 * (val x * val x * val x) * val x with hD
  have u1' := u1
  norm_num at u1' hbig
  have bd : 0.0109 ≤ val d := by linarith [(abs_le.1 hd).1]
  have bn : |val n| ≤ 2 := by
    have := abs_add_le N (val n - N)
    rw [add_sub_cancel] at this
    linarith
  have bq : |val n / val d| ≤ 200 := by
    rw [abs_div, abs_of_pos (show 0 < val d by linarith), div_le_iff₀ (by linarith)]
    linarith
  obtain ⟨fq, hq⟩ := div_fine w fn.1 fd.1 (by linarith) (by linarith)
  have gq : Fine f (div f n d) := ⟨fq, div_ofType w.1 _ _⟩
  have x0' : (-1 : ℝ) ≤ (val x : ℝ) := by exact_mod_cast x0
  have x1' : (val x : ℝ) ≤ 1 := by exact_mod_cast x1
  obtain ⟨v, hv, hacc, hdeg⟩ := C96_acos_accuracy (val x : ℝ) x0' x1'
  obtain ⟨v', o, hv', ho1, ho2, hlo, hup⟩ := (C96_acos_range (val x : ℝ) x0' x1').2
  have ev := hv.symm.trans (Curves.fastAcos_eq x0' x1')
  have ev' := hv'.symm.trans (Curves.fastAcos_eq x0' x1')
  simp only [Option.some.injEq] at ev ev'
  have eG : (N : ℝ) / (D : ℝ) = -Curves.accG (val x : ℝ) := by
    have : (D : ℝ) = 1 + Curves.accC * (val x : ℝ) ^ 2 + Curves.accD * (val x : ℝ) ^ 4 := by
      rw [hD]; unfold Curves.accC Curves.accD; push_cast; ring
    rw [this]
    have : (N : ℝ) = Curves.accA * (val x : ℝ) + Curves.accB * (val x : ℝ) ^ 3 := by
      rw [hN]; unfold Curves.accA Curves.accB; push_cast; ring
    rw [this]
    unfold Curves.accG
    ring
  have p1 := Real.pi_gt_d6
  have p2 := Real.pi_lt_d6
  have hG : |(N : ℝ) / (D : ℝ)| ≤ 1.58 := by
    rw [eG, abs_le]
    norm_num at p1 p2 hlo hup ⊢
    constructor <;> linarith
  have U0 : (0 : ℝ) < (un f : ℝ) := by exact_mod_cast u0
  have U1 : (un f : ℝ) ≤ 1 / 2 ^ 24 := by
    have := (Rat.cast_le (K := ℝ)).2 u1
    push_cast at this
    exact this
  have q := quotient_arith (u := (un f : ℝ)) (η := (et f : ℝ)) (n := N) (d := D) (n' := val n) (d' := val d) (q' := val (div f n d)) U0 U1 (by exact_mod_cast e0) (by exact_mod_cast e1)
    (by have := (Rat.cast_le (K := ℝ)).2 E3; push_cast at this ⊢; norm_num at this ⊢; exact this) hG (by exact_mod_cast hn) (by exact_mod_cast hd) (by exact_mod_cast hq)
  have hs : |val (halfPi f) + val (div f n d)| ≤ 4 := by
    have : |(val (halfPi f) : ℝ) + (val (div f n d) : ℝ)| ≤ 4 := by
      norm_num at U1
      rw [abs_le] at q hh hG ⊢
      norm_num at p1 p2 q hh hG ⊢
      constructor <;> linarith [q.1, q.2, hh.1, hh.2, hG.1, hG.2]
    exact_mod_cast this
  obtain ⟨fr, hr⟩ := add_fine w fh gq hs (by linarith)
  rw [e]
  have hr' : |(val (add f (halfPi f) (div f n d)) : ℝ) - ((val (halfPi f) : ℝ) + (val (div f n d) : ℝ))| ≤ (un f : ℝ) * 4 := by exact_mod_cast hr
  have er : (roundoff f : ℝ) = (un f : ℝ) := rfl
  refine ⟨fr.1, ?_, ?_⟩
  · rw [er]
    rw [eG] at q
    rw [ev] at hacc
    rw [abs_le] at hr' hh hacc q ⊢
    constructor <;> linarith [hr'.1, hr'.2, q.1, q.2, hh.1, hh.2, hacc.1, hacc.2]
  · rw [er]
    norm_num at U1 p1 ⊢
    linarith

/-- **C157 is violated** next to 1 for `float`: the fast arc cosine of a number below 1 is negative, and less than the one of 1. -/
theorem C157_acos_violated : lt (fastAcos binary32 (.fin false (16777215 / 16777216))) (ofNat 0) = true ∧
    lt (fastAcos binary32 (.fin false (16777215 / 16777216))) (fastAcos binary32 (ofNat 1)) = true := by
  decide +kernel

/-- Halfway; and the theorems speak about the half. -/
example : minimumJerk binary32 (.fin false (1 / 2)) = .fin false (1 / 2) := by decide +kernel

example : |(val (fastAcos binary32 (.fin false (1 / 2))) : ℝ) - Real.arccos ((1 / 2 : Rat) : ℝ)| < Real.pi / 180 := by
  have h := C157_acos (f := binary32) (Or.inl rfl) (.fin false (1 / 2)) ⟨trivial, 1, -1, by decide, by decide, by decide, by norm_num⟩ (by norm_num [val]) (by norm_num [val])
  exact lt_of_le_of_lt h.2.1 h.2.2

example : 0 < val (minimumJerk binary32 (.fin false (1 / 4))) := by
  refine (C157_jerk_range_partial (f := binary32) (Or.inl rfl) (.fin false (1 / 4)) ⟨trivial, 1, -2, by decide, by decide, by decide, by norm_num⟩ (by norm_num [val]) (by norm_num [val])).1 ?_
  unfold tiny
  norm_num [val, binary32]

end Xo.CurveFl
