import Verif.Lemmas.Acos
import Verif.Props.C60_Range
import Mathlib.Algebra.Polynomial.Derivative
import Mathlib.Algebra.Polynomial.Eval.Degree
import Mathlib.Tactic.LinearCombination
import Mathlib.Tactic.ComputeDegree

/-!
C96: the fast arc cosine is within one degree of the arc cosine; the minimum-jerk curve is the curve of degree five that
starts and ends at rest; angles mean the same in degrees and in radians; a function evaluated over a range gives its
values at the points of the range.

The specifications are the arc cosine, sine and number π of Mathlib, and polynomials with their derivatives.
-/
namespace Xo
open Real Set Polynomial Spec

/-! ### The fast arc cosine -/

/-- For every `x` in `[-1, 1]`, `fast_acos( x )` is a number within 0.017 (less than one degree) of the arc cosine. -/
theorem C96_acos_accuracy (x : ℝ) (h0 : -1 ≤ x) (h1 : x ≤ 1) :
    ∃ v, Curves.fastAcos x = some v ∧ |v - arccos x| ≤ 0.017 ∧ (0.017 : ℝ) < π / 180 := by
  refine ⟨_, Curves.fastAcos_eq h0 h1, ?_, by have := pi_gt_d6; norm_num at this ⊢; linarith⟩
  have := Curves.accE_le_all h0 h1
  rwa [arccos, show π / 2 - Curves.accG x - (π / 2 - arcsin x) = Curves.accE x by unfold Curves.accE; ring]

/-- The bound is nearly the best one: at 0.411 the error is more than 0.0165. -/
theorem C96_acos_error : ∃ v, Curves.fastAcos 0.411 = some v ∧ 0.0165 ≤ v - arccos 0.411 := by
  refine ⟨_, Curves.fastAcos_eq (by norm_num) (by norm_num), ?_⟩
  have hp := pi_gt_three
  have hB : (0.4234 : ℝ) ≤ arcsin 0.411 := by
    rw [le_arcsin_iff_sin_le ⟨by linarith, by linarith⟩ ⟨by norm_num, by norm_num⟩]
    have hb := sin_bound (x := 0.4234) (by rw [abs_of_nonneg] <;> norm_num)
    have hu := (abs_le.1 hb).2
    rw [abs_of_nonneg (show (0 : ℝ) ≤ 0.4234 by norm_num)] at hu
    have h2 : (0.4234 : ℝ) - 0.4234 ^ 3 / 6 + 0.4234 ^ 5 / 100 ≤ 0.411 := by norm_num
    linarith
  have hg : Curves.accG 0.411 ≤ 0.4234 - 0.0165 := by
    norm_num [Curves.accG, Curves.accA, Curves.accB, Curves.accC, Curves.accD]
  rw [arccos]
  linarith

/-- A larger cosine has a smaller fast arc cosine. -/
theorem C96_acos_order (x y : ℝ) (h0 : -1 ≤ x) (hxy : x < y) (h1 : y ≤ 1) :
    ∃ v w, Curves.fastAcos x = some v ∧ Curves.fastAcos y = some w ∧ w < v := by
  refine ⟨_, _, Curves.fastAcos_eq h0 (by linarith), Curves.fastAcos_eq (by linarith) h1, ?_⟩
  have key : Curves.accG x < Curves.accG y := by
    rcases le_or_gt 0 x with hx | hx
    · exact Curves.accG_mono ⟨hx, by linarith⟩ ⟨by linarith, h1⟩ hxy
    · rcases le_or_gt y 0 with hy | hy
      · have := Curves.accG_mono (a := -y) (b := -x) ⟨by linarith, by linarith⟩ ⟨by linarith, by linarith⟩ (by linarith)
        rw [Curves.accG_neg, Curves.accG_neg] at this
        linarith
      · have a := Curves.accG_mono (a := 0) (b := -x) ⟨le_refl _, by norm_num⟩ ⟨by linarith, by linarith⟩ (by linarith)
        have b := Curves.accG_mono (a := 0) (b := y) ⟨le_refl _, by norm_num⟩ ⟨by linarith, by linarith⟩ hy
        rw [Curves.accG_neg, Curves.accG_zero] at a
        rw [Curves.accG_zero] at b
        linarith
  linarith

/-- Opposite cosines have supplementary angles. -/
theorem C96_acos_opposite (x : ℝ) (h0 : -1 ≤ x) (h1 : x ≤ 1) :
    ∃ v, Curves.fastAcos x = some v ∧ Curves.fastAcos (-x) = some (π - v) := by
  refine ⟨_, Curves.fastAcos_eq h0 h1, ?_⟩
  rw [Curves.fastAcos_eq (by linarith) (by linarith), Curves.accG_neg]
  congr 1; ring

/-- At 0 it is a right angle; at 1 and -1 it is 0 and π but for 10⁻¹⁴, and it never leaves that range. -/
theorem C96_acos_range (x : ℝ) (h0 : -1 ≤ x) (h1 : x ≤ 1) :
    Curves.fastAcos 0 = some (π / 2) ∧
    ∃ v o, Curves.fastAcos x = some v ∧ Curves.fastAcos 1 = some o ∧ |o| ≤ 1 / 10 ^ 14 ∧
      -1 / 10 ^ 14 ≤ v ∧ v ≤ π + 1 / 10 ^ 14 := by
  have ho : |π / 2 - Curves.accG 1| ≤ 1 / 10 ^ 14 := by
    have := Curves.accE_one
    unfold Curves.accE at this
    rw [arcsin_one] at this
    refine this.trans (by norm_num)
  have hmono : ∀ z : ℝ, 0 ≤ z → z ≤ 1 → 0 ≤ Curves.accG z ∧ Curves.accG z ≤ Curves.accG 1 := by
    intro z hz hz1
    refine ⟨?_, Curves.accG_mono.monotoneOn ⟨hz, hz1⟩ ⟨by norm_num, le_refl _⟩ hz1⟩
    rw [← Curves.accG_zero]
    exact Curves.accG_mono.monotoneOn ⟨le_refl _, by norm_num⟩ ⟨hz, hz1⟩ hz
  have hp := pi_gt_three
  rw [abs_le] at ho
  refine ⟨by rw [Curves.fastAcos_eq (by norm_num) (by norm_num), Curves.accG_zero, sub_zero], _, _,
    Curves.fastAcos_eq h0 h1, Curves.fastAcos_eq (by norm_num) (le_refl _), abs_le.2 ho, ?_, ?_⟩
  · rcases le_total 0 x with h | h
    · have := hmono x h h1
      rw [neg_div]
      linarith [ho.1]
    · have := hmono (-x) (by linarith) (by linarith)
      rw [Curves.accG_neg] at this
      have : (-1 : ℝ) / 10 ^ 14 ≤ 0 := by norm_num
      linarith
  · rcases le_total 0 x with h | h
    · have := hmono x h h1
      have : (0 : ℝ) ≤ 1 / 10 ^ 14 := by norm_num
      linarith
    · have := hmono (-x) (by linarith) (by linarith)
      rw [Curves.accG_neg] at this
      linarith [ho.1]

/-- **Violated beyond 1.** For a cosine slightly beyond 1 (a rounding error, say), the result is no angle between 0 and π:
it is less than -1.6 at 1.007 and more than 92 at 1.008. -/
theorem C96_acos_beyond_violated :
    (∃ v, Curves.fastAcos 1.007 = some v ∧ v < -1.6) ∧ ∃ v, Curves.fastAcos 1.008 = some v ∧ 92 < v := by
  have h1 := pi_lt_d6
  have h2 := pi_gt_three
  norm_num at h1
  constructor
  · unfold Curves.fastAcos
    norm_num
    linarith
  · unfold Curves.fastAcos
    norm_num
    linarith

/-! ### The minimum-jerk curve -/

/-- A polynomial of degree at most five that goes from 0 at 0 to 1 at 1, with no speed and no acceleration at both
ends. -/
structure RestToRest {K : Type} [Field K] (p : K[X]) : Prop where
  degree : p.natDegree ≤ 5
  start : p.eval 0 = 0
  stop : p.eval 1 = 1
  startSpeed : p.derivative.eval 0 = 0
  stopSpeed : p.derivative.eval 1 = 0
  startAcc : p.derivative.derivative.eval 0 = 0
  stopAcc : p.derivative.derivative.eval 1 = 0

/-- The curve is such a polynomial. -/
theorem C96_jerk_rest {K : Type} [Field K] :
    ∃ p : K[X], RestToRest p ∧ ∀ x, Curves.minimumJerk x = p.eval x := by
  refine ⟨C 6 * X ^ 5 - C 15 * X ^ 4 + C 10 * X ^ 3, ⟨?_, ?_, ?_, ?_, ?_, ?_, ?_⟩, ?_⟩
  · compute_degree
  · simp
  · simp; norm_num
  · simp
  · simp; ring
  · simp
  · simp; ring
  · intro x; simp [Curves.minimumJerk]; ring

/-- It is the only one. -/
theorem C96_jerk_only {K : Type} [Field K] [CharZero K] (p : K[X]) (h : RestToRest p) (x : K) :
    Curves.minimumJerk x = p.eval x := by
  have e : p = ∑ i ∈ Finset.range 6, C (p.coeff i) * X ^ i := p.as_sum_range_C_mul_X_pow' (by have := h.degree; omega)
  generalize h0 : p.coeff 0 = c0 at e
  generalize h1 : p.coeff 1 = c1 at e
  generalize h2 : p.coeff 2 = c2 at e
  generalize h3 : p.coeff 3 = c3 at e
  generalize h4 : p.coeff 4 = c4 at e
  generalize h5 : p.coeff 5 = c5 at e
  have e' : p = C c0 + C c1 * X + C c2 * X ^ 2 + C c3 * X ^ 3 + C c4 * X ^ 4 + C c5 * X ^ 5 := by
    rw [e]
    simp [Finset.sum_range_succ, h0, h1, h2, h3, h4, h5]
  have a0 := h.start
  have a1 := h.stop
  have b0 := h.startSpeed
  have b1 := h.stopSpeed
  have d0 := h.startAcc
  have d1 := h.stopAcc
  rw [e'] at a0 a1 b0 b1 d0 d1
  simp at a0 a1 b0 b1 d0 d1
  subst a0 b0 d0
  have s3 : c3 = 10 := by linear_combination 10 * a1 - 4 * b1 + (1 / 2) * d1
  have s4 : c4 = -15 := by linear_combination -15 * a1 + 7 * b1 - d1
  have s5 : c5 = 6 := by linear_combination 6 * a1 - 3 * b1 + (1 / 2) * d1
  rw [e']
  simp [Curves.minimumJerk, s3, s4, s5]
  ring

/-- On `[0, 1]` the curve only rises, and stays between 0 and 1. -/
theorem C96_jerk_rises {K : Type} [Field K] [LinearOrder K] [IsStrictOrderedRing K] (x y : K) (h0 : 0 ≤ x) (hxy : x < y)
    (h1 : y ≤ 1) : Curves.minimumJerk x < Curves.minimumJerk y ∧ 0 ≤ Curves.minimumJerk x ∧
      Curves.minimumJerk y ≤ 1 := by
  have rise : ∀ x y : K, 0 ≤ x → x < y → y ≤ 1 → Curves.minimumJerk x < Curves.minimumJerk y := by
    intro x y h0 hxy h1
    have e : Curves.minimumJerk y - Curves.minimumJerk x = (y - x) * (6 * (y ^ 4 + y ^ 3 * x + y ^ 2 * x ^ 2 + y * x ^ 3
        + x ^ 4) - 15 * (y ^ 3 + y ^ 2 * x + y * x ^ 2 + x ^ 3) + 10 * (y ^ 2 + y * x + x ^ 2)) := by
      unfold Curves.minimumJerk; ring
    have hd : 0 < y - x := sub_pos.2 hxy
    rw [← sub_pos, e]
    refine mul_pos hd ?_
    -- with the middle `m` of the two and half their distance `k`, the factor is `30 (m (1 - m))² + …`
    have key : 6 * (y ^ 4 + y ^ 3 * x + y ^ 2 * x ^ 2 + y * x ^ 3 + x ^ 4) - 15 * (y ^ 3 + y ^ 2 * x + y * x ^ 2 + x ^ 3)
        + 10 * (y ^ 2 + y * x + x ^ 2)
        = (y - x) ^ 4 + 5 * (y - x) ^ 3 * (x + (1 - y)) + 10 * (y - x) ^ 2 * (x ^ 2 + (1 - y) ^ 2)
          + 10 * (y - x) ^ 2 * (2 * x * (1 - y)) + 30 * (x * (1 - y)) * (y - x) * (x + (1 - y))
          + 30 * (x * (1 - y)) ^ 2 := by
      ring
    have hc : 0 ≤ 1 - y := sub_nonneg.2 h1
    rw [key]
    have := pow_pos hd 4
    positivity
  refine ⟨rise x y h0 hxy h1, ?_, ?_⟩
  · rcases h0.eq_or_lt with h | h
    · rw [← h]; simp [Curves.minimumJerk]
    · have := rise 0 x le_rfl h (hxy.le.trans h1)
      simp [Curves.minimumJerk] at this ⊢
      exact this.le
  · rcases h1.eq_or_lt with h | h
    · rw [h]; simp [Curves.minimumJerk]; norm_num
    · have := rise y 1 (h0.trans hxy.le) h le_rfl
      have e1 : Curves.minimumJerk (1 : K) = 1 := by simp [Curves.minimumJerk]; norm_num
      rw [e1] at this; exact this.le

/-- The second half mirrors the first. -/
theorem C96_jerk_mirror {K : Type} [Field K] (x : K) : Curves.minimumJerk (1 - x) = 1 - Curves.minimumJerk x := by
  unfold Curves.minimumJerk; ring

/-! ### Functions over ranges -/

/-- A function over a range of `n + 1` points gives its value at each of the evenly spaced points, in order. -/
theorem C96_evaluate_partial (f : Option Rat → Option Rat) (b e : Rat) (n : Nat) (hn : 1 ≤ n) :
    Ends (fun k => Curves.evaluate f (Range.FRange.ofSteps b e (n + 1)) k)
      (.ok ((List.range (n + 1)).map fun i : Nat => f (some (b + i * ((e - b) / n))))) := by
  obtain ⟨⟨N, hN⟩, -, -⟩ := C60_frange (Range.FRange.ofSteps b e (n + 1)) n (by simp [Range.FRange.ofSteps]) hn
  refine ⟨N, fun k hk => ?_⟩
  have hs : (Range.FRange.ofSteps b e (n + 1)).size = .ok n := by simp [Range.FRange.size, Range.FRange.ofSteps]
  have := hN k hk
  simp only at this
  simp only [Curves.evaluate, hs, this, Option.map_some, Res.bind, arith, List.map_map]
  rfl

/-- The same with the distance of the points given. -/
theorem C96_evaluate_step (f : Option Rat → Option Rat) (b step : Rat) (n : Nat) (hn : 1 ≤ n) (hs : step ≠ 0) :
    Ends (fun k => Curves.evaluateStep f b (b + n * step) step k)
      (.ok ((List.range (n + 1)).map fun i : Nat => f (some (b + i * step)))) := by
  obtain ⟨N, hN⟩ := C60_frange_increment b step n hn hs
  refine ⟨N, fun k hk => ?_⟩
  have hm : (Range.FRange.ofIncrement b (b + n * step) step).maxStep = n := by
    simp only [Range.FRange.ofIncrement]
    have e : (b + n * step - b) / step = (n : Rat) := by field_simp; ring
    rw [e, round_nat]
  have hz : (Range.FRange.ofIncrement b (b + n * step) step).size = .ok n := by simp [Range.FRange.size, hm]
  have := hN k hk
  simp only at this
  simp only [Curves.evaluateStep, Curves.evaluate, hz, this, Option.map_some, Res.bind, arith, List.map_map]
  rfl

/-- **Violated for a step that points the other way.** Instead of giving no values, the evaluation is undefined. -/
theorem C96_evaluate_reversed_violated (f : Option Rat → Option Rat) (b step : Rat) (n k : Nat) (hn : 1 ≤ n)
    (hs : step ≠ 0) : Curves.evaluateStep f b (b - n * step) step k = some .ub := by
  have hm : (Range.FRange.ofIncrement b (b - n * step) step).maxStep = -n := by
    simp only [Range.FRange.ofIncrement]
    have e : (b - n * step - b) / step = -(n : Rat) := by field_simp; ring
    rw [e]
    unfold Range.round
    have h0 : ¬ (0 : Rat) ≤ -(n : Rat) := by
      have : (1 : Rat) ≤ n := by exact_mod_cast hn
      linarith
    have := round_nat n
    unfold Range.round at this
    rw [if_pos (by positivity)] at this
    rw [if_neg h0, neg_neg, this]
  have hz : (Range.FRange.ofIncrement b (b - n * step) step).size = .ub := by
    simp only [Range.FRange.size, hm]
    rw [if_neg (by omega)]
  simp only [Curves.evaluateStep, Curves.evaluate, hz]

/-! ### Angles -/

/-- The measure of an angle in radians, in exact terms. -/
noncomputable def exactRad : {u : Curves.AUnit} → Curves.Angle u → ℝ
  | .degrees, a => π / 180 * a.value
  | .radians, a => a.value

theorem rad_factor : |(0.017453292519943295769 : ℝ) - π / 180| ≤ 1 / 10 ^ 19 * (π / 180) := by
  have h1 := pi_gt_d20
  have h2 := pi_lt_d20
  rw [abs_le]
  norm_num at h1 h2 ⊢
  constructor <;> linarith

theorem deg_factor : |(57.295779513082320877 : ℝ) - 180 / π| ≤ 1 / 10 ^ 19 * (180 / π) := by
  have h1 := pi_gt_d20
  have h2 := pi_lt_d20
  have h0 := pi_pos
  rw [abs_le]
  norm_num at h1 h2 ⊢
  constructor
  · rw [← sub_nonneg, show (57295779513082320877 / 1000000000000000000 + 1 / 10000000000000000000 * (180 / π) - 180 / π)
      = (57295779513082320877 / 1000000000000000000 * π - 180 + 1 / 10000000000000000000 * 180) / π by field_simp; ring]
    refine div_nonneg ?_ h0.le
    linarith
  · rw [show 1 / 10000000000000000000 * (180 / π) = (1 / 10000000000000000000 * 180) / π by ring]
    rw [← sub_nonneg, show ((1 / 10000000000000000000 * 180) / π + 180 / π - 57295779513082320877 / 1000000000000000000)
      = (1 / 10000000000000000000 * 180 + 180 - 57295779513082320877 / 1000000000000000000 * π) / π by field_simp]
    refine div_nonneg ?_ h0.le
    linarith

/-- The radians of an angle are the exact ones but for a relative error of 10⁻¹⁹, and so are the degrees. -/
theorem C96_angle_measure {u : Curves.AUnit} (a : Curves.Angle u) :
    |a.radValue - exactRad a| ≤ 1 / 10 ^ 19 * |exactRad a| ∧
    |a.degValue - 180 / π * exactRad a| ≤ 1 / 10 ^ 19 * |180 / π * exactRad a| := by
  have h0 := pi_pos
  have hp : (0 : ℝ) < π / 180 := by positivity
  have hq : (0 : ℝ) < 180 / π := by positivity
  cases u with
  | degrees =>
    constructor
    · simp only [Curves.Angle.radValue, exactRad]
      rw [← sub_mul, abs_mul, abs_mul, abs_of_pos hp, ← mul_assoc]
      exact mul_le_mul_of_nonneg_right rad_factor (abs_nonneg _)
    · simp only [Curves.Angle.degValue, exactRad]
      rw [show 180 / π * (π / 180 * a.value) = a.value by field_simp]
      simp
  | radians =>
    constructor
    · simp only [Curves.Angle.radValue, exactRad, sub_self, abs_zero]
      positivity
    · simp only [Curves.Angle.degValue, exactRad]
      rw [← sub_mul, abs_mul, abs_mul, abs_of_pos hq, ← mul_assoc]
      exact mul_le_mul_of_nonneg_right deg_factor (abs_nonneg _)

/-- An angle converted to the other unit and back has its first value but for a relative error of 10⁻¹⁹. -/
theorem C96_angle_back {u : Curves.AUnit} (w : Curves.AUnit) (a : Curves.Angle u) :
    |((a.conv w).conv u).value - a.value| ≤ 1 / 10 ^ 19 * |a.value| := by
  have key : ∀ v k : ℝ, |k| ≤ 1 / 10 ^ 19 → |k * v| ≤ 1 / 10 ^ 19 * |v| := fun v k hk => by
    rw [abs_mul]; exact mul_le_mul_of_nonneg_right hk (abs_nonneg _)
  have e : |(57.295779513082320877 : ℝ) * 0.017453292519943295769 - 1| ≤ 1 / 10 ^ 19 := by
    rw [abs_le]; norm_num
  have z : ∀ v : ℝ, |v - v| ≤ 1 / 10 ^ 19 * |v| := fun v => by simp
  cases u <;> cases w <;> simp only [Curves.Angle.conv, Curves.Angle.degValue, Curves.Angle.radValue]
  · exact z _
  · have := key a.value _ e
    rwa [show (57.295779513082320877 * 0.017453292519943295769 - 1) * a.value
      = 57.295779513082320877 * (0.017453292519943295769 * a.value) - a.value by ring] at this
  · have := key a.value _ e
    rwa [show (57.295779513082320877 * 0.017453292519943295769 - 1) * a.value
      = 0.017453292519943295769 * (57.295779513082320877 * a.value) - a.value by ring] at this
  · exact z _

/-- Converting multiplies the value by a positive number. -/
theorem conv_factor (u w : Curves.AUnit) : ∃ k : ℝ, 0 < k ∧ ∀ a : Curves.Angle u, a.conv w = ⟨k * a.value⟩ := by
  cases u <;> cases w
  · exact ⟨1, one_pos, fun a => by simp [Curves.Angle.conv, Curves.Angle.degValue]⟩
  · exact ⟨_, by norm_num, fun a => rfl⟩
  · exact ⟨_, by norm_num, fun a => rfl⟩
  · exact ⟨1, one_pos, fun a => by simp [Curves.Angle.conv, Curves.Angle.radValue]⟩

/-- Converting respects sums, differences, opposites, multiples, quotients, sizes and the order. -/
theorem C96_angle_convert {u : Curves.AUnit} (w : Curves.AUnit) (a b : Curves.Angle u) (s : ℝ) :
    (a.add b).conv w = (a.conv w).add (b.conv w) ∧ (a.sub b).conv w = (a.conv w).sub (b.conv w) ∧
    a.neg.conv w = (a.conv w).neg ∧ (a.smul s).conv w = (a.conv w).smul s ∧ a.abs.conv w = (a.conv w).abs ∧
    (a.lt b ↔ (a.conv w).lt (b.conv w)) ∧ (a.le b ↔ (a.conv w).le (b.conv w)) ∧
    (s ≠ 0 → ∃ q, a.divS s = some q ∧ (a.conv w).divS s = some (q.conv w) ∧ q.smul s = a) := by
  obtain ⟨k, hk, h⟩ := conv_factor u w
  simp only [h, Curves.Angle.add, Curves.Angle.sub, Curves.Angle.neg, Curves.Angle.smul, Curves.Angle.abs,
    Curves.Angle.lt, Curves.Angle.le, Curves.Angle.divS, Curves.Angle.mk.injEq]
  refine ⟨by ring, by ring, by ring, by ring, ?_, (mul_lt_mul_iff_right₀ hk).symm, (mul_le_mul_iff_right₀ hk).symm, ?_⟩
  · by_cases c : a.value < 0
    · rw [if_pos c, if_pos (mul_neg_of_pos_of_neg hk c)]; ring
    · rw [if_neg c, if_neg (not_lt.2 (mul_nonneg hk.le (not_lt.1 c)))]
  · intro hs
    rw [if_neg hs, if_neg hs]
    refine ⟨_, rfl, ?_, ?_⟩
    · congr 2; ring
    · show (⟨s * (a.value / s)⟩ : Curves.Angle u) = a
      rw [mul_div_cancel₀ _ hs]

/-- The size of an angle is the absolute value, and sums and differences are those of the values. -/
theorem C96_angle_values {u : Curves.AUnit} (a b : Curves.Angle u) :
    a.abs.value = |a.value| ∧ (a.add b).value = a.value + b.value ∧ ((a.add b).sub b) = a ∧ (a.add a.neg).value = 0 := by
  refine ⟨?_, rfl, ?_, add_neg_cancel _⟩
  · simp only [Curves.Angle.abs]
    split
    · rw [abs_of_neg (by assumption)]
    · rw [abs_of_nonneg (not_lt.1 (by assumption))]
  · simp [Curves.Angle.add, Curves.Angle.sub]

/-- The sine and the cosine of an angle of any unit are those of its measure, but for 10⁻¹⁹ times the measure. -/
theorem C96_angle_trig {u : Curves.AUnit} (a : Curves.Angle u) :
    |a.sin - Real.sin (exactRad a)| ≤ 1 / 10 ^ 19 * |exactRad a| ∧
    |a.cos - Real.cos (exactRad a)| ≤ 1 / 10 ^ 19 * |exactRad a| ∧ a.sin ^ 2 + a.cos ^ 2 = 1 ∧
    a.tan = a.sin / a.cos ∧ a.neg.sin = -a.sin ∧ a.neg.cos = a.cos := by
  refine ⟨(abs_sin_sub_sin_le _ _).trans (C96_angle_measure a).1, (abs_cos_sub_cos_le _ _).trans (C96_angle_measure a).1,
    sin_sq_add_cos_sq _, Real.tan_eq_sin_div_cos _, ?_, ?_⟩
  · cases u <;> simp [Curves.Angle.sin, Curves.Angle.radValue, Curves.Angle.neg]
  · cases u <;> simp [Curves.Angle.cos, Curves.Angle.radValue, Curves.Angle.neg]

/-- **Violated for products of two angles.** The product of two angles is an angle that depends on the unit: unless one
of them is zero, converting the product and multiplying the converted angles differ. -/
theorem C96_angle_product_violated (a b : Curves.Angle .degrees) (ha : a.value ≠ 0) (hb : b.value ≠ 0) :
    (a.mul b).conv .radians ≠ (a.conv .radians).mul (b.conv .radians) := by
  intro h
  simp only [Curves.Angle.conv, Curves.Angle.mul, Curves.Angle.radValue, Curves.Angle.mk.injEq] at h
  have hab : a.value * b.value ≠ 0 := mul_ne_zero ha hb
  have : (0.017453292519943295769 : ℝ) * (1 - 0.017453292519943295769) * (a.value * b.value) = 0 := by
    linear_combination h
  rcases mul_eq_zero.1 this with h | h
  · norm_num at h
  · exact hab h

/-- Non-vacuity. -/
example : (-1 : ℝ) ≤ 3 / 5 ∧ (3 / 5 : ℝ) ≤ 1 := by norm_num
example : Curves.minimumJerk (1 / 4 : ℚ) = 53 / 512 := by norm_num [Curves.minimumJerk]
example : Curves.evaluateStep (fun x => x.map fun v => v * v) 1 2 (1 / 2) 10
    = some (.ok [some 1, some (9 / 4), some 4]) := by decide +kernel
example : (⟨90⟩ : Curves.Angle .degrees).value ≠ 0 ∧ exactRad (⟨90⟩ : Curves.Angle .degrees) = π / 2 := by
  refine ⟨by norm_num, ?_⟩
  simp only [exactRad]; ring

end Xo
