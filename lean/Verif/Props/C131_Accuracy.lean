import Verif.Props.C131_PiecewiseRounding
import Verif.Props.C150_LongSum

/-!
C121 and C131: how far a value between two points is from the exact one, with rounding.
-/
namespace Xo.Ieee
open Num (Fl Fmt binary32 binary64)
open Norm LongSum
open Ieee.Spec (OfType num IsNan)
open Norm.Spec (FloatOrDouble)
open LongSum.Spec

theorem sub_fine {f : Fmt} (w : Wide f) {a b : Fl} (ha : Fine f a) (hb : Fine f b) (hB : 2 * |val a - val b| < 2 ^ f.emax) :
    Fine f (sub f a b) ∧ |val (sub f a b) - (val a - val b)| ≤ un f * |val a - val b| := by
  have hn : val (neg b) = -val b := by
    obtain ⟨s, m, rfl⟩ := finite_fin hb.1
    exact num_neg (a := .fin s m) s m
  have hb' : Fine f (neg b) := by
    obtain ⟨s, m, rfl⟩ := finite_fin hb.1
    exact ⟨trivial, neg_ofType hb.2⟩
  have := add_fine w ha hb' (M := |val a - val b|) (by rw [hn, ← sub_eq_add_neg]) hB
  rw [hn, ← sub_eq_add_neg] at this
  exact this

/-- The error of `a + t * (b - a)` if `t` has the error `α t + β`. -/
theorem lerp_arith {u η y0 y1 t T D P α β : Rat} (u0 : 0 < u) (u1 : u ≤ 1 / 2 ^ 24) (η0 : 0 < η) (t0 : 0 ≤ t) (t1 : t ≤ 1) (α0 : 0 ≤ α) (α1 : α ≤ 1 / 1000) (β0 : 0 ≤ β) (β1 : β ≤ 1 / 1000)
    (hT : |T - t| ≤ α * t + β) (hD : |D - (y1 - y0)| ≤ u * |y1 - y0|) (hP : |P - T * D| ≤ u * |T * D| + η) :
    |T * D| ≤ 101 / 100 * (|y0| + |y1|) ∧ |y0 + P| ≤ 102 / 100 * (|y0| + |y1|) + η * (101 / 100) ∧
      |P - t * (y1 - y0)| ≤ (α + 203 / 100 * u + 101 / 100 * β) * |y1 - y0| + η := by
  norm_num at u1
  have hS : |y1 - y0| ≤ |y0| + |y1| := by
    have := abs_sub y1 y0
    linarith
  have s0 := abs_nonneg (y1 - y0)
  have hD' : |D| ≤ (1 + u) * |y1 - y0| := by
    have := abs_add_le (D - (y1 - y0)) (y1 - y0)
    rw [sub_add_cancel] at this
    linarith
  have hT' : |T| ≤ 1 + α + β := by
    have := abs_add_le (T - t) t
    rw [sub_add_cancel, abs_of_nonneg t0] at this
    have := mul_le_mul_of_nonneg_left t1 α0
    linarith
  have hTD : |T * D| ≤ 1003 / 1000 * |y1 - y0| := by
    rw [abs_mul]
    have k1 := mul_le_mul hT' hD' (abs_nonneg _) (by linarith)
    have k2 : (1 + α + β) * ((1 + u) * |y1 - y0|) ≤ 1003 / 1000 * |y1 - y0| := by
      have : (1 + α + β) * (1 + u) ≤ 1003 / 1000 := by
        have := mul_le_mul (show 1 + α + β ≤ 1002 / 1000 by linarith) (show 1 + u ≤ 10001 / 10000 by linarith) (by linarith) (by norm_num)
        linarith
      rw [← mul_assoc]
      exact mul_le_mul_of_nonneg_right this s0
    exact k1.trans k2
  have hdiff : |T * D - t * (y1 - y0)| ≤ (α + β) * (1 + u) * |y1 - y0| + u * |y1 - y0| := by
    have e : T * D - t * (y1 - y0) = (T - t) * D + t * (D - (y1 - y0)) := by ring
    rw [e]
    refine (abs_add_le _ _).trans ?_
    rw [abs_mul, abs_mul, abs_of_nonneg t0]
    have k0 : |T - t| ≤ α + β := by
      have := mul_le_mul_of_nonneg_left t1 α0
      linarith
    have k1 := mul_le_mul k0 hD' (abs_nonneg _) (by linarith)
    have k2 := mul_le_mul t1 hD (abs_nonneg _) (by norm_num : (0 : Rat) ≤ 1)
    linarith
  have k3 : |P - t * (y1 - y0)| ≤ (α + 203 / 100 * u + 101 / 100 * β) * |y1 - y0| + η := by
    have e : P - t * (y1 - y0) = (P - T * D) + (T * D - t * (y1 - y0)) := by ring
    rw [e]
    refine (abs_add_le _ _).trans ?_
    have a1 := mul_le_mul_of_nonneg_left hTD u0.le
    have a2 : α * u * |y1 - y0| ≤ 1 / 1000 * (u * |y1 - y0|) := by
      rw [mul_assoc]
      exact mul_le_mul_of_nonneg_right α1 (mul_nonneg u0.le s0)
    have a3 : β * u * |y1 - y0| ≤ 1 / 1000 * (β * |y1 - y0|) := by
      rw [mul_comm β u, mul_assoc]
      exact mul_le_mul_of_nonneg_right (by linarith) (mul_nonneg β0 s0)
    have a4 : 0 ≤ u * |y1 - y0| := mul_nonneg u0.le s0
    have a5 : 0 ≤ β * |y1 - y0| := mul_nonneg β0 s0
    linarith
  refine ⟨by linarith, ?_, k3⟩
  have e : y0 + P = (P - T * D) + T * D + y0 := by ring
  have hc : |y0 + t * (y1 - y0)| ≤ |y0| + |y1| := by
    have e : y0 + t * (y1 - y0) = (1 - t) * y0 + t * y1 := by ring
    rw [e]
    refine (abs_add_le _ _).trans ?_
    rw [abs_mul, abs_mul, abs_of_nonneg t0, abs_of_nonneg (a := 1 - t) (by linarith)]
    have := mul_nonneg t0 (abs_nonneg y0)
    have := mul_nonneg (show 0 ≤ 1 - t by linarith) (abs_nonneg y1)
    linarith
  have e : y0 + P = (y0 + t * (y1 - y0)) + (P - t * (y1 - y0)) := by ring
  rw [e]
  refine (abs_add_le _ _).trans ?_
  have : (α + 203 / 100 * u + 101 / 100 * β) * |y1 - y0| ≤ 1 / 100 * |y1 - y0| := mul_le_mul_of_nonneg_right (by linarith) s0
  linarith

/-- `lerp` with an inexact parameter. -/
theorem lerp_close {f : Fmt} (w : Wide f) {y0 y1 T : Fl} {t α β : Rat} (h0 : Fine f y0) (h1 : Fine f y1) (hT : Ieee.Spec.Finite T) (t0 : 0 ≤ t) (t1 : t ≤ 1) (α0 : 0 ≤ α) (α1 : α ≤ 1 / 1000)
    (β0 : 0 ≤ β) (β1 : β ≤ 1 / 1000) (ht : |val T - t| ≤ α * t + β) (hB : 4 * (|val y0| + |val y1|) + 4 ≤ 2 ^ f.emax) :
    Fine f (lerp f y0 y1 T) ∧ |val (lerp f y0 y1 T) - (val y0 + t * (val y1 - val y0))| ≤ (α + 101 / 100 * β) * |val y1 - val y0| + 4 * un f * (|val y0| + |val y1|) + 2 * et f := by
  have u0 := un_pos f
  have u1 := un_le w
  have e0 := et_pos f
  have e2 : et f ≤ 1 / 10 := (et_le w).trans ((pow_le_pow_left₀ u0.le u1 5).trans (by norm_num))
  have hS : |val y1 - val y0| ≤ |val y0| + |val y1| := by
    have := abs_sub (val y1) (val y0)
    linarith
  have a0 := abs_nonneg (val y0)
  have a1 := abs_nonneg (val y1)
  have s0 := abs_nonneg (val y1 - val y0)
  obtain ⟨d1, d2⟩ := sub_fine w h1 h0 (by linarith)
  have first := lerp_arith (P := val T * val (sub f y1 y0)) u0 u1 e0 t0 t1 α0 α1 β0 β1 ht d2 (by
    rw [sub_self, abs_zero]
    positivity)
  obtain ⟨p1, p2⟩ := mul_fine w hT d1.1 (by linarith [first.1])
  obtain ⟨-, q2, q3⟩ := lerp_arith u0 u1 e0 t0 t1 α0 α1 β0 β1 ht d2 p2
  obtain ⟨r1, r2⟩ := add_fine w h0 p1 q2 (by linarith)
  refine ⟨r1, ?_⟩
  have e : val (lerp f y0 y1 T) - (val y0 + t * (val y1 - val y0)) = (val (lerp f y0 y1 T) - (val y0 + val (mul f T (sub f y1 y0)))) + (val (mul f T (sub f y1 y0)) - t * (val y1 - val y0)) := by ring
  rw [e]
  refine (abs_add_le _ _).trans ?_
  have k1 := mul_le_mul_of_nonneg_left hS u0.le
  have k2 : un f * et f ≤ 1 / 10 * et f := mul_le_mul_of_nonneg_right (by norm_num at u1; linarith) e0.le
  have k3 : 0 ≤ un f * (|val y0| + |val y1|) := by positivity
  have r2 : |val (lerp f y0 y1 T) - (val y0 + val (mul f T (sub f y1 y0)))| ≤ _ := r2
  linarith

theorem ratio_arith {u η e d a b T : Rat} (u0 : 0 < u) (u1 : u ≤ 1 / 2 ^ 24) (e0 : 0 ≤ e) (d0 : 0 < d) (ha : |a - e| ≤ u * e) (hb : |b - d| ≤ u * d) (hT : |T - a / b| ≤ u * |a / b| + η) :
    0 < b ∧ |a / b| ≤ 101 / 100 * (e / d) ∧ |T - e / d| ≤ 31 / 10 * u * (e / d) + η := by
  norm_num at u1
  have b1 := (abs_le.1 hb).1
  have ud : u * d ≤ 1 / 1000 * d := mul_le_mul_of_nonneg_right (by linarith) d0.le
  have bd : 999 / 1000 * d ≤ b := by linarith
  have b0 : 0 < b := by linarith
  have t0 : 0 ≤ e / d := div_nonneg e0 d0.le
  have he : e = e / d * d := by field_simp
  have k1 : |a / b - e / d| ≤ 201 / 100 * u * (e / d) := by
    have e1 : a / b - e / d = ((a - e) + e / d * (d - b)) / b := by
      field_simp
      ring
    rw [e1, abs_div, abs_of_pos b0, div_le_iff₀ b0]
    refine (abs_add_le _ _).trans ?_
    rw [abs_mul, abs_of_nonneg t0, abs_sub_comm d b]
    have c1 := mul_le_mul_of_nonneg_left hb t0
    have c2 : u * e = u * (e / d) * d := by rw [mul_assoc, ← he]
    have c3 := mul_le_mul_of_nonneg_left bd (mul_nonneg u0.le t0)
    have c4 : 0 ≤ u * (e / d) * d := by positivity
    have c5 : u * (e / d) * (999 / 1000 * d) = 999 / 1000 * (u * (e / d) * d) := by ring
    have c6 : 201 / 100 * u * (e / d) * b = 201 / 100 * (u * (e / d) * b) := by ring
    have c7 : e / d * (u * d) = u * (e / d) * d := by ring
    linarith
  have ut : u * (e / d) ≤ 1 / 1000 * (e / d) := mul_le_mul_of_nonneg_right (by linarith) t0
  have k2 : |a / b| ≤ 101 / 100 * (e / d) := by
    have := abs_add_le (a / b - e / d) (e / d)
    rw [sub_add_cancel, abs_of_nonneg t0] at this
    linarith
  refine ⟨b0, k2, ?_⟩
  have e2 : T - e / d = (T - a / b) + (a / b - e / d) := by ring
  rw [e2]
  refine (abs_add_le _ _).trans ?_
  have := mul_le_mul_of_nonneg_left k2 u0.le
  have : 0 ≤ u * (e / d) := by positivity
  linarith

/-- The value on a segment. -/
theorem lerpAt_close {f : Fmt} (w : Wide f) {x0 y0 x1 y1 x : Fl} (hx0 : Fine f x0) (hy0 : Fine f y0) (hx1 : Fine f x1) (hy1 : Fine f y1) (hx : Fine f x)
    (h01 : val x0 < val x1) (h0 : val x0 ≤ val x) (h1 : val x ≤ val x1) (hX : 2 * (val x1 - val x0) < 2 ^ f.emax) (hY : 4 * (|val y0| + |val y1|) + 4 ≤ 2 ^ f.emax) :
    Fine f (lerpAt f (x0, y0) (x1, y1) x) ∧
      |val (lerpAt f (x0, y0) (x1, y1) x) - (val y0 + (val x - val x0) / (val x1 - val x0) * (val y1 - val y0))| ≤ 8 * un f * (|val y0| + |val y1|) + 2 * et f := by
  have u0 := un_pos f
  have u1 := un_le w
  have e0 := et_pos f
  have e1 : et f ≤ un f * (1 / 100) := by
    refine (et_le w).trans ?_
    have : un f ^ 5 = un f * un f ^ 4 := by ring
    rw [this]
    refine mul_le_mul_of_nonneg_left ?_ u0.le
    exact (pow_le_pow_left₀ u0.le u1 4).trans (by norm_num)
  have dn : 0 ≤ val x - val x0 := by linarith
  have dp : 0 < val x1 - val x0 := by linarith
  obtain ⟨a1, a2⟩ := sub_fine w hx hx0 (by rw [abs_of_nonneg dn]; linarith)
  obtain ⟨b1, b2⟩ := sub_fine w hx1 hx0 (by rw [abs_of_pos dp]; linarith)
  rw [abs_of_nonneg dn] at a2
  rw [abs_of_pos dp] at b2
  have t0 : 0 ≤ (val x - val x0) / (val x1 - val x0) := div_nonneg dn dp.le
  have t1 : (val x - val x0) / (val x1 - val x0) ≤ 1 := (div_le_one dp).2 (by linarith)
  have first := ratio_arith (T := val (sub f x x0) / val (sub f x1 x0)) u0 u1 dn dp a2 b2 (η := 0) (by
    rw [sub_self, abs_zero]
    positivity)
  have a0 := abs_nonneg (val y0)
  have a0' := abs_nonneg (val y1)
  obtain ⟨c1, c2⟩ := div_fine w a1.1 b1.1 first.1.ne' (by linarith [first.2.1])
  obtain ⟨-, -, g⟩ := ratio_arith u0 u1 dn dp a2 b2 c2
  norm_num at u1
  obtain ⟨r1, r2⟩ := lerp_close w hy0 hy1 c1 t0 t1 (α := 31 / 10 * un f) (β := et f) (by linarith) (by linarith) e0.le (by linarith) g hY
  refine ⟨r1, r2.trans ?_⟩
  have hS : |val y1 - val y0| ≤ |val y0| + |val y1| := by
    have := abs_sub (val y1) (val y0)
    linarith
  have k1 := mul_le_mul_of_nonneg_left hS (show 0 ≤ 31 / 10 * un f + 101 / 100 * et f by linarith)
  have k2 := mul_le_mul_of_nonneg_right e1 (show 0 ≤ |val y0| + |val y1| by linarith)
  have k3 : 0 ≤ un f * (|val y0| + |val y1|) := by positivity
  linarith

theorem fine_number {f : Fmt} {x : Fl} (h : Fine f x) : ¬ IsNan x := by
  obtain ⟨s, m, rfl⟩ := finite_fin h.1
  exact id

theorem num_fine {f : Fmt} {x : Fl} (h : Fine f x) : num x = ((val x : Rat) : WithTop Rat) := by
  obtain ⟨s, m, rfl⟩ := finite_fin h.1
  rfl

theorem num_lt_num {f : Fmt} {x y : Fl} (hx : Fine f x) (hy : Fine f y) : num x < num y ↔ val x < val y := by
  rw [num_fine hx, num_fine hy]
  norm_cast

theorem num_le_num {f : Fmt} {x y : Fl} (hx : Fine f x) (hy : Fine f y) : num x ≤ num y ↔ val x ≤ val y := by
  rw [num_fine hx, num_fine hy]
  norm_cast

namespace Spec

/-- The straight line through two points. -/
def line (x0 y0 x1 y1 x : Rat) : Rat := y0 + (x - x0) / (x1 - x0) * (y1 - y0)

end Spec

/-- **C121, accuracy of `lerp`.** For a parameter from zero to one, the result is within four roundings of the sizes of the two values. -/
theorem C121_lerp_accuracy {f : Fmt} (hf : FloatOrDouble f) {a b t : Fl} (ha : Ieee.Spec.Finite a) (hat : OfType f a) (hb : Ieee.Spec.Finite b) (hbt : OfType f b) (ht : Ieee.Spec.Finite t)
    (t0 : 0 ≤ val t) (t1 : val t ≤ 1) (hB : 4 * (|val a| + |val b|) + 4 ≤ 2 ^ f.emax) :
    Ieee.Spec.Finite (lerp f a b t) ∧ |val (lerp f a b t) - (val a + val t * (val b - val a))| ≤ 4 * roundoff f * (|val a| + |val b|) + 2 * tiny f := by
  obtain ⟨h1, h2⟩ := lerp_close (wide_of hf) (α := 0) (β := 0) ⟨ha, hat⟩ ⟨hb, hbt⟩ ht t0 t1 le_rfl (by norm_num) le_rfl (by norm_num) (by simp) hB
  refine ⟨h1.1, h2.trans ?_⟩
  have : (0 + 101 / 100 * 0) * |val b - val a| = 0 := by ring
  rw [this, zero_add]
  exact le_rfl

/-- **C131, accuracy.** Between two neighbouring points, and at them, both functions give a value within eight roundings of the straight line. -/
theorem C131_accuracy {f : Fmt} (hf : FloatOrDouble f) {a b : Pts} {x0 y0 x1 y1 x : Fl} (hs : Spec.Sorted (a ++ (x0, y0) :: (x1, y1) :: b))
    (hv : ∀ v ∈ [x0, y0, x1, y1, x], Ieee.Spec.Finite v ∧ OfType f v) (h0 : val x0 ≤ val x) (h1 : val x ≤ val x1)
    (hX : 2 * (val x1 - val x0) < 2 ^ f.emax) (hY : 4 * (|val y0| + |val y1|) + 4 ≤ 2 ^ f.emax) :
    ∃ v, (val x0 < val x → linear f (a ++ (x0, y0) :: (x1, y1) :: b) x = .ok v) ∧ (val x < val x1 → lerpMap f (a ++ (x0, y0) :: (x1, y1) :: b) x = .ok v) ∧ Ieee.Spec.Finite v ∧
      |val v - Spec.line (val x0) (val y0) (val x1) (val y1) (val x)| ≤ 8 * roundoff f * (|val y0| + |val y1|) + 2 * tiny f := by
  have gx0 : Fine f x0 := hv x0 (by simp)
  have gy0 : Fine f y0 := hv y0 (by simp)
  have gx1 : Fine f x1 := hv x1 (by simp)
  have gy1 : Fine f y1 := hv y1 (by simp)
  have gx : Fine f x := hv x (by simp)
  have h01 : val x0 < val x1 := (num_lt_num gx0 gx1).1 ((List.pairwise_cons.1 (List.pairwise_append.1 hs.2).2.1).1 (x1, y1) (by simp))
  obtain ⟨r1, r2⟩ := lerpAt_close (wide_of hf) gx0 gy0 gx1 gy1 gx h01 h0 h1 hX hY
  exact ⟨_, fun h => linear_segment hs (fine_number gx) (.inr ((num_lt_num gx0 gx).2 h)) (.inr ((num_le_num gx gx1).2 h1)),
    fun h => map_segment hs (fine_number gx) ((num_le_num gx0 gx).2 h0) ((num_lt_num gx gx1).2 h), r1.1, r2⟩

/-- Between the points (0, 1) and (3, 2) of a function, at one. -/
example : ∃ v, linear binary32 (ofPoints [(ofNat 3, ofNat 2), (ofNat 0, ofNat 1), (ofNat 7, ofNat 0)]) (ofNat 1) = .ok v ∧ |val v - 4 / 3| ≤ 1 / 10 ^ 5 := by
  have e : ofPoints [(ofNat 3, ofNat 2), (ofNat 0, ofNat 1), (ofNat 7, ofNat 0)] = [] ++ (ofNat 0, ofNat 1) :: (ofNat 3, ofNat 2) :: [(ofNat 7, ofNat 0)] := by decide +kernel
  have ev : ∀ n, val (ofNat n) = n := fun n => by simp [val, ofNat]
  have hs := (C131_points [(ofNat 3, ofNat 2), (ofNat 0, ofNat 1), (ofNat 7, ofNat 0)] (by decide)).1
  rw [e] at hs
  have hh : (10 : Rat) ^ 9 ≤ 2 ^ binary32.emax := by
    have : (2 : Rat) ^ (30 : Int) ≤ 2 ^ binary32.emax := zpow_le_zpow_right₀ (by norm_num) (by decide)
    exact le_trans (by norm_num) this
  have ht : tiny binary32 ≤ 1 / 10 ^ 20 := by
    have : tiny binary32 ≤ 2 ^ (-100 : Int) := zpow_le_zpow_right₀ (by norm_num) (by decide)
    exact le_trans this (by norm_num)
  obtain ⟨v, h1, -, -, h2⟩ := C131_accuracy (f := binary32) (.inl rfl) (x := ofNat 1) hs (by
    intro c hc
    fin_cases hc
    · exact ⟨trivial, ⟨0, 0, by decide +kernel⟩⟩
    · exact ⟨trivial, ⟨1, 0, by decide +kernel⟩⟩
    · exact ⟨trivial, ⟨3, 0, by decide +kernel⟩⟩
    · exact ⟨trivial, ⟨2, 0, by decide +kernel⟩⟩
    · exact ⟨trivial, ⟨1, 0, by decide +kernel⟩⟩) (by simp [ev]) (by simp [ev]) (by
      simp only [ev]
      norm_num at hh ⊢
      linarith) (by
      simp only [ev]
      norm_num at hh ⊢
      linarith)
  refine ⟨v, ?_, ?_⟩
  · rw [e]
    exact h1 (by simp [ev])
  · simp only [ev, Spec.line] at h2
    have er : roundoff binary32 = 1 / 16777216 := by norm_num [roundoff, binary32]
    rw [er] at h2
    norm_num at h2 ht ⊢
    linarith

end Xo.Ieee
