import Verif.Model.SoftClamp
import Verif.Props.C152_Gradient

/-!
C156: the soft clamp, with rounding.
-/
namespace Xo.SoftCl
open Num (Fl Fmt binary32 binary64)
open Ieee Norm LongSum
open Ieee.Spec (OfType num IsNan)
open Norm.Spec (FloatOrDouble)
open LongSum.Spec

namespace Spec

/-- The exact soft clamp to a range with borders of width `w`: unchanged in the middle, and in the borders a curve that comes close to the ends and never reaches them. -/
def soft (mn mx w v : Rat) : Rat :=
  if mx - w < v then mx - w * w / (v - mx + 2 * w) else if v < mn + w then mn + w * w / (mn + 2 * w - v) else v

end Spec
open Spec

/-- The exact soft clamp never leaves the range. -/
theorem soft_inside {mn mx w v : Rat} (w0 : 0 < w) (h : mn + w ≤ mx - w) : mn < soft mn mx w v ∧ soft mn mx w v < mx := by
  unfold soft
  split
  · rename_i c
    have y : w < v - mx + 2 * w := by linarith
    have k : w * w / (v - mx + 2 * w) < w := by rw [div_lt_iff₀ (by linarith)]; exact mul_lt_mul_of_pos_left y w0
    have k2 : 0 < w * w / (v - mx + 2 * w) := by have : 0 < v - mx + 2 * w := by linarith
                                                 positivity
    constructor <;> linarith
  · split
    · rename_i c
      have y : w < mn + 2 * w - v := by linarith
      have k : w * w / (mn + 2 * w - v) < w := by rw [div_lt_iff₀ (by linarith)]; exact mul_lt_mul_of_pos_left y w0
      have k2 : 0 < w * w / (mn + 2 * w - v) := by have : 0 < mn + 2 * w - v := by linarith
                                                   positivity
      constructor <;> linarith
    · constructor <;> linarith

theorem add_rounds {f : Fmt} {a b : Fl} (ha : Ieee.Spec.Finite a) (hb : Ieee.Spec.Finite b) (h : Ieee.Spec.Finite (add f a b)) : val (add f a b) = rq f (val a + val b) := by
  obtain ⟨s, x, rfl⟩ := finite_fin ha
  obtain ⟨t, y, rfl⟩ := finite_fin hb
  obtain ⟨_, r, m, e1, e2⟩ := finite_ofRat (f := f) h
  have e1 : add f (.fin s x) (.fin t y) = .fin r m := e1
  rw [e1, e2]

theorem fine_rq {f : Fmt} {x : Fl} (h : Fine f x) : rq f (val x) = val x := by
  obtain ⟨s, m, rfl⟩ := finite_fin h.1
  exact rq_val h.2

/-- The errors of the division, of the transform and of the last sum. -/
theorem tail_arith {u η A R y Y P Q L E : Rat} (u0 : 0 < u) (u1 : u ≤ 1 / 2 ^ 24) (R0 : 0 < R) (η0 : 0 < η) (η1 : η ≤ u * (R * R)) (hA : R ≤ A) (hy : R ≤ y)
    (hY : 99 / 100 * R ≤ Y) (E0 : 0 ≤ E) (hE : E ≤ 22 / 10 * u * A) (hYy : |Y - y| ≤ E + 302 / 100 * u * y)
    (hP : |P - R * R| ≤ u * (R * R) + η) (hQ : |Q - P / Y| ≤ u * |P / Y| + η) (hL : |L - (R - Q)| ≤ u * |R - Q|) :
    |P / Y| ≤ 2 * R ∧ |R - Q| ≤ 3 * R + 2 * η ∧ |L| ≤ 3 * R + 3 * η ∧ |L - (R - R * R / y)| ≤ 11 * u * A + 2 * η := by
  norm_num at u1
  have y0 : 0 < y := by linarith
  have Y0 : 0 < Y := by linarith
  have RR : 0 < R * R := by positivity
  have uRR : u * (R * R) ≤ 1 / 10000 * (R * R) := mul_le_mul_of_nonneg_right (by linarith) RR.le
  obtain ⟨p1, p2⟩ := abs_le.1 hP
  have P0 : 0 < P := by linarith
  have k1 : P / Y ≤ 102 / 100 * R := by
    rw [div_le_iff₀ Y0]
    have := mul_le_mul_of_nonneg_left hY (show 0 ≤ 102 / 100 * R by linarith)
    linarith
  have k0 : 0 < P / Y := by positivity
  have q0 : 0 < R * R / y := by positivity
  have q1 : R * R / y ≤ R := by rw [div_le_iff₀ y0]; exact mul_le_mul_of_nonneg_left hy R0.le
  have k2 : |P / Y - R * R / y| ≤ 52 / 10 * u * R + 102 / 100 * E := by
    have e : P / Y - R * R / y = (P - R * R) / Y - R * R * (Y - y) / (Y * y) := by field_simp; ring
    rw [e]
    refine (abs_sub _ _).trans ?_
    have a1 : |(P - R * R) / Y| ≤ 203 / 100 * (u * R) := by
      rw [abs_div, abs_of_pos Y0, div_le_iff₀ Y0]
      have := mul_le_mul_of_nonneg_left hY (show 0 ≤ 203 / 100 * (u * R) by positivity)
      have c : 0 ≤ u * (R * R) := by positivity
      linarith
    have a2 : |R * R * (Y - y) / (Y * y)| ≤ 102 / 100 * E + 31 / 10 * (u * R) := by
      rw [abs_div, abs_mul, abs_of_pos RR, abs_of_pos (show 0 < Y * y by positivity), div_le_iff₀ (by positivity)]
      have b1 := mul_le_mul_of_nonneg_left hYy RR.le
      have b2 : R * R * E ≤ 102 / 100 * E * (Y * y) := by
        have c1 : R * R ≤ 102 / 100 * (Y * y) := by
          have := mul_le_mul hY hy R0.le Y0.le
          linarith
        have := mul_le_mul_of_nonneg_right c1 E0
        linarith
      have b3 : R * R * (302 / 100 * u * y) ≤ 31 / 10 * (u * R) * (Y * y) := by
        have c1 : 302 / 100 * R ≤ 31 / 10 * Y := by linarith
        have := mul_le_mul_of_nonneg_right c1 (show 0 ≤ u * R * y by positivity)
        linarith
      linarith
    have : 0 ≤ u * R := by positivity
    linarith
  have k3 : |Q - R * R / y| ≤ 63 / 10 * u * R + 102 / 100 * E + η := by
    have e : Q - R * R / y = (Q - P / Y) + (P / Y - R * R / y) := by ring
    rw [e]
    refine (abs_add_le _ _).trans ?_
    rw [abs_of_pos k0] at hQ
    have := mul_le_mul_of_nonneg_left k1 u0.le
    have c : 0 ≤ u * R := by positivity
    linarith
  have k4 : |R - Q| ≤ 21 / 10 * R + 11 / 10 * η := by
    have e : |Q| ≤ |Q - P / Y| + |P / Y| := by
      have := abs_add_le (Q - P / Y) (P / Y)
      rwa [sub_add_cancel] at this
    rw [abs_of_pos k0] at hQ e
    have c : u * (P / Y) ≤ 1 / 1000 * R := by
      have := mul_le_mul (show u ≤ 1 / 10000 by linarith) k1 k0.le (by norm_num)
      linarith
    refine (abs_sub _ _).trans ?_
    rw [abs_of_pos R0]
    linarith
  have k5 := mul_le_mul_of_nonneg_left k4 u0.le
  have uη : u * η ≤ 1 / 1000 * η := mul_le_mul_of_nonneg_right (by linarith) η0.le
  have uR : u * R ≤ 1 / 1000 * R := mul_le_mul_of_nonneg_right (by linarith) R0.le
  have uA : u * R ≤ u * A := mul_le_mul_of_nonneg_left hA u0.le
  refine ⟨by rw [abs_of_pos k0]; linarith, by linarith, ?_, ?_⟩
  · have := abs_add_le (L - (R - Q)) (R - Q)
    rw [sub_add_cancel] at this
    linarith
  · have e : L - (R - R * R / y) = (L - (R - Q)) + -(Q - R * R / y) := by ring
    rw [e]
    refine (abs_add_le _ _).trans ?_
    rw [abs_neg]
    linarith

/-- The last sum. -/
theorem last_arith {u η A m M L l Z : Rat} (u0 : 0 < u) (u1 : u ≤ 1 / 2 ^ 24) (η0 : 0 < η) (A0 : 0 ≤ A) (hm : |m - M| ≤ u * A) (hM : |M| ≤ A) (hL : |L - l| ≤ 11 * u * A + 2 * η)
    (hL2 : |L| ≤ 3 * A + 3 * η) (hZ : |Z - (m + L)| ≤ u * |m + L|) : |m + L| ≤ 5 * A + 3 * η ∧ |Z - (M + l)| ≤ 17 * u * A + 3 * η := by
  norm_num at u1
  have uA : u * A ≤ 1 / 1000 * A := mul_le_mul_of_nonneg_right (by linarith) A0
  have k1 : |m| ≤ 101 / 100 * A := by
    have := abs_add_le (m - M) M
    rw [sub_add_cancel] at this
    linarith
  have k2 : |m + L| ≤ 41 / 10 * A + 3 * η := (abs_add_le _ _).trans (by linarith)
  refine ⟨by linarith, ?_⟩
  have e : Z - (M + l) = (Z - (m + L)) + ((m - M) + (L - l)) := by ring
  rw [e]
  refine (abs_add_le _ _).trans ?_
  have k3 := abs_add_le (m - M) (L - l)
  have k4 := mul_le_mul_of_nonneg_left k2 u0.le
  have uη : u * η ≤ 1 / 1000 * η := mul_le_mul_of_nonneg_right (by linarith) η0.le
  have : 0 ≤ u * A := by positivity
  linarith

/-- The transform, with an argument that is nearly `y - R`. -/
theorem limit_close {f : Fmt} (w : Wide f) {x r : Fl} (hx : Fine f x) (hr : Fine f r) {A y E : Rat} (R0 : 0 < val r) (η1 : et f ≤ un f * (val r * val r)) (hA : val r ≤ A) (hy : val r ≤ y)
    (E0 : 0 ≤ E) (hE : E ≤ 22 / 10 * un f * A) (hxy : |val x + val r - y| ≤ E / 2 + 201 / 100 * un f * y) (hx0 : 0 ≤ val x)
    (hB : 16 * A + 16 * (A * A) + 16 * y + 16 ≤ 2 ^ f.emax) :
    Fine f (limitTransform f x r) ∧ |val (limitTransform f x r)| ≤ 3 * A + 3 * et f ∧ |val (limitTransform f x r) - (val r - val r * val r / y)| ≤ 11 * un f * A + 2 * et f := by
  have u0 := un_pos f
  have u1 := un_le w
  have e0 := et_pos f
  have e2 : et f ≤ 1 / 10 := (et_le w).trans ((pow_le_pow_left₀ u0.le u1 5).trans (by norm_num))
  have u1' := u1
  norm_num at u1'
  have RA : val r * val r ≤ A * A := mul_le_mul hA hA R0.le (by linarith)
  have y0 : 0 < y := by linarith
  have uA : un f * A ≤ 1 / 1000 * A := mul_le_mul_of_nonneg_right (by linarith) (by linarith)
  have uy : un f * y ≤ 1 / 10000 * y := mul_le_mul_of_nonneg_right (by linarith) y0.le
  obtain ⟨z1, z2⟩ := abs_le.1 hxy
  have A0 : 0 ≤ A := by linarith
  have AA : 0 ≤ A * A := by positivity
  have s0 : 0 < val x + val r := by linarith
  obtain ⟨a1, a2⟩ := add_fine w hx hr (M := val x + val r) (by rw [abs_of_pos s0]) (by linarith)
  have a3 : |val (add f x r) - y| ≤ E + 302 / 100 * un f * y := by
    have e : val (add f x r) - y = (val (add f x r) - (val x + val r)) + (val x + val r - y) := by ring
    rw [e]
    refine (abs_add_le _ _).trans ?_
    have k := mul_le_mul_of_nonneg_left (show val x + val r ≤ 1001 / 1000 * y + E / 2 by linarith) u0.le
    have k2 : un f * (E / 2) ≤ 1 / 2 * E := by
      have := mul_le_mul_of_nonneg_right (show un f ≤ 1 by linarith) E0
      linarith
    have k3 : 0 ≤ un f * y := by positivity
    linarith
  have a4 : 99 / 100 * val r ≤ val (add f x r) := by
    have := (abs_le.1 a2).1
    have k : un f * (val x + val r) ≤ 1 / 1000 * (val x + val r) := mul_le_mul_of_nonneg_right (by linarith) s0.le
    linarith
  have rr : |val r * val r| = val r * val r := abs_of_pos (by positivity)
  obtain ⟨p1, p2⟩ := mul_fine w hr.1 hr.1 (by rw [rr]; linarith)
  rw [rr] at p2
  have t1 := tail_arith (Q := val (mul f r r) / val (add f x r)) (L := val r - val (mul f r r) / val (add f x r)) u0 u1 R0 e0 η1 hA hy a4 E0 hE a3 p2
    (by rw [sub_self, abs_zero]; positivity) (by rw [sub_self, abs_zero]; positivity)
  obtain ⟨q1, q2⟩ := div_fine w p1.1 a1.1 (by linarith) (by linarith [t1.1])
  have qf : Fine f (div f (mul f r r) (add f x r)) := ⟨q1, div_ofType w.ok _ _⟩
  have t2 := tail_arith (L := val r - val (div f (mul f r r) (add f x r))) u0 u1 R0 e0 η1 hA hy a4 E0 hE a3 p2 q2 (by rw [sub_self, abs_zero]; positivity)
  obtain ⟨l1, l2⟩ := sub_fine w hr qf (by linarith [t2.2.1])
  have t3 := tail_arith u0 u1 R0 e0 η1 hA hy a4 E0 hE a3 p2 q2 l2
  exact ⟨l1, t3.2.2.1.trans (by linarith), t3.2.2.2⟩

/-- A number just inside of the border is nearly its own image. -/
theorem border_close {w x : Rat} (w0 : 0 < w) (x0 : 0 ≤ x) : 0 ≤ x - (w - w * w / (x + w)) ∧ x - (w - w * w / (x + w)) ≤ x := by
  have y0 : 0 < x + w := by linarith
  have e : x - (w - w * w / (x + w)) = x * (x / (x + w)) := by field_simp; ring
  have k : x / (x + w) ≤ 1 := by rw [div_le_one y0]; linarith
  have k0 : 0 ≤ x / (x + w) := by positivity
  rw [e]
  exact ⟨by positivity, mul_le_of_le_one_right x0 k⟩

/-- The upper border. -/
theorem upper_close {f : Fmt} (w : Wide f) {v mx r : Fl} {A : Rat} (hv : Fine f v) (hmx : Fine f mx) (r1 : Fine f r) (R0 : 0 < val r) (η1 : et f ≤ un f * (val r * val r)) (hA : |val mx| + val r ≤ A)
    (hB : 16 * |val v| + 48 * A + 16 * (A * A) + 16 ≤ 2 ^ f.emax) (p1 : Fine f (sub f mx r)) (p2 : |val (sub f mx r) - (val mx - val r)| ≤ un f * |val mx - val r|)
    (c2 : val mx - val r ≤ val v) :
    Fine f (add f (sub f mx r) (limitTransform f (add f (sub f v mx) r) r)) ∧
      |val (add f (sub f mx r) (limitTransform f (add f (sub f v mx) r) r)) - (val mx - val r + (val r - val r * val r / (val v - val mx + 2 * val r)))| ≤ 17 * un f * A + 3 * et f := by
  have ok := w.ok
  have u0 := un_pos f
  have u1 := un_le w
  have e0 := et_pos f
  have e2 : et f ≤ 1 / 10 := (et_le w).trans ((pow_le_pow_left₀ u0.le u1 5).trans (by norm_num))
  have u1' := u1
  norm_num at u1'
  have v0 := abs_nonneg (val v)
  have m0 := abs_nonneg (val mx)
  have A0 : 0 ≤ A := by linarith
  have AA : 0 ≤ A * A := by positivity
  obtain ⟨z1, z2⟩ := abs_le.1 (le_refl |val v|)
  obtain ⟨x1, x2⟩ := abs_le.1 (le_refl |val mx|)
  have p3 : |val mx - val r| ≤ A := by
    have := abs_sub (val mx) (val r)
    rw [abs_of_pos R0] at this
    linarith
  have up := mul_le_mul_of_nonneg_left p3 u0.le
  -- the transform
  obtain ⟨a1, a2⟩ := sub_fine w hv hmx (by
    have := abs_sub (val v) (val mx)
    linarith)
  have a3 : |val v - val mx| ≤ val v - val mx + 2 * val r := by
    rw [abs_le]
    constructor <;> linarith
  have Y0 : val r ≤ val v - val mx + 2 * val r := by linarith
  have uy : un f * (val v - val mx + 2 * val r) ≤ 1 / 10000 * (val v - val mx + 2 * val r) := mul_le_mul_of_nonneg_right (by linarith) (by linarith)
  have a4 : |val (sub f v mx) - (val v - val mx)| ≤ un f * (val v - val mx + 2 * val r) := a2.trans (mul_le_mul_of_nonneg_left a3 u0.le)
  obtain ⟨a5, a6⟩ := abs_le.1 a4
  -- the sum is not negative
  obtain ⟨s1, s2⟩ := add_fine w a1 r1 (M := |val (sub f v mx) + val r|) le_rfl (by
    have := abs_add_le (val (sub f v mx)) (val r)
    have h2 : |val (sub f v mx)| ≤ 2 * (val v - val mx + 2 * val r) := by
      rw [abs_le]
      constructor <;> linarith [(abs_le.1 a3).1, (abs_le.1 a3).2]
    rw [abs_of_pos R0] at this
    linarith)
  have s0 : 0 ≤ val (add f (sub f v mx) r) := by
    rw [add_rounds a1.1 r1.1 s1.1]
    have h1 : -val r ≤ val (sub f v mx) := by
      rw [sub_rounds hv.1 hmx.1 a1.1]
      have h2 := rq_mono ok (show -val r ≤ val v - val mx by linarith)
      rw [rq_neg, fine_rq r1] at h2
      exact h2
    have := rq_mono ok (show (0 : Rat) ≤ val (sub f v mx) + val r by linarith)
    rwa [rq_zero] at this
  have s3 : |val (add f (sub f v mx) r) + val r - (val v - val mx + 2 * val r)| ≤ 0 / 2 + 201 / 100 * un f * (val v - val mx + 2 * val r) := by
    have e : val (add f (sub f v mx) r) + val r - (val v - val mx + 2 * val r) = (val (add f (sub f v mx) r) - (val (sub f v mx) + val r)) + (val (sub f v mx) - (val v - val mx)) := by ring
    rw [e]
    refine (abs_add_le _ _).trans ?_
    have h1 : |val (sub f v mx) + val r| ≤ 1001 / 1000 * (val v - val mx + 2 * val r) := by
      rw [abs_le]
      constructor <;> linarith
    have := mul_le_mul_of_nonneg_left h1 u0.le
    have : 0 ≤ un f * (val v - val mx + 2 * val r) := by
      have : 0 ≤ val v - val mx + 2 * val r := by linarith
      positivity
    linarith
  obtain ⟨l1, l2, l3⟩ := limit_close w s1 r1 (A := A) R0 η1 (by linarith) Y0 le_rfl (by positivity) s3 s0 (by
    linarith)
  have t1 := last_arith (Z := val (sub f mx r) + val (limitTransform f (add f (sub f v mx) r) r)) u0 u1 e0 (A0) (p2.trans up) p3 l3 l2 (by rw [sub_self, abs_zero]; positivity)
  obtain ⟨f1, f2⟩ := add_fine w p1 l1 (M := |val (sub f mx r) + val (limitTransform f (add f (sub f v mx) r) r)|) le_rfl (by linarith [t1.1])
  have t2 := (last_arith u0 u1 e0 (A0) (p2.trans up) p3 l3 l2 f2).2
  exact ⟨f1, t2⟩

/-- The lower border. -/
theorem lower_close {f : Fmt} (w : Wide f) {v mn r : Fl} {A : Rat} (hv : Fine f v) (hmn : Fine f mn) (r1 : Fine f r) (R0 : 0 < val r) (η1 : et f ≤ un f * (val r * val r)) (hA : |val mn| + val r ≤ A)
    (hB : 16 * |val v| + 48 * A + 16 * (A * A) + 16 ≤ 2 ^ f.emax) (q1 : Fine f (add f mn r)) (q2 : |val (add f mn r) - (val mn + val r)| ≤ un f * |val mn + val r|)
    (c3 : val v ≤ val mn + val r) (c2 : val v < val (add f mn r)) :
    Fine f (sub f (add f mn r) (limitTransform f (sub f (add f mn r) v) r)) ∧
      |val (sub f (add f mn r) (limitTransform f (sub f (add f mn r) v) r)) - (val mn + val r - (val r - val r * val r / (val mn + 2 * val r - val v)))| ≤ 17 * un f * A + 3 * et f := by
  have ok := w.ok
  have u0 := un_pos f
  have u1 := un_le w
  have e0 := et_pos f
  have e2 : et f ≤ 1 / 10 := (et_le w).trans ((pow_le_pow_left₀ u0.le u1 5).trans (by norm_num))
  have u1' := u1
  norm_num at u1'
  have v0 := abs_nonneg (val v)
  have m0 := abs_nonneg (val mn)
  have A0 : 0 ≤ A := by linarith
  have AA : 0 ≤ A * A := by positivity
  have uA : 0 ≤ un f * A := by positivity
  obtain ⟨z1, z2⟩ := abs_le.1 (le_refl |val v|)
  obtain ⟨x1, x2⟩ := abs_le.1 (le_refl |val mn|)
  have q3 : |val mn + val r| ≤ A := by
    have := abs_add_le (val mn) (val r)
    rw [abs_of_pos R0] at this
    linarith
  have uq := q2.trans (mul_le_mul_of_nonneg_left q3 u0.le)
  obtain ⟨g1, g2⟩ := abs_le.1 uq
  obtain ⟨g3, g4⟩ := abs_le.1 q3
  have uA2 : un f * A ≤ 1 / 1000 * A := mul_le_mul_of_nonneg_right (by linarith) A0
  have Y0 : val r ≤ val mn + 2 * val r - val v := by linarith
  obtain ⟨s1, s2⟩ := sub_fine w q1 hv (by rw [abs_of_pos (by linarith)]; linarith)
  have s0 : 0 ≤ val (sub f (add f mn r) v) := by
    rw [sub_rounds q1.1 hv.1 s1.1]
    have := rq_mono ok (show (0 : Rat) ≤ val (add f mn r) - val v by linarith)
    rwa [rq_zero] at this
  have s3 : |val (sub f (add f mn r) v) + val r - (val mn + 2 * val r - val v)| ≤ (21 / 10 * un f * A) / 2 + 201 / 100 * un f * (val mn + 2 * val r - val v) := by
    have e : val (sub f (add f mn r) v) + val r - (val mn + 2 * val r - val v) = (val (sub f (add f mn r) v) - (val (add f mn r) - val v)) + (val (add f mn r) - (val mn + val r)) := by ring
    rw [e]
    refine (abs_add_le _ _).trans ?_
    have h1 : |val (add f mn r) - val v| ≤ (val mn + 2 * val r - val v) + un f * A := by
      rw [abs_of_pos (by linarith)]
      linarith
    have h2 := mul_le_mul_of_nonneg_left h1 u0.le
    have h3 : un f * (un f * A) ≤ 1 / 1000 * (un f * A) := mul_le_mul_of_nonneg_right (by linarith) uA
    have h4 : 0 ≤ un f * (val mn + 2 * val r - val v) := by
      have : 0 ≤ val mn + 2 * val r - val v := by linarith
      positivity
    linarith
  obtain ⟨l1, l2, l3⟩ := limit_close w s1 r1 (A := A) R0 η1 (by linarith) Y0 (by positivity) (by linarith) s3 s0 (by linarith)
  have n3 : |-val (limitTransform f (sub f (add f mn r) v) r) - -(val r - val r * val r / (val mn + 2 * val r - val v))| ≤ 11 * un f * A + 2 * et f := by
    rw [neg_sub_neg, abs_sub_comm]
    exact l3
  have n2 : |-val (limitTransform f (sub f (add f mn r) v) r)| ≤ 3 * A + 3 * et f := by rw [abs_neg]; exact l2
  have t1 := last_arith (Z := val (add f mn r) + -val (limitTransform f (sub f (add f mn r) v) r)) u0 u1 e0 A0 uq q3 n3 n2 (by rw [sub_self, abs_zero]; positivity)
  rw [← sub_eq_add_neg] at t1
  obtain ⟨f1, f2⟩ := sub_fine w q1 l1 (by linarith [t1.1])
  rw [sub_eq_add_neg (val (add f mn r)) (val (limitTransform f (sub f (add f mn r) v) r))] at f2
  have t2 := (last_arith u0 u1 e0 A0 uq q3 n3 n2 f2).2
  refine ⟨f1, ?_⟩
  rw [sub_eq_add_neg (val mn + val r)]
  exact t2

/-- **C156, accuracy.** The result is within seventeen roundings of the exact soft clamp with borders whose width is within three roundings of the one asked for,
so it leaves the range by no more than that. The part about the sizes says that no square is too big or too small for the type. -/
theorem C156_accuracy_partial {f : Fmt} (hf : FloatOrDouble f) (v mn mx b : Fl) (hv : Ieee.Spec.Finite v ∧ OfType f v) (hmn : Ieee.Spec.Finite mn ∧ OfType f mn)
    (hmx : Ieee.Spec.Finite mx ∧ OfType f mx) (hb : Ieee.Spec.Finite b ∧ OfType f b) (hlt : val mn < val mx) (b0 : 0 < val b) (b1 : val b ≤ 2 / 5)
    (hbig : 16 * |val v| + 96 * (|val mn| + |val mx|) + 64 * ((|val mn| + |val mx|) * (|val mn| + |val mx|)) + 16 ≤ 2 ^ f.emax)
    (hsmall : 2 * tiny f ≤ roundoff f * ((val b * (val mx - val mn)) * (val b * (val mx - val mn)))) (hsmall2 : 1000 * tiny f ≤ val b * (val mx - val mn)) :
    Ieee.Spec.Finite (softClamp f v mn mx b) ∧ ∃ w : Rat, |w - val b * (val mx - val mn)| ≤ 3 * roundoff f * (val b * (val mx - val mn)) + tiny f ∧
      0 < w ∧ val mn + w ≤ val mx - w ∧ |val (softClamp f v mn mx b) - soft (val mn) (val mx) w (val v)| ≤ 17 * roundoff f * (2 * (|val mn| + |val mx|)) + 3 * tiny f := by
  have w := wide_of hf
  have ok := w.ok
  have u0 := un_pos f
  have u1 := un_le w
  have e0 := et_pos f
  have e2 : et f ≤ 1 / 10 := (et_le w).trans ((pow_le_pow_left₀ u0.le u1 5).trans (by norm_num))
  have u1' := u1
  norm_num at u1'
  change 2 * et f ≤ un f * _ at hsmall
  change 1000 * et f ≤ _ at hsmall2
  set D := val mx - val mn with hD
  set S := |val mn| + |val mx| with hS
  have D0 : 0 < D := by linarith
  have v0 := abs_nonneg (val v)
  have n0 := abs_nonneg (val mn)
  have m0 := abs_nonneg (val mx)
  have DS : D ≤ S := by
    have := neg_abs_le (val mn)
    have := le_abs_self (val mx)
    linarith
  have SS : 0 ≤ S * S := by positivity
  -- the width
  obtain ⟨d1, d2⟩ := sub_fine w hmx hmn (by rw [abs_of_pos D0]; linarith)
  rw [← hD, abs_of_pos D0] at d2
  obtain ⟨d3, d4⟩ := abs_le.1 d2
  have uD : un f * D ≤ 1 / 10000 * D := mul_le_mul_of_nonneg_right (by linarith) D0.le
  have bd0 : 0 < val b * val (sub f mx mn) := mul_pos b0 (by linarith)
  have bd1 : val b * val (sub f mx mn) ≤ 2 / 5 * (1001 / 1000 * D) := mul_le_mul b1 (by linarith) (by linarith) (by norm_num)
  obtain ⟨r1, r2⟩ := mul_fine w hb.1 d1.1 (by rw [abs_of_pos bd0]; linarith)
  rw [abs_of_pos bd0] at r2
  have W0 : 0 < val b * D := by positivity
  have bdW : |val b * val (sub f mx mn) - val b * D| ≤ un f * (val b * D) := by
    rw [← mul_sub, abs_mul, abs_of_pos b0]
    have := mul_le_mul_of_nonneg_left d2 b0.le
    linarith
  obtain ⟨g1, g2⟩ := abs_le.1 bdW
  have uW : un f * (val b * D) ≤ 1 / 10000 * (val b * D) := mul_le_mul_of_nonneg_right (by linarith) W0.le
  have hw : |val (mul f b (sub f mx mn)) - val b * D| ≤ 3 * un f * (val b * D) + et f := by
    have e : val (mul f b (sub f mx mn)) - val b * D = (val (mul f b (sub f mx mn)) - val b * val (sub f mx mn)) + (val b * val (sub f mx mn) - val b * D) := by ring
    rw [e]
    refine (abs_add_le _ _).trans ?_
    have := mul_le_mul_of_nonneg_left (show val b * val (sub f mx mn) ≤ 2 * (val b * D) by linarith) u0.le
    linarith
  generalize hr : mul f b (sub f mx mn) = r at r1 r2 hw
  obtain ⟨w1, w2⟩ := abs_le.1 hw
  have R9 : 9 / 10 * (val b * D) ≤ val r := by linarith
  have R0 : 0 < val r := by linarith
  have bD : val b * D ≤ 2 / 5 * D := mul_le_mul_of_nonneg_right b1 D0.le
  have R2 : 2 * val r ≤ D := by linarith
  have η1 : et f ≤ un f * (val r * val r) := by
    have k : 1 / 2 * ((val b * D) * (val b * D)) ≤ val r * val r := by
      have := mul_le_mul R9 R9 (by positivity) R0.le
      have : 0 ≤ (val b * D) * (val b * D) := by positivity
      linarith
    have := mul_le_mul_of_nonneg_left k u0.le
    linarith
  have hmid : val mn + val r ≤ val mx - val r := by linarith
  have RS : val r ≤ S := by linarith
  have aS1 : |val mx| ≤ S := by linarith
  have aS2 : |val mn| ≤ S := by linarith
  obtain ⟨x1, x2⟩ := abs_le.1 aS1
  obtain ⟨y1, y2⟩ := abs_le.1 aS2
  obtain ⟨z1, z2⟩ := abs_le.1 (le_refl |val v|)
  -- the upper and the lower border
  obtain ⟨p1, p2⟩ := sub_fine w hmx r1 (by
    have := abs_sub (val mx) (val r)
    rw [abs_of_pos R0] at this
    linarith)
  obtain ⟨q1, q2⟩ := add_fine w hmn r1 (M := |val mn + val r|) le_rfl (by
    have := abs_add_le (val mn) (val r)
    rw [abs_of_pos R0] at this
    linarith)
  have p3 : |val mx - val r| ≤ 2 * S := by
    have := abs_sub (val mx) (val r)
    rw [abs_of_pos R0] at this
    linarith
  have q3 : |val mn + val r| ≤ 2 * S := by
    have := abs_add_le (val mn) (val r)
    rw [abs_of_pos R0] at this
    linarith
  have p4 := sub_rounds hmx.1 r1.1 p1.1
  have q4 := add_rounds hmn.1 r1.1 q1.1
  have pq : val (add f mn r) ≤ val (sub f mx r) := by
    rw [p4, q4]
    exact rq_mono ok hmid
  have uS : 0 ≤ un f * S := by positivity
  have goal17 : ∀ res : Fl, Fine f res → |val res - soft (val mn) (val mx) (val r) (val v)| ≤ 17 * un f * (2 * S) + 3 * et f → Ieee.Spec.Finite res ∧ ∃ w : Rat,
      |w - val b * D| ≤ 3 * roundoff f * (val b * D) + tiny f ∧ 0 < w ∧ val mn + w ≤ val mx - w ∧
      |val res - soft (val mn) (val mx) w (val v)| ≤ 17 * roundoff f * (2 * S) + 3 * tiny f := fun res k1 k2 => ⟨k1.1, val r, hw, R0, hmid, k2⟩
  have up := mul_le_mul_of_nonneg_left p3 u0.le
  have uq := mul_le_mul_of_nonneg_left q3 u0.le
  unfold softClamp
  simp only [hr]
  by_cases c1 : lt (sub f mx r) v = true
  · rw [if_pos c1]
    rw [lt_iff (fine_number p1) (fine_number hv), num_lt_num p1 hv] at c1
    have c2 : val mx - val r ≤ val v := by
      by_contra h
      have := rq_mono ok (le_of_not_ge h)
      rw [← p4, fine_rq hv] at this
      linarith
    obtain ⟨f1, t2⟩ := upper_close w hv hmx r1 (A := 2 * S) R0 η1 (by linarith) (by linarith) p1 p2 c2
    refine goal17 _ f1 ?_
    have es : soft (val mn) (val mx) (val r) (val v) = val mx - val r + (val r - val r * val r / (val v - val mx + 2 * val r)) := by
      unfold soft
      rcases lt_or_eq_of_le c2 with c | c
      · rw [if_pos c]; ring
      · rw [if_neg (by linarith), if_neg (by linarith)]
        have : val v - val mx + 2 * val r = val r := by linarith
        rw [this]
        field_simp
        linarith
    rw [es]
    exact t2
  · rw [if_neg c1]
    rw [lt_iff (fine_number p1) (fine_number hv), num_lt_num p1 hv, not_lt] at c1
    by_cases c2 : lt v (add f mn r) = true
    · rw [if_pos c2]
      rw [lt_iff (fine_number hv) (fine_number q1), num_lt_num hv q1] at c2
      have c3 : val v ≤ val mn + val r := by
        by_contra h
        have := rq_mono ok (le_of_not_ge h)
        rw [← q4, fine_rq hv] at this
        linarith
      obtain ⟨f1, t2⟩ := lower_close w hv hmn r1 (A := 2 * S) R0 η1 (by linarith) (by linarith) q1 q2 c3 c2
      refine goal17 _ f1 ?_
      have es : soft (val mn) (val mx) (val r) (val v) = val mn + val r - (val r - val r * val r / (val mn + 2 * val r - val v)) := by
        unfold soft
        rcases lt_or_eq_of_le c3 with c | c
        · rw [if_neg (by linarith), if_pos c]; ring
        · rw [if_neg (by linarith), if_neg (by linarith)]
          have : val mn + 2 * val r - val v = val r := by linarith
          rw [this]
          field_simp
          linarith
      rw [es]
      exact t2
    · rw [if_neg c2]
      rw [lt_iff (fine_number hv) (fine_number q1), num_lt_num hv q1, not_lt] at c2
      refine goal17 v hv ?_
      unfold soft
      have e17 : 0 ≤ 17 * un f * (2 * S) + 3 * et f := by positivity
      split
      · rename_i c
        have h1 : val v = val (sub f mx r) := by
          refine le_antisymm c1 ?_
          have := rq_mono ok c.le
          rwa [← p4, fine_rq hv] at this
        obtain ⟨k1, k2⟩ := border_close R0 (show 0 ≤ val v - (val mx - val r) by linarith)
        have e : val v - (val mx - val r * val r / (val v - val mx + 2 * val r)) =
            (val v - (val mx - val r)) - (val r - val r * val r / ((val v - (val mx - val r)) + val r)) := by
          rw [show val v - (val mx - val r) + val r = val v - val mx + 2 * val r by ring]; ring
        rw [e, abs_of_nonneg k1]
        refine k2.trans ?_
        have h2 := (le_abs_self _).trans (p2.trans up)
        rw [← h1] at h2
        linarith
      · split
        · rename_i c c'
          have h1 : val v = val (add f mn r) := by
            refine le_antisymm ?_ c2
            have := rq_mono ok c'.le
            rwa [← q4, fine_rq hv] at this
          obtain ⟨k1, k2⟩ := border_close R0 (show 0 ≤ (val mn + val r) - val v by linarith)
          have e : val v - (val mn + val r * val r / (val mn + 2 * val r - val v)) =
              -(((val mn + val r) - val v) - (val r - val r * val r / (((val mn + val r) - val v) + val r))) := by
            rw [show val mn + val r - val v + val r = val mn + 2 * val r - val v by ring]; ring
          rw [e, abs_neg, abs_of_nonneg k1]
          refine k2.trans ?_
          have h2 := (neg_abs_le _).trans' (neg_le_neg (q2.trans uq))
          rw [← h1] at h2
          linarith
        · rw [sub_self, abs_zero]
          exact e17

/-- **C156, the middle.** A number between the two computed borders is not changed. -/
theorem C156_middle (f : Fmt) (v mn mx b : Fl) (h1 : lt (sub f mx (mul f b (sub f mx mn))) v = false) (h2 : lt v (add f mn (mul f b (sub f mx mn))) = false) :
    softClamp f v mn mx b = v := by
  unfold softClamp
  simp only [h1, h2]
  rfl

/-- **C156, in the range up to rounding.** Under the same conditions the result is above the lower and below the upper end, up to seventeen roundings. -/
theorem C156_inside_partial {f : Fmt} (hf : FloatOrDouble f) (v mn mx b : Fl) (hv : Ieee.Spec.Finite v ∧ OfType f v) (hmn : Ieee.Spec.Finite mn ∧ OfType f mn)
    (hmx : Ieee.Spec.Finite mx ∧ OfType f mx) (hb : Ieee.Spec.Finite b ∧ OfType f b) (hlt : val mn < val mx) (b0 : 0 < val b) (b1 : val b ≤ 2 / 5)
    (hbig : 16 * |val v| + 96 * (|val mn| + |val mx|) + 64 * ((|val mn| + |val mx|) * (|val mn| + |val mx|)) + 16 ≤ 2 ^ f.emax)
    (hsmall : 2 * tiny f ≤ roundoff f * ((val b * (val mx - val mn)) * (val b * (val mx - val mn)))) (hsmall2 : 1000 * tiny f ≤ val b * (val mx - val mn)) :
    val mn - (17 * roundoff f * (2 * (|val mn| + |val mx|)) + 3 * tiny f) < val (softClamp f v mn mx b) ∧
      val (softClamp f v mn mx b) < val mx + (17 * roundoff f * (2 * (|val mn| + |val mx|)) + 3 * tiny f) := by
  obtain ⟨-, w, -, w0, w1, h⟩ := C156_accuracy_partial hf v mn mx b hv hmn hmx hb hlt b0 b1 hbig hsmall hsmall2
  obtain ⟨h1, h2⟩ := abs_le.1 h
  obtain ⟨s1, s2⟩ := soft_inside (v := val v) w0 w1
  constructor <;> linarith

/-- **C156 is violated** by one rounding: a million, softly clamped to the range from -1 to -1/2 with borders of a twentieth, is above -1/2. -/
theorem C156_range_violated : lt (.fin true (1 / 2)) (softClamp binary32 (ofNat 1000000) (ofNat 1 |> neg) (.fin true (1 / 2)) (.fin false (13421773 / 268435456))) = true := by
  decide +kernel

/-- **C156 is violated** for wide ranges: the square of the width of the border is too big for the type, and the result is minus infinity although the number is in the range. -/
theorem C156_wide_violated : softClamp binary32 (.fin false (2 ^ 70)) (ofNat 0) (.fin false (2 ^ 70)) (.fin false (1 / 4)) = .inf true := by
  decide +kernel

/-- In the middle, in the upper border, far outside. -/
example : softClamp binary32 (ofNat 5) (ofNat 0) (ofNat 8) (.fin false (1 / 4)) = ofNat 5 ∧
    softClamp binary32 (ofNat 8) (ofNat 0) (ofNat 8) (.fin false (1 / 4)) = ofNat 7 := by
  decide +kernel

/-- The accuracy theorem speaks about the number 10 and the range from 0 to 8. -/
example : val (softClamp binary32 (ofNat 10) (ofNat 0) (ofNat 8) (.fin false (1 / 4))) < 8 + (17 * roundoff binary32 * (2 * 8) + 3 * tiny binary32) := by
  have key : ∀ k : Nat, k < 16 → OfType binary32 (ofNat k) := fun k hk =>
    ⟨k, 0, by have : (16 : Nat) ≤ 2 ^ binary32.prec := by decide
              omega, by decide, by decide, by simp⟩
  have tb : tiny binary32 ≤ 1 / 2 ^ 100 := by
    unfold tiny
    norm_num [binary32]
  have er : roundoff binary32 = 1 / 16777216 := by norm_num [roundoff, binary32]
  have := (C156_inside_partial (f := binary32) (Or.inl rfl) (ofNat 10) (ofNat 0) (ofNat 8) (.fin false (1 / 4)) ⟨trivial, key 10 (by norm_num)⟩ ⟨trivial, key 0 (by norm_num)⟩
    ⟨trivial, key 8 (by norm_num)⟩ ⟨trivial, ⟨1, -2, by decide, by decide, by decide, by norm_num⟩⟩ (by norm_num [val, ofNat]) (by norm_num [val]) (by norm_num [val])
    (by norm_num [val, ofNat, binary32]) (by rw [er]; norm_num [val, ofNat] at tb ⊢; linarith) (by norm_num [val, ofNat] at tb ⊢; linarith)).2
  norm_num [val, ofNat] at this ⊢
  exact this

end Xo.SoftCl
