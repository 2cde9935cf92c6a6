import Verif.Model.QuatFast
import Verif.Props.C145_Rotate

/-!
C147: normalisation without a square root.
-/
namespace Xo.Norm
open Num (Fl Fmt binary32 binary64)
open Ieee
open Ieee.Spec (num OfType)
open scoped Quaternion
open Spec

theorem den_arith {u e N sl den f : Rat} (hu : 0 < u) (hu1 : u ≤ 1 / 2 ^ 24) (_ : 0 < e) (he1 : e ≤ u / 1000) (n1 : 3 / 4 ≤ N) (n2 : N ≤ 5 / 4)
    (h1 : |sl - N| ≤ 41 / 10 * u * N + 10 * e) (h2 : |den - (1 + sl)| ≤ u * |1 + sl| + e) (h3 : |f - 2 / den| ≤ u * |2 / den| + e) :
    7 / 4 - 1 / 1000 ≤ den ∧ den ≤ 9 / 4 + 1 / 1000 ∧ |f - 2 / (1 + N)| ≤ 13 / 2 * u := by
  norm_num at hu1
  obtain ⟨a1, a2⟩ := abs_le.1 h1
  have hsl : |sl - N| ≤ 53 / 10 * u := h1.trans (by nlinarith)
  obtain ⟨a1, a2⟩ := abs_le.1 hsl
  have hp : 0 ≤ 1 + sl := by linarith
  rw [abs_of_nonneg hp] at h2
  have hd : |den - (1 + N)| ≤ 78 / 10 * u := by
    have e1 : den - (1 + N) = (den - (1 + sl)) + (sl - N) := by ring
    rw [e1]
    refine (abs_add_le _ _).trans ?_
    nlinarith
  obtain ⟨d1, d2⟩ := abs_le.1 hd
  have hd1 : 7 / 4 - 1 / 1000 ≤ den := by linarith
  have hd2 : den ≤ 9 / 4 + 1 / 1000 := by linarith
  refine ⟨hd1, hd2, ?_⟩
  have hd0 : 0 < den := by linarith
  have hN0 : 0 < 1 + N := by linarith
  have q0 : 0 < 2 / den := by positivity
  have q1 : 2 / den ≤ 115 / 100 := by
    rw [div_le_iff₀ hd0]
    linarith
  rw [abs_of_pos q0] at h3
  have hq : |2 / den - 2 / (1 + N)| ≤ 52 / 10 * u := by
    have e1 : 2 / den - 2 / (1 + N) = (2 / den) * ((1 + N) - den) / (1 + N) := by
      field_simp
    rw [e1, abs_div, abs_mul, abs_of_pos q0, abs_of_pos hN0, div_le_iff₀ hN0, abs_sub_comm]
    have := mul_le_mul q1 hd (abs_nonneg _) (by norm_num)
    nlinarith
  have e2 : f - 2 / (1 + N) = (f - 2 / den) + (2 / den - 2 / (1 + N)) := by ring
  rw [e2]
  refine (abs_add_le _ _).trans ?_
  nlinarith

theorem fin_of {a : Fl} (h : Ieee.Spec.Finite a) : ∃ g m, a = .fin g m := by
  cases a with
  | nan => exact h.elim
  | inf => exact h.elim
  | fin s m => exact ⟨s, m, rfl⟩

theorem sq_le_of {x N : Rat} (h : x * x ≤ N) (hN : N ≤ 5 / 4) : |x| ≤ 2 := by
  have := abs_mul_abs_self x
  have := abs_nonneg x
  nlinarith

theorem sl_fast {f : Fmt} (w : Wide f) {q : Quat} (hq : FiniteQuat q) (n2 : sq4 q ≤ 5 / 4) :
    (∃ g m, q.squaredLength f = .fin g m) ∧ |val (q.squaredLength f) - sq4 q| ≤ 41 / 10 * un f * sq4 q + 10 * et f ∧
      |val q.w| ≤ 2 ∧ |val q.x| ≤ 2 ∧ |val q.y| ≤ 2 ∧ |val q.z| ≤ 2 := by
  obtain ⟨hw, hx, hy, hz⟩ := hq
  have e : sq4 q = val q.w * val q.w + val q.x * val q.x + val q.y * val q.y + val q.z * val q.z := by unfold sq4; ring
  have pw := mul_self_nonneg (val q.w)
  have px := mul_self_nonneg (val q.x)
  have py := mul_self_nonneg (val q.y)
  have pz := mul_self_nonneg (val q.z)
  have P : ∀ {a : Fl}, Ieee.Spec.Finite a → val a * val a ≤ sq4 q → SumOf f 1 (Ieee.mul f a a) (val a * val a) |val a * val a| := fun ha h =>
    prod_sum w ha ha (by rw [abs_mul_self]; linarith)
  have F := four w (P hw (by rw [e]; linarith)) (P hx (by rw [e]; linarith)) (P hy (by rw [e]; linarith)) (P hz (by rw [e]; linarith))
  simp only [abs_mul_self] at F
  rw [← e] at F
  exact ⟨fin_of F.1, F.2, sq_le_of (by rw [e]; linarith) n2, sq_le_of (by rw [e]; linarith) n2, sq_le_of (by rw [e]; linarith) n2, sq_le_of (by rw [e]; linarith) n2⟩

theorem factor_fast {f : Fmt} (w : Wide f) {q : Quat} (hq : FiniteQuat q) (n1 : 3 / 4 ≤ sq4 q) (n2 : sq4 q ≤ 5 / 4) :
    ∃ g m, div f (ofNat 2) (add f (ofNat 1) (q.squaredLength f)) = .fin g m ∧ |val (.fin g m) - 2 / (1 + sq4 q)| ≤ 13 / 2 * un f := by
  obtain ⟨⟨g, m, e⟩, h1, _⟩ := sl_fast w hq n2
  have u0 := un_pos f
  have u1 := un_le w
  have e0 := et_pos f
  have he1 : et f ≤ un f / 1000 := by
    refine (et_le w).trans ?_
    have : un f ^ 4 ≤ (1 / 10) ^ 4 := pow_le_pow_left₀ u0.le (u1.trans (by norm_num)) 4
    have e : un f ^ 5 = un f * un f ^ 4 := by ring
    rw [e]
    have := mul_le_mul_of_nonneg_left (this.trans (by norm_num : (1 / 10 : Rat) ^ 4 ≤ 1 / 1000)) u0.le
    linarith
  have big := one_le w
  norm_num at big
  have hsl2 : |val (q.squaredLength f)| ≤ 2 := by
    have := abs_sub_abs_le_abs_sub (val (q.squaredLength f)) (sq4 q)
    rw [abs_of_nonneg (a := sq4 q) (by linarith)] at this
    norm_num at u1
    nlinarith
  have one : val (ofNat 1) = 1 := by norm_num [val, ofNat]
  have two : val (ofNat 2) = 2 := by norm_num [val, ofNat]
  have r1 := rq_un f (1 + val (q.squaredLength f))
  have b1 : |rq f (1 + val (q.squaredLength f))| < 2 ^ f.emax := by
    have a1 := abs_sub_abs_le_abs_sub (rq f (1 + val (q.squaredLength f))) (1 + val (q.squaredLength f))
    have a2 : |1 + val (q.squaredLength f)| ≤ 3 := (abs_add_le _ _).trans (by norm_num; linarith)
    norm_num at u1
    nlinarith
  obtain ⟨g2, m2, e2, v2⟩ := ofRat_finite (z := false && g) b1
  have ea : add f (ofNat 1) (q.squaredLength f) = .fin g2 m2 := by
    rw [e] at e2 ⊢
    rw [← one] at e2
    exact e2
  have r2 := rq_un f (2 / val (.fin g2 m2))
  rw [v2] at r2
  obtain ⟨c1, c2, c3⟩ := den_arith u0 u1 e0 he1 n1 n2 h1 r1 r2
  have b2 : |rq f (2 / val (.fin g2 m2))| < 2 ^ f.emax := by
    rw [v2]
    have a1 := abs_sub_abs_le_abs_sub (rq f (2 / rq f (1 + val (q.squaredLength f)))) (2 / (1 + sq4 q))
    have a2 : |2 / (1 + sq4 q)| ≤ 2 := by
      rw [abs_of_pos (by apply div_pos <;> linarith), div_le_iff₀ (by linarith)]
      linarith
    norm_num at u1
    linarith
  obtain ⟨g3, m3, e3, v3⟩ := ofRat_finite (z := false != g2) b2
  have hm2 : m2 ≠ 0 := by
    intro h
    rw [← v2, h] at c1
    have : val (.fin g2 0) = 0 := by cases g2 <;> simp [val]
    rw [this] at c1
    norm_num at c1
  refine ⟨g3, m3, ?_, by rw [v3, v2]; exact c3⟩
  rw [ea, ← e3, ← two]
  show (if m2 = 0 then _ else _) = _
  rw [if_neg hm2]
  rfl

theorem scale_comp {f : Fmt} (w : Wide f) {a : Fl} (ha : Ieee.Spec.Finite a) (hs : |val a| ≤ 2) {g : Bool} {m F : Rat} (hF : |F| ≤ 2) (h : |val (.fin g m) - F| ≤ 13 / 2 * un f) :
    Ieee.Spec.Finite (Ieee.mul f a (.fin g m)) ∧ |val (Ieee.mul f a (.fin g m)) - val a * F| ≤ 9 * un f * |val a| + et f := by
  obtain ⟨g1, m1, rfl⟩ := fin_of ha
  have u0 := un_pos f
  have u1 := un_le w
  have e0 := et_pos f
  have he1 : et f ≤ 1 := (et_le w).trans (pow_le_one₀ u0.le (u1.trans (by norm_num)))
  have big := one_le w
  norm_num at big
  norm_num at u1
  have hv : |val (.fin g m)| ≤ 21 / 10 := by
    have := abs_sub_abs_le_abs_sub (val (.fin g m)) F
    linarith
  have r := rq_un f (val (.fin g1 m1) * val (.fin g m))
  rw [abs_mul] at r
  have a0 := abs_nonneg (val (.fin g1 m1))
  have k1 : |val (.fin g1 m1)| * |val (.fin g m)| ≤ |val (.fin g1 m1)| * (21 / 10) := mul_le_mul_of_nonneg_left hv a0
  have b : |rq f (val (.fin g1 m1) * val (.fin g m))| < 2 ^ f.emax := by
    have a1 := abs_sub_abs_le_abs_sub (rq f (val (.fin g1 m1) * val (.fin g m))) (val (.fin g1 m1) * val (.fin g m))
    rw [abs_mul (val (.fin g1 m1))] at a1
    nlinarith
  obtain ⟨g2, m2, e2, v2⟩ := ofRat_finite (z := g1 != g) b
  have e' : Ieee.mul f (.fin g1 m1) (.fin g m) = .fin g2 m2 := e2
  rw [e']
  refine ⟨trivial, ?_⟩
  rw [v2]
  have e3 : rq f (val (.fin g1 m1) * val (.fin g m)) - val (.fin g1 m1) * F = (rq f (val (.fin g1 m1) * val (.fin g m)) - val (.fin g1 m1) * val (.fin g m)) + val (.fin g1 m1) * (val (.fin g m) - F) := by ring
  rw [e3]
  refine (abs_add_le _ _).trans ?_
  rw [abs_mul (val (.fin g1 m1))]
  have k2 := mul_le_mul_of_nonneg_left h a0
  have k3 := mul_le_mul_of_nonneg_left k1 u0.le
  nlinarith

theorem sq4_norm (q : Quat) : ((sq4 q : Rat) : ℝ) = ‖exact q‖ * ‖exact q‖ := by
  rw [norm_sq]
  unfold sq4 exact
  push_cast
  ring

/-- The quaternion is scaled by a factor. -/
theorem scaled_close {f : Fmt} (w : Wide f) {q : Quat} (hq : FiniteQuat q) {g : Bool} {m F : Rat} (n2 : ‖exact q‖ ≤ 2) (hF : |F| ≤ 2) (h : |val (.fin g m) - F| ≤ 13 / 2 * un f) :
    FiniteQuat (q.mulBy f (.fin g m)) ∧ ‖exact (q.mulBy f (.fin g m)) - (F : ℝ) • exact q‖ ≤ 18 * unR f * ‖exact q‖ + 2 * etR f := by
  obtain ⟨hw, hx, hy, hz⟩ := hq
  have c : ∀ x : Rat, |(x : ℝ)| ≤ 2 → |x| ≤ 2 := fun x h => by
    have e : ((|x| : Rat) : ℝ) ≤ ((2 : Rat) : ℝ) := by push_cast; exact h
    exact_mod_cast e
  obtain ⟨s1, s2, s3, s4⟩ := comp_small n2
  obtain ⟨t1, t2, t3, t4⟩ := comp_small (q := q) (le_refl _)
  obtain ⟨f1, c1⟩ := scale_comp w hw (c _ s1) hF h
  obtain ⟨f2, c2⟩ := scale_comp w hx (c _ s2) hF h
  obtain ⟨f3, c3⟩ := scale_comp w hy (c _ s3) hF h
  obtain ⟨f4, c4⟩ := scale_comp w hz (c _ s4) hF h
  have u0 : (0 : ℝ) < un f := by exact_mod_cast un_pos f
  have e0 : (0 : ℝ) < et f := by exact_mod_cast et_pos f
  have L : ∀ (r a : Rat), |(a : ℝ)| ≤ ‖exact q‖ → |r - a * F| ≤ 9 * un f * |a| + et f → |(r : ℝ) - F * a| ≤ 9 * un f * ‖exact q‖ + et f := fun r a ha h => by
    have h' := (Rat.cast_le (K := ℝ)).2 h
    push_cast at h'
    rw [mul_comm (F : ℝ)]
    refine h'.trans ?_
    have := mul_le_mul_of_nonneg_left ha u0.le
    linarith
  refine ⟨⟨f1, f2, f3, f4⟩, ?_⟩
  refine (norm_le_of (B := 9 * un f * ‖exact q‖ + et f) (by positivity) ?_ ?_ ?_ ?_).trans (le_of_eq (by unfold unR etR; ring))
  · rw [Quaternion.re_sub, Quaternion.re_smul]
    exact L _ _ t1 c1
  · rw [Quaternion.imI_sub, Quaternion.imI_smul]
    exact L _ _ t2 c2
  · rw [Quaternion.imJ_sub, Quaternion.imJ_smul]
    exact L _ _ t3 c3
  · rw [Quaternion.imK_sub, Quaternion.imK_smul]
    exact L _ _ t4 c4

theorem reals {f : Fmt} (w : Wide f) : 0 < unR f ∧ unR f ≤ 1 / 2 ^ 24 ∧ 0 < etR f ∧ etR f ≤ unR f / 1000 := by
  have u0 := un_pos f
  have u1 := un_le w
  have he1 : et f ≤ un f / 1000 := by
    refine (et_le w).trans ?_
    have : un f ^ 4 ≤ (1 / 10) ^ 4 := pow_le_pow_left₀ u0.le (u1.trans (by norm_num)) 4
    have e : un f ^ 5 = un f * un f ^ 4 := by ring
    rw [e]
    have := mul_le_mul_of_nonneg_left (this.trans (by norm_num : (1 / 10 : Rat) ^ 4 ≤ 1 / 1000)) u0.le
    linarith
  refine ⟨by unfold unR; exact_mod_cast u0, ?_, by unfold etR; exact_mod_cast et_pos f, ?_⟩
  · have := (Rat.cast_le (K := ℝ)).2 u1
    push_cast at this
    exact this
  · have := (Rat.cast_le (K := ℝ)).2 he1
    push_cast at this
    exact this

/-- The length of the exact result. -/
theorem pade {n : ℝ} : |2 / (1 + n * n) * n - 1| ≤ (1 - n) ^ 2 := by
  have h : 0 < 1 + n * n := by nlinarith [mul_self_nonneg n]
  have e : 2 / (1 + n * n) * n - 1 = -((1 - n) ^ 2 / (1 + n * n)) := by
    field_simp
    ring
  rw [e, abs_neg, abs_of_nonneg (by positivity)]
  exact div_le_self (sq_nonneg _) (by nlinarith [mul_self_nonneg n])

theorem fast_core {f : Fmt} (w : Wide f) {q : Quat} (hq : FiniteQuat q) (hn : |‖exact q‖ - 1| ≤ 1 / 16) :
    FiniteQuat (q.normalizeFast f) ∧ ‖exact (q.normalizeFast f) - (2 / (1 + ‖exact q‖ ^ 2)) • exact q‖ ≤ 20 * unR f ∧
      |‖exact (q.normalizeFast f)‖ - 1| ≤ (1 - ‖exact q‖) ^ 2 + 20 * unR f := by
  obtain ⟨a1, a2⟩ := abs_le.1 hn
  obtain ⟨u0, u1, e0, e1⟩ := reals w
  have hs := sq4_norm q
  have n1 : (3 / 4 : Rat) ≤ sq4 q := by
    have : ((3 / 4 : Rat) : ℝ) ≤ ((sq4 q : Rat) : ℝ) := by
      rw [hs]
      push_cast
      nlinarith
    exact_mod_cast this
  have n2 : sq4 q ≤ (5 / 4 : Rat) := by
    have : ((sq4 q : Rat) : ℝ) ≤ ((5 / 4 : Rat) : ℝ) := by
      rw [hs]
      push_cast
      nlinarith
    exact_mod_cast this
  obtain ⟨g, m, ed, hd⟩ := factor_fast w hq n1 n2
  have hF : |2 / (1 + sq4 q)| ≤ 2 := by
    rw [abs_of_pos (by apply div_pos <;> linarith), div_le_iff₀ (by linarith)]
    linarith
  obtain ⟨k1, k2⟩ := scaled_close w hq (by linarith) hF hd
  have eq : q.normalizeFast f = q.mulBy f (.fin g m) := by
    show q.mulBy f (div f (ofNat 2) (add f (ofNat 1) (q.squaredLength f))) = _
    rw [ed]
  have eF : ((2 / (1 + sq4 q) : Rat) : ℝ) = 2 / (1 + ‖exact q‖ * ‖exact q‖) := by
    push_cast
    rw [hs]
  rw [eF] at k2
  rw [eq]
  have k3 : ‖exact (q.mulBy f (.fin g m)) - (2 / (1 + ‖exact q‖ * ‖exact q‖)) • exact q‖ ≤ 20 * unR f := by
    refine k2.trans ?_
    have : unR f * ‖exact q‖ ≤ unR f * (17 / 16) := mul_le_mul_of_nonneg_left (by linarith) u0.le
    linarith
  refine ⟨k1, by rw [sq]; exact k3, ?_⟩
  have k4 := (abs_norm_sub_norm_le _ _).trans k3
  have pos : 0 < 1 + ‖exact q‖ * ‖exact q‖ := by nlinarith [mul_self_nonneg ‖exact q‖]
  rw [norm_smul, Real.norm_eq_abs, abs_of_pos (a := 2 / (1 + ‖exact q‖ * ‖exact q‖)) (by positivity)] at k4
  have k5 := pade (n := ‖exact q‖)
  have e : ‖exact (q.mulBy f (.fin g m))‖ - 1 = (‖exact (q.mulBy f (.fin g m))‖ - 2 / (1 + ‖exact q‖ * ‖exact q‖) * ‖exact q‖) + (2 / (1 + ‖exact q‖ * ‖exact q‖) * ‖exact q‖ - 1) := by ring
  rw [e]
  refine (abs_add_le _ _).trans ?_
  linarith

/-- **C147, one normalisation.** For a quaternion whose length is near one, the fast normalisation keeps the direction up to rounding, and the error of the length becomes the square of the error before, up to rounding. -/
theorem C147_fast {f : Fmt} (hf : FloatOrDouble f) (q : Quat) (hq : FiniteQuat q) (hn : |‖exact q‖ - 1| ≤ 1 / 16) :
    FiniteQuat (q.normalizeFast f) ∧ ‖exact (q.normalizeFast f) - (2 / (1 + ‖exact q‖ ^ 2)) • exact q‖ ≤ 20 * Spec.unit f ∧
      |‖exact (q.normalizeFast f)‖ - 1| ≤ (1 - ‖exact q‖) ^ 2 + 20 * Spec.unit f := fast_core (wide hf) hq hn

theorem turn_arith {u e d A n m M N : ℝ} (hu : 0 < u) (hu1 : u ≤ 1 / 2 ^ 24) (he : 0 < e) (he1 : e ≤ u / 1000) (hd : 0 ≤ d) (hd1 : d ≤ 1 / 64) (hA : A = 2 * d ^ 2 + 30 * u)
    (hn : |n - 1| ≤ A) (hm : |m - 1| ≤ d) (hM : |M - n * m| ≤ 41 / 5 * u * (n * m) + 20 * e) (hN : |M - 1| ≤ 1 / 16 → |N - 1| ≤ (1 - M) ^ 2 + 20 * u) :
    |M - 1| ≤ 1 / 16 ∧ |N - 1| ≤ A := by
  norm_num at hu1
  have hA1 : A ≤ d / 32 + 30 * u := by rw [hA]; nlinarith
  obtain ⟨n1, n2⟩ := abs_le.1 hn
  obtain ⟨m1, m2⟩ := abs_le.1 hm
  have hnm : |n * m - 1| ≤ 21 / 20 * d + 31 * u := by
    have e1 : n * m - 1 = (n - 1) * m + (m - 1) := by ring
    rw [e1]
    refine (abs_add_le _ _).trans ?_
    rw [abs_mul]
    have hm0 : |m| ≤ 65 / 64 := by rw [abs_le]; constructor <;> linarith
    have := mul_le_mul (hn.trans hA1) hm0 (abs_nonneg _) (by linarith)
    linarith
  obtain ⟨p1, p2⟩ := abs_le.1 hnm
  have hD : |M - 1| ≤ 21 / 20 * d + 40 * u := by
    have e1 : M - 1 = (M - n * m) + (n * m - 1) := by ring
    rw [e1]
    refine (abs_add_le _ _).trans ?_
    have : u * (n * m) ≤ u * (103 / 100) := mul_le_mul_of_nonneg_left (by linarith) hu.le
    linarith
  have h1 : |M - 1| ≤ 1 / 16 := by linarith
  refine ⟨h1, (hN h1).trans ?_⟩
  have h2 : (1 - M) ^ 2 ≤ (21 / 20 * d + 40 * u) ^ 2 := by
    rw [← sq_abs (1 - M), abs_sub_comm]
    exact pow_le_pow_left₀ (abs_nonneg _) hD 2
  rw [hA]
  have h3 : u * d ≤ u * (1 / 64) := mul_le_mul_of_nonneg_left hd1 hu.le
  have h4 : u * u ≤ u * (1 / 16777216) := mul_le_mul_of_nonneg_left hu1 hu.le
  have h5 := mul_self_nonneg d
  nlinarith

theorem turn_step {f : Fmt} (w : Wide f) {d : ℝ} (hd : 0 ≤ d) (hd1 : d ≤ 1 / 64) {q r : Quat} (hq : FiniteQuat q ∧ |‖exact q‖ - 1| ≤ 2 * d ^ 2 + 30 * unR f)
    (hr : FiniteQuat r ∧ |‖exact r‖ - 1| ≤ d) :
    FiniteQuat (q.turnFast f r) ∧ |‖exact (q.turnFast f r)‖ - 1| ≤ 2 * d ^ 2 + 30 * unR f := by
  obtain ⟨u0, u1, e0, e1⟩ := reals w
  obtain ⟨a1, a2⟩ := abs_le.1 hq.2
  obtain ⟨b1, b2⟩ := abs_le.1 hr.2
  have small : 2 * d ^ 2 + 30 * unR f ≤ 1 := by
    norm_num at u1
    nlinarith
  obtain ⟨p1, p2⟩ := product_close w hq.1 hr.1 (by linarith) (by linarith)
  have p3 := (abs_norm_sub_norm_le _ _).trans p2
  rw [norm_mul] at p3
  have key := turn_arith (N := ‖exact (q.turnFast f r)‖) u0 u1 e0 e1 hd hd1 rfl hq.2 hr.2 p3 (fun h => (fast_core w p1 h).2.2)
  exact ⟨(fast_core w p1 key.1).1, key.2⟩

/-- **C147, a history.** A program that turns an orientation by any number of rotations, each with a length within `d` of one, and normalises with the fast function after each step, never drifts:
the error of the length stays below `2 d²` and thirty roundings, whatever the number of steps. -/
theorem C147_history {f : Fmt} (hf : FloatOrDouble f) (d : ℝ) (hd : 0 ≤ d) (hd1 : d ≤ 1 / 64) (q : Quat) (rs : List Quat)
    (hq : FiniteQuat q ∧ |‖exact q‖ - 1| ≤ 2 * d ^ 2 + 30 * Spec.unit f) (hr : ∀ r ∈ rs, FiniteQuat r ∧ |‖exact r‖ - 1| ≤ d) :
    FiniteQuat (rs.foldl (Quat.turnFast f) q) ∧ |‖exact (rs.foldl (Quat.turnFast f) q)‖ - 1| ≤ 2 * d ^ 2 + 30 * Spec.unit f := by
  induction rs generalizing q with
  | nil => exact hq
  | cons r rs ih =>
    exact ih _ (turn_step (wide hf) hd hd1 hq (hr r (by simp))) (fun s hs => hr s (by simp [hs]))

theorem eps_le {f : Fmt} (hf : FloatOrDouble f) : ∃ m, tryFastEpsilon f = .fin false m ∧ m ≤ 22 / 10 ^ 9 ∧ (23 / 10 ^ 9) ^ 2 ≤ 5 * un f := by
  have w := wide hf
  have hu : (1 / 2 ^ 53 : Rat) ≤ un f := by
    rcases hf with rfl | rfl <;> norm_num [un, binary32, binary64]
  have u0 := un_pos f
  have u1 := un_le w
  have e1 : et f ≤ 1 / 10 ^ 11 := (et_le w).trans ((pow_le_pow_left₀ u0.le u1 5).trans (by norm_num))
  have r := rq_un f (2107342 / 10 ^ 14)
  rw [abs_of_pos (a := (2107342 / 10 ^ 14 : Rat)) (by norm_num)] at r
  have := (abs_le.1 r).2
  have big := one_le w
  norm_num at big u1 e1 this hu
  refine ⟨rq f (2107342 / 10 ^ 14), ofRat_pos (by norm_num) ?_, ?_, ?_⟩
  · norm_num
    linarith
  · norm_num
    linarith
  · norm_num
    linarith

theorem branch {f : Fmt} (hf : FloatOrDouble f) {V : Rat} (hb : |1 - V| < 2 ^ f.emax / 2) (h : lt (Ieee.abs (sub f (ofNat 1) (.fin false V))) (tryFastEpsilon f) = true) :
    |1 - V| ≤ 23 / 10 ^ 9 := by
  have w := wide hf
  obtain ⟨m, em, hm, _⟩ := eps_le hf
  have u0 := un_pos f
  have u1 := un_le w
  have e1 : et f ≤ 1 / 10 ^ 11 := (et_le w).trans ((pow_le_pow_left₀ u0.le u1 5).trans (by norm_num))
  have r := rq_un f (1 - V)
  have big := one_le w
  norm_num at big u1 e1
  have hv : val (ofNat 1) + val (neg (.fin false V)) = 1 - V := by
    norm_num [val, ofNat, neg]
    ring
  have a0 := abs_nonneg (1 - V)
  have k : un f * |1 - V| ≤ 1 / 16777216 * |1 - V| := mul_le_mul_of_nonneg_right u1 a0
  have a1 := abs_sub_abs_le_abs_sub (rq f (1 - V)) (1 - V)
  have a2 := abs_sub_abs_le_abs_sub (1 - V) (rq f (1 - V))
  rw [abs_sub_comm (1 - V) (rq f (1 - V))] at a2
  obtain ⟨g2, m2, e2, v2⟩ := ofRat_finite (f := f) (z := false && true) (x := 1 - V) (by linarith)
  have es : sub f (ofNat 1) (.fin false V) = .fin g2 m2 := by
    rw [← hv] at e2
    exact e2
  rw [es, em] at h
  obtain ⟨t, k', ek, vk⟩ := abs_fin g2 m2
  rw [ek] at h
  have h' : val (.fin t k') < val (.fin false m) := by simpa [lt] using h
  rw [vk, v2] at h'
  have : val (.fin false m) = m := rfl
  rw [this] at h'
  norm_num at hm ⊢
  linarith

/-- **C147, fast or slow.** With moderate components and a length above epsilon, the function that picks one of the two gives a finite result whose length is one, up to rounding. -/
theorem C147_try {f : Fmt} (hf : FloatOrDouble f) (q : Quat) (hw : Moderate f q.w) (hx : Moderate f q.x) (hy : Moderate f q.y) (hz : Moderate f q.z)
    (hl : lt (epsilon f) (q.length f) = true) :
    FiniteQuat (q.normalizeTryFast f (tryFastEpsilon f)) ∧ |‖exact (q.normalizeTryFast f (tryFastEpsilon f))‖ - 1| ≤ 30 * Spec.unit f := by
  have w := wide hf
  obtain ⟨u0, u1, e0, e1⟩ := reals w
  have uu : ((Spec.unit f : Rat) : ℝ) = unR f := rfl
  by_cases h : lt (Ieee.abs (sub f (ofNat 1) (q.squaredLength f))) (tryFastEpsilon f) = true
  · have sw := moderate_small w hw
    have sx := moderate_small w hx
    have sy := moderate_small w hy
    have sz := moderate_small w hz
    have A := acc_step w (by norm_num) (by norm_num) (acc_step w (by norm_num) (by norm_num) (acc_step w (by norm_num) (by norm_num) (acc_one w sw) sx) sy) sz
    obtain ⟨l, m, _, _, _, _, h5, _, _⟩ := length_facts w (by norm_num) A hl
    have e : val q.w * val q.w + val q.x * val q.x + val q.y * val q.y + val q.z * val q.z = sq4 q := by unfold sq4; ring
    rw [e] at A h5
    obtain ⟨V, eV, hV0, hV⟩ := acc_rel w (by norm_num) A h5
    obtain ⟨_, _, _, _, s0, sM⟩ := A
    have eV : q.squaredLength f = .fin false V := eV
    have hu0 := un_pos f
    have hu1 := un_le w
    have big := one_le w
    norm_num at big hu1 sM
    have ks : un f * sq4 q ≤ 1 / 16777216 * sq4 q := mul_le_mul_of_nonneg_right hu1 s0
    obtain ⟨v1, v2⟩ := abs_le.1 hV
    have hb := branch hf (V := V) (by rw [abs_lt]; constructor <;> linarith) (by rw [← eV]; exact h)
    obtain ⟨_, _, _, heps⟩ := eps_le hf
    obtain ⟨b1, b2⟩ := abs_le.1 hb
    norm_num at b1 b2
    have hN1 : sq4 q ≤ 11 / 10 := by linarith
    have hN : |1 - sq4 q| ≤ 23 / 10 ^ 9 + 5 * un f := by
      have : un f * sq4 q ≤ un f * (11 / 10) := mul_le_mul_of_nonneg_left hN1 hu0.le
      rw [abs_le]
      norm_num
      constructor <;> linarith
    have hNR := (Rat.cast_le (K := ℝ)).2 hN
    have hER := (Rat.cast_le (K := ℝ)).2 heps
    push_cast at hNR hER
    rw [sq4_norm] at hNR
    have c : ((un f : Rat) : ℝ) = unR f := rfl
    rw [c] at hNR hER
    have n0 := norm_nonneg (exact q)
    have hd : |1 - ‖exact q‖| ≤ |1 - ‖exact q‖ * ‖exact q‖| := by
      have e : 1 - ‖exact q‖ * ‖exact q‖ = (1 - ‖exact q‖) * (1 + ‖exact q‖) := by ring
      rw [e, abs_mul, abs_of_nonneg (a := 1 + ‖exact q‖) (by linarith)]
      exact le_mul_of_one_le_right (abs_nonneg _) (by linarith)
    have hd2 := hd.trans hNR
    have hq : FiniteQuat q := ⟨hw.1, hx.1, hy.1, hz.1⟩
    obtain ⟨r1, _, r3⟩ := fast_core w hq (by rw [abs_sub_comm]; norm_num at u1 hd2 ⊢; linarith)
    have eq : q.normalizeTryFast f (tryFastEpsilon f) = q.normalizeFast f := if_pos h
    rw [eq]
    refine ⟨r1, r3.trans ?_⟩
    rw [uu]
    have hsq : (1 - ‖exact q‖) ^ 2 ≤ (23 / 10 ^ 9 + 5 * unR f) ^ 2 := by
      rw [← sq_abs]
      exact pow_le_pow_left₀ (abs_nonneg _) hd2 2
    have h4 : unR f * unR f ≤ unR f * (1 / 16777216) := mul_le_mul_of_nonneg_left (u1.trans (by norm_num)) u0.le
    have ex : (23 / 10 ^ 9 + 5 * unR f) ^ 2 = (23 / 10 ^ 9) ^ 2 + 10 * (23 / 10 ^ 9) * unR f + 25 * (unR f * unR f) := by ring
    rw [ex] at hsq
    norm_num at hsq hER
    linarith
  · have eq : q.normalizeTryFast f (tryFastEpsilon f) = (q.normalize f).1 := if_neg h
    obtain ⟨k1, k2, k3, k4, k5, _⟩ := C144_quat_partial hf q hw hx hy hz hl
    rw [eq]
    refine ⟨⟨k1.1, k2.1, k3.1, k4.1⟩, ?_⟩
    have k6 := (Rat.cast_le (K := ℝ)).2 k5
    push_cast at k6
    rw [sq4_norm] at k6
    have n0 := norm_nonneg (exact (q.normalize f).1)
    have e : ‖exact (q.normalize f).1‖ * ‖exact (q.normalize f).1‖ - 1 = (‖exact (q.normalize f).1‖ - 1) * (1 + ‖exact (q.normalize f).1‖) := by ring
    rw [e, abs_mul, abs_of_nonneg (a := 1 + ‖exact (q.normalize f).1‖) (by linarith)] at k6
    have := le_mul_of_one_le_right (abs_nonneg (‖exact (q.normalize f).1‖ - 1)) (by linarith : 1 ≤ 1 + ‖exact (q.normalize f).1‖)
    rw [uu] at k6 ⊢
    linarith

/-- Non-vacuity: a small turn about the z axis in `double`, stored with components that are not exactly of unit length, repeated a million times from the identity. -/
example : let r : Quat := ⟨.fin false (4503599627370495 / 2 ^ 52), .fin false 0, .fin false 0, .fin false (1 / 2 ^ 7)⟩
    let q : Quat := ⟨.fin false 1, .fin false 0, .fin false 0, .fin false 0⟩
    FiniteQuat ((List.replicate 1000000 r).foldl (Quat.turnFast binary64) q) ∧
      |‖exact ((List.replicate 1000000 r).foldl (Quat.turnFast binary64) q)‖ - 1| ≤ 2 * (1 / 1024) ^ 2 + 30 * Spec.unit binary64 := by
  intro r q
  have key : ∀ (n : ℝ) (d : ℝ), 0 ≤ n → |n * n - 1| ≤ d → |n - 1| ≤ d := fun n d h0 h => by
    have e : n * n - 1 = (n - 1) * (1 + n) := by ring
    rw [e, abs_mul, abs_of_nonneg (a := 1 + n) (by linarith)] at h
    exact (le_mul_of_one_le_right (abs_nonneg _) (by linarith)).trans h
  refine C147_history (Or.inr rfl) (1 / 1024) (by norm_num) (by norm_num) q _ ⟨⟨trivial, trivial, trivial, trivial⟩, key _ _ (norm_nonneg _) ?_⟩ ?_
  · rw [norm_sq]
    norm_num [exact, q, val]
    have : (0 : ℝ) ≤ Spec.unit binary64 := by exact_mod_cast (un_pos binary64).le
    linarith
  · intro s hs
    rw [List.eq_of_mem_replicate hs]
    refine ⟨⟨trivial, trivial, trivial, trivial⟩, key _ _ (norm_nonneg _) ?_⟩
    rw [norm_sq]
    norm_num [exact, r, val, abs_le]

end Xo.Norm
