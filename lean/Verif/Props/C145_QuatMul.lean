import Verif.Model.QuatMul
import Verif.Props.C144_Norm
import Mathlib.Analysis.Quaternion

/-!
C145: many rotations, with rounding.
-/
namespace Xo.Norm
open Num (Fl Fmt binary32 binary64)
open Ieee
open Ieee.Spec (num OfType)
open scoped Quaternion

namespace Spec

/-- All four components are finite. -/
def FiniteQuat (q : Quat) : Prop := Ieee.Spec.Finite q.w ∧ Ieee.Spec.Finite q.x ∧ Ieee.Spec.Finite q.y ∧ Ieee.Spec.Finite q.z

/-- The quaternion of mathematics that a quaternion stands for. -/
def exact (q : Quat) : ℍ[ℝ] := ⟨val q.w, val q.x, val q.y, val q.z⟩

end Spec
open Spec

/-- A computed sum `S` of products with the exact value `s`, whose terms have the sum `A` of magnitudes. -/
def SumOf (f : Fmt) (k : Nat) (S : Fl) (s A : Rat) : Prop :=
  ∃ g m, S = .fin g m ∧ |val S - s| ≤ ((1 + un f) ^ k - 1) * A + (3 * k - 2) * et f ∧ |s| ≤ A ∧ A ≤ k * 100

theorem prod_sum {f : Fmt} (hf : Wide f) {a b : Fl} (ha : Ieee.Spec.Finite a) (hb : Ieee.Spec.Finite b) (h : |val a * val b| ≤ 100) :
    SumOf f 1 (Ieee.mul f a b) (val a * val b) |val a * val b| := by
  cases a with
  | nan => exact ha.elim
  | inf => exact ha.elim
  | fin s m =>
    cases b with
    | nan => exact hb.elim
    | inf => exact hb.elim
    | fin t n =>
      have hr := rq_un f (val (.fin s m) * val (.fin t n))
      have h1 := un_le hf
      have h4 := un_pos f
      have h5 : et f ≤ 1 := (et_le hf).trans (pow_le_one₀ h4.le (h1.trans (by norm_num)))
      have h3 := one_le hf
      have hb : |rq f (val (.fin s m) * val (.fin t n))| < 2 ^ f.emax := by
        have k := abs_sub_abs_le_abs_sub (rq f (val (.fin s m) * val (.fin t n))) (val (.fin s m) * val (.fin t n))
        have k2 : un f * |val (.fin s m) * val (.fin t n)| ≤ 1 * 100 := mul_le_mul (by norm_num at h1; linarith) h (abs_nonneg _) (by norm_num)
        norm_num at h3
        linarith
      obtain ⟨g, x, e, v⟩ := ofRat_finite (z := s != t) hb
      have e' : Ieee.mul f (.fin s m) (.fin t n) = .fin g x := e
      have he := et_pos f
      refine ⟨g, x, e', ?_, le_refl _, by push_cast; linarith⟩
      rw [e', v, pow_one]
      push_cast
      linarith

theorem sum_neg {f : Fmt} {k : Nat} {S : Fl} {s A : Rat} (h : SumOf f k S s A) : SumOf f k (neg S) (-s) A := by
  obtain ⟨g, m, rfl, h1, h2, h3⟩ := h
  refine ⟨!g, m, rfl, ?_, by rwa [abs_neg], h3⟩
  rw [num_neg (a := .fin g m), ← abs_neg]
  have : -(-val (.fin g m) - -s) = val (.fin g m) - s := by ring
  rwa [this]

theorem sum_step_arith {u e a b s A t V p V' : Rat} (hu : 0 ≤ u) (_ : 0 ≤ e) (ha : u ≤ a) (hA : |s| ≤ A)
    (h1 : |V - s| ≤ a * A + b) (h2 : |p - t| ≤ u * |t| + e) (h3 : |V' - (V + p)| ≤ u * |V + p| + e) :
    |V' - (s + t)| ≤ (a + u + u * a) * (A + |t|) + (b * (1 + u) + (2 + u) * e) := by
  have hA0 : 0 ≤ A := (abs_nonneg s).trans hA
  have t0 := abs_nonneg t
  have k0 : |V + p| ≤ (A + (a * A + b)) + (|t| + (u * |t| + e)) := by
    have e1 : V + p = (s + (V - s)) + (t + (p - t)) := by ring
    rw [e1]
    refine (abs_add_le _ _).trans (add_le_add ((abs_add_le _ _).trans ?_) ((abs_add_le _ _).trans ?_)) <;> linarith
  have k1 := mul_le_mul_of_nonneg_left k0 hu
  have k3 : u * |t| ≤ a * |t| := mul_le_mul_of_nonneg_right ha t0
  have k4 : u * (u * |t|) ≤ u * (a * |t|) := mul_le_mul_of_nonneg_left k3 hu
  have e2 : V' - (s + t) = (V' - (V + p)) + (V - s) + (p - t) := by ring
  rw [e2]
  refine (abs_add_le _ _).trans ((add_le_add_left (abs_add_le _ _) _).trans ?_)
  nlinarith

theorem sum_step {f : Fmt} (hf : Wide f) {k : Nat} (hk : k + 1 ≤ 4) (hk1 : 1 ≤ k) {S P : Fl} {s A t : Rat} (hS : SumOf f k S s A) (hP : SumOf f 1 P t |t|) :
    SumOf f (k + 1) (add f S P) (s + t) (A + |t|) := by
  obtain ⟨g, m, rfl, hV, hs, hA⟩ := hS
  obtain ⟨g', m', rfl, hp, _, ht⟩ := hP
  have h1 := un_le hf
  have h2 := et_le hf
  have h3 := one_le hf
  have h4 := un_pos f
  have h6 := et_pos f
  have hk4 : (k : Rat) ≤ 3 := by exact_mod_cast (by omega : k ≤ 3)
  have hk0 : (1 : Rat) ≤ k := by exact_mod_cast hk1
  have hr := rq_un f (val (.fin g m) + val (.fin g' m'))
  have hA0 : 0 ≤ A := (abs_nonneg s).trans hs
  have t0 := abs_nonneg t
  have hu1 : un f ≤ (1 + un f) ^ k - 1 := by
    have := one_add_mul_le_pow (a := un f) (by linarith) k
    nlinarith
  have hp' : |val (.fin g' m') - t| ≤ un f * |t| + et f := by
    rw [pow_one] at hp
    push_cast at hp
    linarith
  have hall := sum_step_arith h4.le h6.le hu1 hs hV hp' hr
  have e1 : (1 + un f) ^ k - 1 + un f + un f * ((1 + un f) ^ k - 1) = (1 + un f) ^ (k + 1) - 1 := by ring
  rw [e1] at hall
  have hU : (1 + un f) ^ (k + 1) ≤ 2 := by
    have a1 : (1 + un f) ^ (k + 1) ≤ (1 + un f) ^ 4 := pow_le_pow_right₀ (by linarith) hk
    have a2 : (1 + un f) ^ 4 ≤ (1 + 1 / 10) ^ 4 := pow_le_pow_left₀ (by linarith) (by norm_num at h1; linarith) 4
    norm_num at a2
    linarith
  have hu' : un f ≤ 1 / 100 := by norm_num at h1; linarith
  have he1 : et f ≤ 1 := h2.trans (pow_le_one₀ h4.le (by linarith))
  have hkk : (k : Rat) * un f ≤ 3 * (1 / 100) := mul_le_mul hk4 hu' h4.le (by norm_num)
  have hfin : |rq f (val (.fin g m) + val (.fin g' m')) - (s + t)| ≤ ((1 + un f) ^ (k + 1) - 1) * (A + |t|) + (3 * ((k + 1 : Nat) : Rat) - 2) * et f := by
    refine hall.trans ?_
    push_cast
    have : ((3 * (k : Rat) - 2) * (1 + un f) + (2 + un f)) * et f ≤ (3 * (k + 1 : Rat) - 2) * et f := mul_le_mul_of_nonneg_right (by nlinarith) h6.le
    nlinarith
  have hAt : A + |t| ≤ ((k + 1 : Nat) : Rat) * 100 := by push_cast at ht ⊢; linarith
  have hst : |s + t| ≤ A + |t| := (abs_add_le _ _).trans (by linarith)
  have hb : |rq f (val (.fin g m) + val (.fin g' m'))| < 2 ^ f.emax := by
    have a1 := abs_sub_abs_le_abs_sub (rq f (val (.fin g m) + val (.fin g' m'))) (s + t)
    have a2 : ((1 + un f) ^ (k + 1) - 1) * (A + |t|) ≤ 1 * (A + |t|) := mul_le_mul_of_nonneg_right (by linarith) (by linarith)
    have a3 : (3 * ((k + 1 : Nat) : Rat) - 2) * et f ≤ 10 * 1 := mul_le_mul (by push_cast; linarith) he1 h6.le (by norm_num)
    have a4 : ((k + 1 : Nat) : Rat) * 100 ≤ 400 := by push_cast; linarith
    norm_num at h3
    linarith
  obtain ⟨g2, x, e, v⟩ := ofRat_finite (z := g && g') hb
  have e' : add f (.fin g m) (.fin g' m') = .fin g2 x := e
  refine ⟨g2, x, e', ?_, hst, hAt⟩
  rw [e', v]
  exact hfin

theorem sub_sum {f : Fmt} {S P : Fl} : sub f S P = add f S (neg P) := rfl

theorem four {f : Fmt} (hf : Wide f) {P1 P2 P3 P4 : Fl} {a b c d : Rat} (h1 : SumOf f 1 P1 a |a|) (h2 : SumOf f 1 P2 b |b|) (h3 : SumOf f 1 P3 c |c|) (h4 : SumOf f 1 P4 d |d|) :
    Ieee.Spec.Finite (add f (add f (add f P1 P2) P3) P4) ∧
      |val (add f (add f (add f P1 P2) P3) P4) - (a + b + c + d)| ≤ 41 / 10 * un f * (|a| + |b| + |c| + |d|) + 10 * et f := by
  obtain ⟨g, m, e, h, _, _⟩ := sum_step hf (by norm_num) (by norm_num) (sum_step hf (by norm_num) (by norm_num) (sum_step hf (by norm_num) (by norm_num) h1 h2) h3) h4
  refine ⟨by rw [e]; trivial, h.trans ?_⟩
  have hA : 0 ≤ |a| + |b| + |c| + |d| := by positivity
  have hu : (1 + un f) ^ (1 + 1 + 1 + 1) - 1 ≤ 41 / 10 * un f := by
    have k1 := un_le hf
    have k2 := un_pos f
    norm_num at k1 ⊢
    generalize un f = u at *
    nlinarith [mul_pos k2 k2, mul_pos (mul_pos k2 k2) k2, mul_le_mul_of_nonneg_left k1 k2.le, mul_le_mul_of_nonneg_left k1 (mul_pos k2 k2).le, mul_le_mul_of_nonneg_left k1 (mul_pos (mul_pos k2 k2) k2).le]
  have := mul_le_mul_of_nonneg_right hu hA
  have he := et_pos f
  push_cast
  nlinarith

/-- One unit of rounding, as a real number. -/
noncomputable def unR (f : Fmt) : ℝ := (un f : ℝ)

/-- The smallest magnitude, as a real number. -/
noncomputable def etR (f : Fmt) : ℝ := (et f : ℝ)

theorem norm_sq (q : ℍ[ℝ]) : ‖q‖ * ‖q‖ = q.re * q.re + q.imI * q.imI + q.imJ * q.imJ + q.imK * q.imK := by
  rw [← Quaternion.normSq_eq_norm_mul_self, Quaternion.normSq_def']
  ring

/-- The magnitudes of the products of components in one order add up to no more than the product of the lengths. -/
theorem cauchy {a b c d p q r s N M : ℝ} (hN : 0 ≤ N) (hM : 0 ≤ M) (h1 : N * N = a * a + b * b + c * c + d * d) (h2 : M * M = p * p + q * q + r * r + s * s) :
    |a * p| + |b * q| + |c * r| + |d * s| ≤ N * M := by
  simp only [abs_mul]
  rw [← abs_mul_abs_self a, ← abs_mul_abs_self b, ← abs_mul_abs_self c, ← abs_mul_abs_self d] at h1
  rw [← abs_mul_abs_self p, ← abs_mul_abs_self q, ← abs_mul_abs_self r, ← abs_mul_abs_self s] at h2
  have := mul_nonneg hN hM
  generalize |a| = a at *
  generalize |b| = b at *
  generalize |c| = c at *
  generalize |d| = d at *
  generalize |p| = p at *
  generalize |q| = q at *
  generalize |r| = r at *
  generalize |s| = s at *
  refine abs_le_of_sq_le_sq' ?_ this |>.2
  have e : (N * M) ^ 2 = (N * N) * (M * M) := by ring
  rw [e, h1, h2]
  nlinarith [sq_nonneg (a * q - b * p), sq_nonneg (a * r - c * p), sq_nonneg (a * s - d * p), sq_nonneg (b * r - c * q), sq_nonneg (b * s - d * q), sq_nonneg (c * s - d * r)]

theorem norm_le_of {q : ℍ[ℝ]} {B : ℝ} (hB : 0 ≤ B) (h1 : |q.re| ≤ B) (h2 : |q.imI| ≤ B) (h3 : |q.imJ| ≤ B) (h4 : |q.imK| ≤ B) : ‖q‖ ≤ 2 * B := by
  refine abs_le_of_sq_le_sq' ?_ (by linarith) |>.2
  have e : ‖q‖ ^ 2 = ‖q‖ * ‖q‖ := by ring
  rw [e, norm_sq]
  have k : ∀ x : ℝ, |x| ≤ B → x * x ≤ B * B := fun x hx => by
    rw [← abs_mul_abs_self]
    exact mul_self_le_mul_self (abs_nonneg x) hx
  nlinarith [k _ h1, k _ h2, k _ h3, k _ h4]

theorem comp_small {q : Quat} {B : ℝ} (hB : ‖exact q‖ ≤ B) : |(val q.w : ℝ)| ≤ B ∧ |(val q.x : ℝ)| ≤ B ∧ |(val q.y : ℝ)| ≤ B ∧ |(val q.z : ℝ)| ≤ B := by
  have h := norm_sq (exact q)
  have h0 := norm_nonneg (exact q)
  have k : ∀ x : ℝ, x * x ≤ ‖exact q‖ * ‖exact q‖ → |x| ≤ B := fun x hx => by
    refine le_trans ?_ hB
    refine abs_le_of_sq_le_sq ?_ h0
    nlinarith
  simp only [exact] at h k ⊢
  refine ⟨k _ ?_, k _ ?_, k _ ?_, k _ ?_⟩ <;> rw [h] <;> nlinarith [mul_self_nonneg (val q.w : ℝ), mul_self_nonneg (val q.x : ℝ), mul_self_nonneg (val q.y : ℝ), mul_self_nonneg (val q.z : ℝ)]

/-- One component of a product. -/
theorem comp_close {f : Fmt} {V a b c d : Rat} {N : ℝ} (h : |V - (a + b + c + d)| ≤ 41 / 10 * un f * (|a| + |b| + |c| + |d|) + 10 * et f) (hN : |(a : ℝ)| + |(b : ℝ)| + |(c : ℝ)| + |(d : ℝ)| ≤ N) :
    |(V : ℝ) - (a + b + c + d)| ≤ 41 / 10 * unR f * N + 10 * etR f := by
  have h' := (Rat.cast_le (K := ℝ)).2 h
  push_cast at h'
  have hu : (0 : ℝ) ≤ un f := by exact_mod_cast (un_pos f).le
  refine h'.trans ?_
  have := mul_le_mul_of_nonneg_left hN hu
  unfold unR etR
  linarith

theorem product_close {f : Fmt} (hf : Wide f) {a b : Quat} (ha : FiniteQuat a) (hb : FiniteQuat b) (na : ‖exact a‖ ≤ 10) (nb : ‖exact b‖ ≤ 10) :
    FiniteQuat (Quat.mul f a b) ∧ ‖exact (Quat.mul f a b) - exact a * exact b‖ ≤ 41 / 5 * unR f * (‖exact a‖ * ‖exact b‖) + 20 * etR f := by
  obtain ⟨a1, a2, a3, a4⟩ := ha
  obtain ⟨b1, b2, b3, b4⟩ := hb
  obtain ⟨s1, s2, s3, s4⟩ := comp_small na
  obtain ⟨t1, t2, t3, t4⟩ := comp_small nb
  have hsm : ∀ x y : Rat, |(x : ℝ)| ≤ 10 → |(y : ℝ)| ≤ 10 → |x * y| ≤ 100 := fun x y hx hy => by
    have : |((x * y : Rat) : ℝ)| ≤ 100 := by
      push_cast
      rw [abs_mul]
      have := mul_le_mul hx hy (abs_nonneg _) (by norm_num)
      linarith
    exact_mod_cast this
  have P : ∀ {x y : Fl}, Ieee.Spec.Finite x → Ieee.Spec.Finite y → |(val x : ℝ)| ≤ 10 → |(val y : ℝ)| ≤ 10 → SumOf f 1 (Ieee.mul f x y) (val x * val y) |val x * val y| :=
    fun hx hy sx sy => prod_sum hf hx hy (hsm _ _ sx sy)
  have Q : ∀ {x y : Fl}, Ieee.Spec.Finite x → Ieee.Spec.Finite y → |(val x : ℝ)| ≤ 10 → |(val y : ℝ)| ≤ 10 → SumOf f 1 (neg (Ieee.mul f x y)) (-(val x * val y)) |-(val x * val y)| :=
    fun hx hy sx sy => by
      rw [abs_neg]
      exact sum_neg (P hx hy sx sy)
  have w := four hf (P a1 b1 s1 t1) (Q a2 b2 s2 t2) (Q a3 b3 s3 t3) (Q a4 b4 s4 t4)
  have x := four hf (P a1 b2 s1 t2) (P a2 b1 s2 t1) (P a3 b4 s3 t4) (Q a4 b3 s4 t3)
  have y := four hf (P a1 b3 s1 t3) (P a3 b1 s3 t1) (P a4 b2 s4 t2) (Q a2 b4 s2 t4)
  have z := four hf (P a1 b4 s1 t4) (P a4 b1 s4 t1) (P a2 b3 s2 t3) (Q a3 b2 s3 t2)
  have hN := norm_sq (exact a)
  have hM := norm_sq (exact b)
  have n0 := norm_nonneg (exact a)
  have m0 := norm_nonneg (exact b)
  refine ⟨⟨w.1, x.1, y.1, z.1⟩, ?_⟩
  have he : (0 : ℝ) < et f := by exact_mod_cast (et_pos f)
  have hu : (0 : ℝ) < un f := by exact_mod_cast (un_pos f)
  have hB : 0 ≤ 41 / 10 * unR f * (‖exact a‖ * ‖exact b‖) + 10 * etR f := by
    unfold unR etR
    positivity
  simp only [exact] at hN hM
  have cw := comp_close (N := ‖exact a‖ * ‖exact b‖) w.2 (by
    push_cast
    simp only [abs_neg]
    exact cauchy n0 m0 hN hM)
  have cx := comp_close (N := ‖exact a‖ * ‖exact b‖) x.2 (by
    push_cast
    simp only [abs_neg]
    exact cauchy (b := (val a.x : ℝ)) n0 m0 hN (hM.trans (by ring)))
  have cy := comp_close (N := ‖exact a‖ * ‖exact b‖) y.2 (by
    push_cast
    simp only [abs_neg]
    exact cauchy n0 m0 (hN.trans (by ring)) (hM.trans (by ring)))
  have cz := comp_close (N := ‖exact a‖ * ‖exact b‖) z.2 (by
    push_cast
    simp only [abs_neg]
    exact cauchy n0 m0 (hN.trans (by ring)) (hM.trans (by ring)))
  refine (norm_le_of hB ?_ ?_ ?_ ?_).trans (by linarith)
  · refine le_of_eq_of_le (congrArg _ ?_) cw
    rw [Quaternion.re_sub, Quaternion.re_mul]
    simp only [exact, Quat.mul, sub]
    push_cast
    ring
  · refine le_of_eq_of_le (congrArg _ ?_) cx
    rw [Quaternion.imI_sub, Quaternion.imI_mul]
    simp only [exact, Quat.mul, sub]
    push_cast
    ring
  · refine le_of_eq_of_le (congrArg _ ?_) cy
    rw [Quaternion.imJ_sub, Quaternion.imJ_mul]
    simp only [exact, Quat.mul, sub]
    push_cast
    ring
  · refine le_of_eq_of_le (congrArg _ ?_) cz
    rw [Quaternion.imK_sub, Quaternion.imK_mul]
    simp only [exact, Quat.mul, sub]
    push_cast
    ring

/-- What holds after `k` factors whose exact product is `P`. -/
def Inv (f : Fmt) (ε : ℝ) (k : Nat) (p : Quat) (P : ℍ[ℝ]) : Prop :=
  FiniteQuat p ∧ |‖exact p‖ - 1| ≤ 2 * k * ε ∧ ‖exact p - P‖ ≤ 40 * k * unR f

theorem inv_step {f : Fmt} (hf : Wide f) {δ : ℝ} (hδ : 0 ≤ δ) {k : Nat} (hk : 1 ≤ k) (hs : ((k : ℝ) + 1) * (δ + 10 * unR f) ≤ 1 / 4) {p q : Quat} {P : ℍ[ℝ]}
    (hp : Inv f (δ + 10 * unR f) k p P) (hq : FiniteQuat q) (nq : |‖exact q‖ - 1| ≤ δ) :
    Inv f (δ + 10 * unR f) (k + 1) (Quat.mul f p q) (P * exact q) := by
  obtain ⟨fp, np, ep⟩ := hp
  have hu : 0 < unR f := by unfold unR; exact_mod_cast un_pos f
  have ht0 : 0 < etR f := by unfold etR; exact_mod_cast et_pos f
  have hu1 : unR f ≤ 1 / 10000 := by
    have := un_le hf
    have h : un f ≤ 1 / 10000 := by norm_num at this; linarith
    have := (Rat.cast_le (K := ℝ)).2 h
    push_cast at this
    exact this
  have ht : 20 * etR f ≤ 1 / 100 * unR f := by
    have h := (Rat.cast_le (K := ℝ)).2 (et_le hf)
    push_cast at h
    have h2 : unR f ^ 5 ≤ unR f * (1 / 10000) := by
      have a1 : unR f ^ 4 ≤ (1 / 10000) ^ 4 := pow_le_pow_left₀ hu.le hu1 4
      have a2 : unR f ^ 5 = unR f * unR f ^ 4 := by ring
      rw [a2]
      exact mul_le_mul_of_nonneg_left (a1.trans (by norm_num)) hu.le
    unfold etR unR at *
    linarith
  have hk1 : (1 : ℝ) ≤ k := by exact_mod_cast hk
  set ε := δ + 10 * unR f with hε
  have hε0 : 0 < ε := by positivity
  have hkε : (k : ℝ) * ε ≤ 1 / 4 - ε := by linarith
  have hε1 : ε ≤ 1 / 8 := by nlinarith
  have hδ1 : δ ≤ 1 / 8 := by linarith
  have hkδ : (k : ℝ) * δ ≤ 1 / 4 := by
    have : (k : ℝ) * δ ≤ k * ε := mul_le_mul_of_nonneg_left (by linarith) (by linarith)
    linarith
  obtain ⟨p1, p2⟩ := abs_le.1 np
  obtain ⟨q1, q2⟩ := abs_le.1 nq
  have hp15 : ‖exact p‖ ≤ 3 / 2 := by linarith
  have hp05 : 1 / 2 ≤ ‖exact p‖ := by linarith
  obtain ⟨fm, em⟩ := product_close hf fp hq (by linarith) (by linarith)
  have hX : 3 / 8 ≤ ‖exact p‖ * ‖exact q‖ := by
    have := mul_le_mul hp05 (by linarith : 3 / 4 ≤ ‖exact q‖) (by norm_num) (norm_nonneg _)
    linarith
  have em' : ‖exact (Quat.mul f p q) - exact p * exact q‖ ≤ 83 / 10 * unR f * (‖exact p‖ * ‖exact q‖) := by
    refine em.trans ?_
    nlinarith
  have hn : ‖exact p * exact q‖ = ‖exact p‖ * ‖exact q‖ := norm_mul _ _
  refine ⟨fm, ?_, ?_⟩
  · have t1 := norm_sub_norm_le (exact (Quat.mul f p q)) (exact p * exact q)
    have t2 := norm_sub_norm_le (exact p * exact q) (exact (Quat.mul f p q))
    rw [norm_sub_rev] at t2
    rw [hn] at t1 t2
    push_cast
    have hup : ‖exact q‖ * (1 + 83 / 10 * unR f) ≤ 1 + ε := by
      have := mul_le_mul q2 (le_refl (83 / 10 * unR f)) (by positivity) (by linarith : (0:ℝ) ≤ δ)
      nlinarith
    have hlo : 1 - ε ≤ ‖exact q‖ * (1 - 83 / 10 * unR f) := by nlinarith
    have hup' := mul_le_mul_of_nonneg_left hup (norm_nonneg (exact p))
    have hlo' := mul_le_mul_of_nonneg_left hlo (norm_nonneg (exact p))
    have a1 : ‖exact p‖ * (1 + ε) ≤ (1 + 2 * k * ε) * (1 + ε) := mul_le_mul_of_nonneg_right (by linarith) (by linarith)
    have a2 : (1 - 2 * k * ε) * (1 - ε) ≤ ‖exact p‖ * (1 - ε) := mul_le_mul_of_nonneg_right (by linarith) (by linarith)
    have a3 : (k : ℝ) * ε * ε ≤ 1 / 4 * ε := mul_le_mul_of_nonneg_right (by linarith) hε0.le
    have a4 : 0 ≤ (k : ℝ) * ε * ε := by positivity
    rw [abs_le]
    constructor <;> nlinarith
  · have e : exact (Quat.mul f p q) - P * exact q = (exact (Quat.mul f p q) - exact p * exact q) + (exact p - P) * exact q := by
      rw [sub_mul]
      abel
    rw [e]
    refine (norm_add_le _ _).trans ?_
    rw [norm_mul]
    have b1 : ‖exact p - P‖ * ‖exact q‖ ≤ (40 * k * unR f) * (1 + δ) := mul_le_mul ep (by linarith) (norm_nonneg _) (by positivity)
    have b2 : ‖exact p‖ * ‖exact q‖ ≤ 3 / 2 * (9 / 8) := mul_le_mul hp15 (by linarith) (norm_nonneg _) (by norm_num)
    have b3 := mul_le_mul_of_nonneg_left b2 hu.le
    have b4 := mul_le_mul_of_nonneg_left hkδ hu.le
    push_cast
    have b5 : 83 / 10 * unR f * (‖exact p‖ * ‖exact q‖) = 83 / 10 * (unR f * (‖exact p‖ * ‖exact q‖)) := by ring
    have b6 : 40 * k * unR f * (1 + δ) = 40 * (k * unR f) + 40 * (unR f * (k * δ)) := by ring
    have b7 : 40 * ((k : ℝ) + 1) * unR f = 40 * (k * unR f) + 40 * unR f := by ring
    rw [b7]
    rw [b5] at em'
    rw [b6] at b1
    refine (add_le_add em' b1).trans ?_
    linarith

theorem inv_all {f : Fmt} (hf : Wide f) {δ : ℝ} (hδ : 0 ≤ δ) : ∀ (qs : List Quat) {k : Nat} {p : Quat} {P : ℍ[ℝ]}, 1 ≤ k → ((k : ℝ) + qs.length) * (δ + 10 * unR f) ≤ 1 / 4 →
    (∀ q ∈ qs, FiniteQuat q ∧ |‖exact q‖ - 1| ≤ δ) → Inv f (δ + 10 * unR f) k p P →
    Inv f (δ + 10 * unR f) (k + qs.length) (Quat.mulAll f p qs) (P * (qs.map exact).prod)
  | [], k, p, P, _, _, _, h => by simpa [Quat.mulAll] using h
  | q :: qs, k, p, P, hk, hs, hq, h => by
    have hu : 0 < unR f := by unfold unR; exact_mod_cast un_pos f
    have h1 := inv_step hf hδ hk (by
      refine le_trans (mul_le_mul_of_nonneg_right ?_ (by positivity)) hs
      push_cast [List.length_cons]
      have : (0 : ℝ) ≤ qs.length := by positivity
      linarith) h (hq q (by simp)).1 (hq q (by simp)).2
    have h2 := inv_all hf hδ qs (k := k + 1) (by omega) (by
      refine le_trans (le_of_eq ?_) hs
      push_cast [List.length_cons]
      ring) (fun r hr => hq r (by simp [hr])) h1
    rw [List.map_cons, List.prod_cons, ← mul_assoc]
    have e : k + (q :: qs).length = k + 1 + qs.length := by rw [List.length_cons]; omega
    have e2 : Quat.mulAll f p (q :: qs) = Quat.mulAll f (Quat.mul f p q) qs := by
      unfold Quat.mulAll
      rw [List.foldl_cons]
    rw [e, e2]
    exact h2

/-- The length of a product of quaternions drifts from one, and the product from the exact product, by no more than a number of roundings in proportion to the number of factors. -/
theorem C145_history (f : Fmt) (hf : f = binary32 ∨ f = binary64) (δ : ℝ) (hδ : 0 ≤ δ) (q : Quat) (qs : List Quat)
    (hq : ∀ r ∈ q :: qs, FiniteQuat r ∧ |‖exact r‖ - 1| ≤ δ) (hn : (qs.length + 1 : ℝ) * (δ + 10 / 2 ^ f.prec) ≤ 1 / 4) :
    FiniteQuat (Quat.mulAll f q qs) ∧
      |‖exact (Quat.mulAll f q qs)‖ - 1| ≤ 2 * (qs.length + 1) * (δ + 10 / 2 ^ f.prec) ∧
      ‖exact (Quat.mulAll f q qs) - ((q :: qs).map exact).prod‖ ≤ 40 * (qs.length + 1) / 2 ^ f.prec := by
  have hw : Wide f := by
    rcases hf with rfl | rfl
    · exact wide32
    · exact wide64
  have hu0 : unR f = 1 / 2 ^ f.prec := by
    unfold unR un
    push_cast
    rfl
  have e10 : (10 : ℝ) / 2 ^ f.prec = 10 * unR f := by rw [hu0]; ring
  have hu : 0 < unR f := by unfold unR; exact_mod_cast un_pos f
  rw [e10] at hn ⊢
  obtain ⟨h1, h2⟩ := hq q (by simp)
  have h0 : Inv f (δ + 10 * unR f) 1 q (exact q) := by
    refine ⟨h1, ?_, ?_⟩
    · push_cast
      linarith
    · rw [sub_self, norm_zero]
      positivity
  obtain ⟨r1, r2, r3⟩ := inv_all hw hδ qs (le_refl 1) (by push_cast; linarith) (fun r hr => hq r (by simp [hr])) h0
  refine ⟨r1, ?_, ?_⟩
  · push_cast at r2
    rw [add_comm (qs.length : ℝ) 1]
    exact r2
  · push_cast at r3
    rw [List.map_cons, List.prod_cons]
    refine r3.trans (le_of_eq ?_)
    rw [hu0]
    ring

/-- One product. -/
theorem C145_product (f : Fmt) (hf : f = binary32 ∨ f = binary64) (a b : Quat) (ha : FiniteQuat a) (hb : FiniteQuat b) (na : ‖exact a‖ ≤ 10) (nb : ‖exact b‖ ≤ 10) :
    FiniteQuat (Quat.mul f a b) ∧ ‖exact (Quat.mul f a b) - exact a * exact b‖ ≤ 41 / 5 / 2 ^ f.prec * (‖exact a‖ * ‖exact b‖) + 20 * 2 ^ f.emin := by
  have hw : Wide f := by
    rcases hf with rfl | rfl
    · exact wide32
    · exact wide64
  obtain ⟨h1, h2⟩ := product_close hw ha hb na nb
  refine ⟨h1, h2.trans (le_of_eq ?_)⟩
  unfold unR un etR et
  push_cast
  ring

end Xo.Norm
