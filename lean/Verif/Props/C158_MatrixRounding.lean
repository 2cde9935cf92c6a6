import Verif.Model.MatrixFl
import Verif.Props.C87_Matrix
import Verif.Props.C131_Accuracy
import Verif.Props.C157_Curves

/-!
C158: the quaternion of a matrix, with rounding.
-/
namespace Xo.MatFl
open Num (Fl Fmt binary32 binary64)
open Ieee Norm LongSum Geom
open Ieee.Spec (OfType num IsNan)
open Norm.Spec (FloatOrDouble)
open LongSum.Spec

/-- The value of a number as a real number. -/
noncomputable abbrev rv (a : Fl) : ℝ := (val a : ℝ)

theorem un_real {f : Fmt} (w : Wide f) : (0 : ℝ) < (un f : ℝ) ∧ (un f : ℝ) ≤ 1 / 16777216 ∧ (0 : ℝ) < (et f : ℝ) ∧ (et f : ℝ) ≤ (un f : ℝ) / 1000 := by
  have u0 := un_pos f
  have u1 := un_le w
  have e0 := et_pos f
  have e2 : et f ≤ un f / 1000 := by
    have := et_le w
    have h5 : un f ^ 5 ≤ 1 / 1000 * un f := by
      have : un f ^ 5 = un f ^ 4 * un f := by ring
      rw [this]
      refine mul_le_mul_of_nonneg_right ((pow_le_pow_left₀ u0.le u1 4).trans (by norm_num)) u0.le
    linarith
  norm_num at u1
  refine ⟨by exact_mod_cast u0, ?_, by exact_mod_cast e0, ?_⟩
  · have := (Rat.cast_le (K := ℝ)).2 u1
    push_cast at this
    exact this
  · have := (Rat.cast_le (K := ℝ)).2 e2
    push_cast at this
    exact this

theorem rat_abs_le {x : Rat} {B : Nat} (h : |(x : ℝ)| ≤ B) : |x| ≤ B := by exact_mod_cast h

theorem add_r {f : Fmt} (w : Wide f) {a b : Fl} (ha : Fine f a) (hb : Fine f b) {A B α β M : ℝ} (h1 : |rv a - A| ≤ α) (h2 : |rv b - B| ≤ β) (hM : |A + B| ≤ M) (M1 : M ≤ 8) (hαβ : α + β ≤ 1 / 50) :
    Fine f (add f a b) ∧ |rv (add f a b) - (A + B)| ≤ α + β + (M + 1 / 50) * (un f : ℝ) := by
  obtain ⟨u0, u1, -, -⟩ := un_real w
  have hbig := one_le w
  norm_num at hbig
  have d : |rv a + rv b - (A + B)| ≤ α + β := by
    rw [show rv a + rv b - (A + B) = (rv a - A) + (rv b - B) by ring]
    exact (abs_add_le _ _).trans (add_le_add h1 h2)
  have m : |rv a + rv b| ≤ M + 1 / 50 := by
    have h := abs_add_le (A + B) (rv a + rv b - (A + B))
    rw [add_sub_cancel] at h
    linarith
  have m' : |val a + val b| ≤ (9 : Nat) := rat_abs_le (by push_cast; exact m.trans (by linarith))
  obtain ⟨g, h⟩ := add_fine w ha hb le_rfl (by push_cast at m'; linarith)
  refine ⟨g, ?_⟩
  have h' : |rv (add f a b) - (rv a + rv b)| ≤ (un f : ℝ) * |rv a + rv b| := by exact_mod_cast h
  have := mul_le_mul_of_nonneg_left m u0.le
  have := abs_sub_le (rv (add f a b)) (rv a + rv b) (A + B)
  linarith

theorem sub_r {f : Fmt} (w : Wide f) {a b : Fl} (ha : Fine f a) (hb : Fine f b) {A B α β M : ℝ} (h1 : |rv a - A| ≤ α) (h2 : |rv b - B| ≤ β) (hM : |A - B| ≤ M) (M1 : M ≤ 8) (hαβ : α + β ≤ 1 / 50) :
    Fine f (sub f a b) ∧ |rv (sub f a b) - (A - B)| ≤ α + β + (M + 1 / 50) * (un f : ℝ) := by
  obtain ⟨u0, u1, -, -⟩ := un_real w
  have hbig := one_le w
  norm_num at hbig
  have d : |rv a - rv b - (A - B)| ≤ α + β := by
    rw [show rv a - rv b - (A - B) = (rv a - A) - (rv b - B) by ring]
    exact (abs_sub _ _).trans (add_le_add h1 h2)
  have m : |rv a - rv b| ≤ M + 1 / 50 := by
    have h := abs_add_le (A - B) (rv a - rv b - (A - B))
    rw [add_sub_cancel] at h
    linarith
  have m' : |val a - val b| ≤ (9 : Nat) := rat_abs_le (by push_cast; exact m.trans (by linarith))
  obtain ⟨g, h⟩ := sub_fine w ha hb (by push_cast at m'; linarith)
  refine ⟨g, ?_⟩
  have h' : |rv (sub f a b) - (rv a - rv b)| ≤ (un f : ℝ) * |rv a - rv b| := by exact_mod_cast h
  have := mul_le_mul_of_nonneg_left m u0.le
  have := abs_sub_le (rv (sub f a b)) (rv a - rv b) (A - B)
  linarith

/-- The root of `4 p²`, half of it, and its half inverse. -/
theorem root_r {f : Fmt} (w : Wide f) {S : Fl} (hS : Fine f S) {p δ : ℝ} (δ0 : 0 ≤ δ) (δ1 : δ ≤ 1 / 1000) (hp : 0 ≤ p) (p1 : p ≤ 1) (hq : 0.98 ≤ 4 * p ^ 2)
    (h : |rv S - 4 * p ^ 2| ≤ 3 * δ + 11 * (un f : ℝ)) :
    Ieee.Spec.Finite (mul f (.fin false (1 / 2)) (Norm.sqrt f S)) ∧ |rv (mul f (.fin false (1 / 2)) (Norm.sqrt f S)) - p| ≤ δ + 6 * (un f : ℝ) ∧
    Ieee.Spec.Finite (div f (.fin false (1 / 2)) (Norm.sqrt f S)) ∧ |rv (div f (.fin false (1 / 2)) (Norm.sqrt f S)) - 1 / (4 * p)| ≤ δ + 6 * (un f : ℝ) := by
  obtain ⟨u0, u1, e0, e1⟩ := un_real w
  have hbig := one_le w
  norm_num at hbig
  have S0 : 0.97 ≤ rv S := by linarith [(abs_le.1 h).1]
  have S1 : rv S ≤ 4.01 := by nlinarith [(abs_le.1 h).2]
  have S0' : 0 < val S := by
    have : (0 : ℝ) < rv S := by linarith
    exact_mod_cast this
  obtain ⟨fr, hr⟩ := sqrt_close (s := val S) (α := 0) (β := 0) hS S0'.le le_rfl (by norm_num) le_rfl (by simp) S0'.le
  have eu : (un f : ℝ) = 1 / 2 ^ f.prec := by unfold un; push_cast; rfl
  have ee : (et f : ℝ) = 2 ^ f.emin := by unfold et; push_cast; rfl
  have hr1 : |rv (Norm.sqrt f S) - Real.sqrt (rv S)| ≤ 3 / 2 * (un f : ℝ) * Real.sqrt (rv S) + (et f : ℝ) := by
    rw [eu, ee]
    refine hr.trans (le_of_eq ?_)
    push_cast
    rw [Real.sqrt_zero]
    ring
  have q0 : 0 ≤ rv S := by linarith
  have qs := Real.mul_self_sqrt q0
  have r0 : 0.98 ≤ Real.sqrt (rv S) := Real.le_sqrt_of_sq_le (by norm_num at S0 ⊢; linarith)
  have r1 : Real.sqrt (rv S) ≤ 2.01 := Real.sqrt_le_iff.2 ⟨by norm_num, by norm_num at S1 ⊢; linarith⟩
  have p0 : 0.98 ≤ 2 * p := by nlinarith
  set r := Real.sqrt (rv S) with hrr
  have d1 : |r - 2 * p| ≤ (3 * δ + 11 * (un f : ℝ)) / 1.96 := by
    rw [le_div_iff₀ (by norm_num)]
    have e : rv S - 4 * p ^ 2 = (r - 2 * p) * (r + 2 * p) := by rw [← qs]; ring
    rw [e, abs_mul, abs_of_pos (show 0 < r + 2 * p by linarith)] at h
    have := mul_le_mul_of_nonneg_left (show (1.96 : ℝ) ≤ r + 2 * p by linarith) (abs_nonneg (r - 2 * p))
    linarith
  have ur := mul_le_mul_of_nonneg_left r1 u0.le
  have d2 : |rv (Norm.sqrt f S) - 2 * p| ≤ 1.54 * δ + 8.8 * (un f : ℝ) := by
    have d1' : |r - 2 * p| ≤ 1.54 * δ + 5.62 * (un f : ℝ) := d1.trans (by rw [div_le_iff₀ (by norm_num)]; linarith)
    have ur' : 3 / 2 * (un f : ℝ) * r ≤ 3.02 * (un f : ℝ) := by linarith
    have := abs_sub_le (rv (Norm.sqrt f S)) r (2 * p)
    linarith
  set R := Norm.sqrt f S with hR
  have R0 : 0.97 ≤ rv R := by linarith [(abs_le.1 d2).1]
  have R1 : rv R ≤ 2.01 := by linarith [(abs_le.1 d2).2]
  have fh : Ieee.Spec.Finite (.fin false (1 / 2)) := trivial
  have vh : val (.fin false (1 / 2)) = 1 / 2 := rfl
  have R0' : (0 : Rat) < val R := by
    have : (0 : ℝ) < rv R := by linarith
    exact_mod_cast this
  have R1' : val R ≤ (3 : Nat) := by
    have : rv R ≤ (3 : Nat) := by push_cast; linarith
    exact_mod_cast this
  have R2' : (1 : Rat) ≤ 2 * val R := by
    refine (Rat.cast_le (K := ℝ)).1 ?_
    push_cast
    linarith
  push_cast at R1'
  obtain ⟨gm, hm⟩ := mul_fine w fh fr (by rw [vh, abs_of_pos (by positivity)]; linarith)
  have bq : (1 / 2 : Rat) / val R ≤ 1 := by rw [div_le_one₀ R0']; linarith
  obtain ⟨gd, hd⟩ := div_fine w fh fr (by linarith) (by rw [vh, abs_of_pos (by positivity)]; linarith)
  rw [vh, abs_of_pos (show 0 < 1 / 2 * val R by positivity)] at hm
  rw [vh, abs_of_pos (show 0 < 1 / 2 / val R by positivity)] at hd
  have hm' : |rv (mul f (.fin false (1 / 2)) R) - 1 / 2 * rv R| ≤ (un f : ℝ) * (1 / 2 * rv R) + (et f : ℝ) := by
    have := (Rat.cast_le (K := ℝ)).2 hm
    push_cast at this
    exact this
  have hd' : |rv (div f (.fin false (1 / 2)) R) - 1 / 2 / rv R| ≤ (un f : ℝ) * (1 / 2 / rv R) + (et f : ℝ) := by
    have := (Rat.cast_le (K := ℝ)).2 hd
    push_cast at this
    exact this
  have bq' : (1 / 2 : ℝ) / rv R ≤ 1 := by rw [div_le_one₀ (by linarith)]; linarith
  have uR := mul_le_mul_of_nonneg_left R1 u0.le
  have uq := mul_le_mul_of_nonneg_left bq' u0.le
  refine ⟨gm.1, ?_, gd, ?_⟩
  · rw [abs_le] at hm' d2 ⊢
    constructor <;> linarith [hm'.1, hm'.2, d2.1, d2.2]
  · have e : 1 / 2 / rv R - 1 / (4 * p) = (2 * p - rv R) / (rv R * (4 * p)) := by
      have : rv R ≠ 0 := by linarith
      have : p ≠ 0 := by linarith
      field_simp
      ring
    have h4 : |1 / 2 / rv R - 1 / (4 * p)| ≤ 0.56 * (1.54 * δ + 8.8 * (un f : ℝ)) := by
      have pr : 1.88 ≤ rv R * (4 * p) := by nlinarith
      rw [e, abs_div, abs_of_pos (show 0 < rv R * (4 * p) by linarith), div_le_iff₀ (by linarith), abs_sub_comm]
      have := mul_le_mul_of_nonneg_left pr (show 0 ≤ 0.56 * (1.54 * δ + 8.8 * (un f : ℝ)) by positivity)
      linarith
    have := abs_sub_le (rv (div f (.fin false (1 / 2)) R)) (1 / 2 / rv R) (1 / (4 * p))
    linarith

/-- A product with the half inverse. -/
theorem mul_r {f : Fmt} (w : Wide f) {a b : Fl} (ha : Ieee.Spec.Finite a) (hb : Ieee.Spec.Finite b) {p x c δ : ℝ} (δ0 : 0 ≤ δ) (δ1 : δ ≤ 1 / 1000) (hc : c = 4 * p * x ∨ c = -(4 * p * x)) (hp : 0.98 ≤ 2 * p) (hpx : |2 * p * x| ≤ 1)
    (x1 : |x| ≤ 1) (h1 : |rv a - c| ≤ 2 * δ + 3 * (un f : ℝ)) (h2 : |rv b - 1 / (4 * p)| ≤ δ + 6 * (un f : ℝ)) : Ieee.Spec.Finite (mul f a b) ∧ |rv (mul f a b) - c / (4 * p)| ≤ 4 * δ + 17 * (un f : ℝ) := by
  obtain ⟨u0, u1, e0, e1⟩ := un_real w
  have hbig := one_le w
  norm_num at hbig
  have p0 : 0 < 4 * p := by linarith
  have hc2 : |c| ≤ 2 := by
    have : |c| = 2 * |2 * p * x| := by
      rcases hc with rfl | rfl
      · rw [show 4 * p * x = 2 * (2 * p * x) by ring, abs_mul, abs_of_pos (by norm_num : (0 : ℝ) < 2)]
      · rw [abs_neg, show 4 * p * x = 2 * (2 * p * x) by ring, abs_mul, abs_of_pos (by norm_num : (0 : ℝ) < 2)]
    linarith
  have i1 : 1 / (4 * p) ≤ 0.52 := by rw [div_le_iff₀ p0]; linarith
  have i0 : 0 < 1 / (4 * p) := by positivity
  have hb1 : |rv b| ≤ 0.53 := by rw [abs_le] at h2 ⊢; constructor <;> linarith [h2.1, h2.2]
  have cx : |c / (4 * p)| ≤ 1 := by
    have : |c / (4 * p)| = |x| := by
      rcases hc with rfl | rfl
      · rw [mul_div_cancel_left₀ _ p0.ne']
      · rw [neg_div, mul_div_cancel_left₀ _ p0.ne', abs_neg]
    linarith
  have d : |rv a * rv b - c / (4 * p)| ≤ 0.53 * (2 * δ + 3 * (un f : ℝ)) + 2 * (δ + 6 * (un f : ℝ)) := by
    rw [show rv a * rv b - c / (4 * p) = (rv a - c) * rv b + c * (rv b - 1 / (4 * p)) by ring]
    refine (abs_add_le _ _).trans (add_le_add ?_ ?_) <;> rw [abs_mul]
    · rw [mul_comm (0.53 : ℝ)]
      exact mul_le_mul h1 hb1 (abs_nonneg _) ((abs_nonneg _).trans h1)
    · exact mul_le_mul hc2 h2 (abs_nonneg _) (by norm_num)
  have m : |rv a * rv b| ≤ 1.1 := by
    have h := abs_add_le (c / (4 * p)) (rv a * rv b - c / (4 * p))
    rw [add_sub_cancel] at h
    linarith
  have m' : |val a * val b| ≤ (2 : Nat) := rat_abs_le (by push_cast; exact m.trans (by norm_num))
  obtain ⟨g, h⟩ := mul_fine w ha hb (by push_cast at m'; linarith)
  refine ⟨g.1, ?_⟩
  have h' : |rv (mul f a b) - (rv a * rv b)| ≤ (un f : ℝ) * |rv a * rv b| + (et f : ℝ) := by
    have := (Rat.cast_le (K := ℝ)).2 h
    push_cast at this
    exact this
  have := mul_le_mul_of_nonneg_left m u0.le
  have := abs_sub_le (rv (mul f a b)) (rv a * rv b) (c / (4 * p))
  linarith

namespace Spec

/-- The matrix of a rotation; C87 says that it turns every vector as the quaternion does. -/
noncomputable def matrix (q : Quat ℝ) : Mat33 ℝ := Mat33.fromAxes (Quat.localX q) (Quat.localY q) (Quat.localZ q)

/-- The numbers are of the type, and at most `δ` from those of an exact matrix. -/
structure Near (f : Fmt) (δ : ℝ) (m : Mat33 Fl) (r : Mat33 ℝ) : Prop where
  h00 : (Ieee.Spec.Finite m.e00 ∧ OfType f m.e00) ∧ |(val m.e00 : ℝ) - r.e00| ≤ δ
  h01 : (Ieee.Spec.Finite m.e01 ∧ OfType f m.e01) ∧ |(val m.e01 : ℝ) - r.e01| ≤ δ
  h02 : (Ieee.Spec.Finite m.e02 ∧ OfType f m.e02) ∧ |(val m.e02 : ℝ) - r.e02| ≤ δ
  h10 : (Ieee.Spec.Finite m.e10 ∧ OfType f m.e10) ∧ |(val m.e10 : ℝ) - r.e10| ≤ δ
  h11 : (Ieee.Spec.Finite m.e11 ∧ OfType f m.e11) ∧ |(val m.e11 : ℝ) - r.e11| ≤ δ
  h12 : (Ieee.Spec.Finite m.e12 ∧ OfType f m.e12) ∧ |(val m.e12 : ℝ) - r.e12| ≤ δ
  h20 : (Ieee.Spec.Finite m.e20 ∧ OfType f m.e20) ∧ |(val m.e20 : ℝ) - r.e20| ≤ δ
  h21 : (Ieee.Spec.Finite m.e21 ∧ OfType f m.e21) ∧ |(val m.e21 : ℝ) - r.e21| ≤ δ
  h22 : (Ieee.Spec.Finite m.e22 ∧ OfType f m.e22) ∧ |(val m.e22 : ℝ) - r.e22| ≤ δ

/-- The numbers of a quaternion are finite, and at most `ε` from those of an exact one. -/
def QuatNear (ε : ℝ) (a : Quat Fl) (q : Quat ℝ) : Prop :=
  (Ieee.Spec.Finite a.w ∧ |(val a.w : ℝ) - q.w| ≤ ε) ∧ (Ieee.Spec.Finite a.x ∧ |(val a.x : ℝ) - q.x| ≤ ε) ∧
  (Ieee.Spec.Finite a.y ∧ |(val a.y : ℝ) - q.y| ≤ ε) ∧ (Ieee.Spec.Finite a.z ∧ |(val a.z : ℝ) - q.z| ≤ ε)

/-- The opposite quaternion, which stands for the same rotation. -/
noncomputable def opposite (q : Quat ℝ) : Quat ℝ := ⟨-q.w, -q.x, -q.y, -q.z⟩

end Spec
open Spec

/-- One branch: `P` is the component whose square is taken from the diagonal, `X`, `Y`, `Z` are the others. -/
theorem branch {f : Fmt} (w : Wide f) {S a b c : Fl} {P X Y Z δ : ℝ} (δ0 : 0 ≤ δ) (δ1 : δ ≤ 1 / 1000) (hu : P ^ 2 + X ^ 2 + Y ^ 2 + Z ^ 2 = 1) (hP : 0.98 ≤ 4 * P ^ 2)
    (hS : Fine f S) (h : |rv S - 4 * P ^ 2| ≤ 3 * δ + 11 * (un f : ℝ)) (ha : Fine f a ∧ |rv a - 4 * P * X| ≤ 2 * δ + 3 * (un f : ℝ)) (hb : Fine f b ∧ |rv b - 4 * P * Y| ≤ 2 * δ + 3 * (un f : ℝ))
    (hc : Fine f c ∧ |rv c - 4 * P * Z| ≤ 2 * δ + 3 * (un f : ℝ)) :
    ∃ s : ℝ, (s = 1 ∨ s = -1) ∧ (Ieee.Spec.Finite (mul f (.fin false (1 / 2)) (Norm.sqrt f S)) ∧ |rv (mul f (.fin false (1 / 2)) (Norm.sqrt f S)) - s * P| ≤ 4 * δ + 17 * (un f : ℝ)) ∧
      (∀ d : Fl, ∀ V : ℝ, (d = a ∧ V = X) ∨ (d = b ∧ V = Y) ∨ (d = c ∧ V = Z) → Ieee.Spec.Finite (mul f d (div f (.fin false (1 / 2)) (Norm.sqrt f S))) ∧
        |rv (mul f d (div f (.fin false (1 / 2)) (Norm.sqrt f S))) - s * V| ≤ 4 * δ + 17 * (un f : ℝ)) := by
  obtain ⟨u0, u1, e0, e1⟩ := un_real w
  have main : ∀ p s : ℝ, 0 ≤ p → (s = 1 ∨ s = -1) → P = s * p → ∃ s : ℝ, (s = 1 ∨ s = -1) ∧ (Ieee.Spec.Finite (mul f (.fin false (1 / 2)) (Norm.sqrt f S)) ∧ |rv (mul f (.fin false (1 / 2)) (Norm.sqrt f S)) - s * P| ≤ 4 * δ + 17 * (un f : ℝ)) ∧
      (∀ d : Fl, ∀ V : ℝ, (d = a ∧ V = X) ∨ (d = b ∧ V = Y) ∨ (d = c ∧ V = Z) → Ieee.Spec.Finite (mul f d (div f (.fin false (1 / 2)) (Norm.sqrt f S))) ∧
        |rv (mul f d (div f (.fin false (1 / 2)) (Norm.sqrt f S))) - s * V| ≤ 4 * δ + 17 * (un f : ℝ)) := by
    intro p s p0 hs e
    have ss : s * s = 1 := by rcases hs with rfl | rfl <;> norm_num
    have e2 : P ^ 2 = p ^ 2 := by rw [e, mul_pow, pow_two s, ss, one_mul]
    rw [e2] at hP h
    have p1 : p ≤ 1 := by nlinarith [sq_nonneg X, sq_nonneg Y, sq_nonneg Z]
    have pl : 0.98 ≤ 2 * p := by nlinarith
    obtain ⟨g1, k1, g2, k2⟩ := root_r w hS δ0 δ1 p0 p1 hP h
    refine ⟨s, hs, ⟨g1, ?_⟩, ?_⟩
    · rw [e, ← mul_assoc, ss, one_mul]
      linarith
    · intro d V hd
      have hV : (Fine f d ∧ |rv d - 4 * P * V| ≤ 2 * δ + 3 * (un f : ℝ)) ∧ P ^ 2 + V ^ 2 ≤ 1 := by
        rcases hd with ⟨rfl, rfl⟩ | ⟨rfl, rfl⟩ | ⟨rfl, rfl⟩
        · exact ⟨ha, by nlinarith [sq_nonneg Y, sq_nonneg Z]⟩
        · exact ⟨hb, by nlinarith [sq_nonneg X, sq_nonneg Z]⟩
        · exact ⟨hc, by nlinarith [sq_nonneg X, sq_nonneg Y]⟩
      obtain ⟨⟨fd, kd⟩, hV⟩ := hV
      rw [e2] at hV
      have v1 : |V| ≤ 1 := by rw [abs_le]; constructor <;> nlinarith [sq_nonneg p]
      have pv : |2 * p * V| ≤ 1 := by rw [abs_le]; constructor <;> nlinarith [sq_nonneg (p - V), sq_nonneg (p + V)]
      have := mul_r w fd.1 g2 (p := p) (x := V) (c := 4 * P * V) δ0 δ1 (by rw [e]; rcases hs with rfl | rfl; left; ring; right; ring) pl pv v1 kd k2
      have e4 : 4 * P * V / (4 * p) = s * V := by
        have : p ≠ 0 := by linarith
        rw [e]; field_simp
      rwa [e4] at this
  rcases le_total 0 P with h0 | h0
  · exact main P 1 h0 (Or.inl rfl) (by ring)
  · exact main (-P) (-1) (by linarith) (Or.inr rfl) (by ring)

theorem fine_lt {f : Fmt} {a b : Fl} (ha : Fine f a) (hb : Fine f b) : lt a b = true ↔ rv a < rv b := by
  rw [lt_iff (fine_number ha) (fine_number hb), num_fine ha, num_fine hb]
  simp

/-- The square of the largest component, from the diagonal. -/
theorem diagonal {f : Fmt} (w : Wide f) {a b c : Fl} {W P X Y δ : ℝ} (δ0 : 0 ≤ δ) (δ1 : δ ≤ 1 / 1000) (hu : W ^ 2 + P ^ 2 + X ^ 2 + Y ^ 2 = 1) (hW : 4 * W ^ 2 - 1 ≤ 3 * δ + 6 * (un f : ℝ))
    (ha : Fine f a ∧ |rv a - (2 * (W ^ 2 + P ^ 2) - 1)| ≤ δ) (hb : Fine f b ∧ |rv b - (2 * (W ^ 2 + X ^ 2) - 1)| ≤ δ) (hc : Fine f c ∧ |rv c - (2 * (W ^ 2 + Y ^ 2) - 1)| ≤ δ)
    (h1 : rv b ≤ rv a) (h2 : rv c ≤ rv a) : 0.98 ≤ 4 * P ^ 2 ∧ Fine f (add f (sub f (sub f a b) c) (ofNat 1)) ∧ |rv (add f (sub f (sub f a b) c) (ofNat 1)) - 4 * P ^ 2| ≤ 3 * δ + 11 * (un f : ℝ) := by
  obtain ⟨u0, u1, e0, e1⟩ := un_real w
  have w0 := sq_nonneg W
  have p0 := sq_nonneg P
  have x0 := sq_nonneg X
  have y0 := sq_nonneg Y
  obtain ⟨one, vone⟩ := CurveFl.small_nat w (n := 1) (by norm_num)
  have eone : |rv (ofNat 1) - 1| ≤ 0 := by rw [rv, vone]; simp
  obtain ⟨g1, k1⟩ := sub_r w ha.1 hb.1 ha.2 hb.2 (M := 2) (by rw [abs_le]; constructor <;> linarith) (by norm_num) (by linarith)
  obtain ⟨g2, k2⟩ := sub_r w g1 hc.1 k1 hc.2 (M := 3) (by rw [abs_le]; constructor <;> linarith) (by norm_num) (by linarith)
  obtain ⟨g3, k3⟩ := add_r w g2 one k2 eone (M := 4) (by rw [abs_le]; constructor <;> linarith) (by norm_num) (by linarith)
  refine ⟨?_, g3, ?_⟩
  · have a2 := (abs_le.1 ha.2).2
    have b1 := (abs_le.1 hb.2).1
    have c1 := (abs_le.1 hc.2).1
    linarith
  · rw [show 4 * P ^ 2 = 2 * (W ^ 2 + P ^ 2) - 1 - (2 * (W ^ 2 + X ^ 2) - 1) - (2 * (W ^ 2 + Y ^ 2) - 1) + 1 by linarith]
    linarith

theorem products {a b c d : ℝ} (h : a ^ 2 + b ^ 2 + c ^ 2 + d ^ 2 = 1) : |4 * a * b| ≤ 2 := by
  rw [abs_le]
  constructor <;> nlinarith [sq_nonneg (a + b), sq_nonneg (a - b), sq_nonneg c, sq_nonneg d]

/-- **C158.** The quaternion of a matrix near a rotation is near one of the two quaternions of the rotation. -/
theorem C158_quaternion {f : Fmt} (hf : FloatOrDouble f) (δ : ℝ) (δ1 : δ ≤ 1 / 1000) (q : Quat ℝ) (hq : UnitLength q) (m : Mat33 Fl) (hm : Near f δ m (matrix q)) :
    QuatNear (4 * δ + 17 * (roundoff f : ℝ)) (toQuat f m) q ∨ QuatNear (4 * δ + 17 * (roundoff f : ℝ)) (toQuat f m) (opposite q) := by
  have w := wide_of hf
  obtain ⟨u0, u1, e0, e1⟩ := un_real w
  obtain ⟨qw, qx, qy, qz⟩ := q
  simp only [UnitLength] at hq
  obtain ⟨h00, h01, h02, h10, h11, h12, h20, h21, h22⟩ := hm
  have δ0 : 0 ≤ δ := (abs_nonneg _).trans h00.2
  simp only [matrix, Mat33.fromAxes, Quat.localX, Quat.localY, Quat.localZ] at h00 h01 h02 h10 h11 h12 h20 h21 h22
  have w0 := sq_nonneg qw
  have x0 := sq_nonneg qx
  have y0 := sq_nonneg qy
  have z0 := sq_nonneg qz
  have d0 : Fine f m.e00 ∧ |rv m.e00 - (2 * (qw ^ 2 + qx ^ 2) - 1)| ≤ δ := ⟨h00.1, by convert h00.2 using 3; linarith⟩
  have d1 : Fine f m.e11 ∧ |rv m.e11 - (2 * (qw ^ 2 + qy ^ 2) - 1)| ≤ δ := ⟨h11.1, by convert h11.2 using 3; linarith⟩
  have d2 : Fine f m.e22 ∧ |rv m.e22 - (2 * (qw ^ 2 + qz ^ 2) - 1)| ≤ δ := ⟨h22.1, by convert h22.2 using 3; linarith⟩
  obtain ⟨one, vone⟩ := CurveFl.small_nat w (n := 1) (by norm_num)
  obtain ⟨zero, vzero⟩ := CurveFl.small_nat w (n := 0) (by norm_num)
  have eone : |rv (ofNat 1) - 1| ≤ 0 := by rw [rv, vone]; simp
  have ezero : rv (ofNat 0) = 0 := by rw [rv, vzero]; simp
  obtain ⟨g1, k1⟩ := add_r w d0.1 d1.1 d0.2 d1.2 (M := 2) (by rw [abs_le]; constructor <;> linarith) (by norm_num) (by linarith)
  obtain ⟨g2, k2⟩ := add_r w g1 d2.1 k1 d2.2 (M := 3) (by rw [abs_le]; constructor <;> linarith) (by norm_num) (by linarith)
  have hsub : ∀ {a b : Fl} {A B c : ℝ}, Fine f a → Fine f b → |rv a - A| ≤ δ → |rv b - B| ≤ δ → A - B = c → |c| ≤ 2 → Fine f (sub f a b) ∧ |rv (sub f a b) - c| ≤ 2 * δ + 3 * (un f : ℝ) := by
    intro a b A B c fa fb ea eb e hc
    obtain ⟨g, k⟩ := sub_r w fa fb ea eb (M := 2) (by rw [e]; exact hc) (by norm_num) (by linarith)
    rw [e] at k
    exact ⟨g, by linarith⟩
  have hadd : ∀ {a b : Fl} {A B c : ℝ}, Fine f a → Fine f b → |rv a - A| ≤ δ → |rv b - B| ≤ δ → A + B = c → |c| ≤ 2 → Fine f (add f a b) ∧ |rv (add f a b) - c| ≤ 2 * δ + 3 * (un f : ℝ) := by
    intro a b A B c fa fb ea eb e hc
    obtain ⟨g, k⟩ := add_r w fa fb ea eb (M := 2) (by rw [e]; exact hc) (by norm_num) (by linarith)
    rw [e] at k
    exact ⟨g, by linarith⟩
  by_cases ht : lt (ofNat 0) (add f (add f m.e00 m.e11) m.e22) = true
  · have t0 := (fine_lt zero g2).1 ht
    rw [ezero] at t0
    obtain ⟨g3, k3⟩ := add_r w g2 one k2 eone (M := 4) (by rw [abs_le]; constructor <;> linarith) (by norm_num) (by linarith)
    obtain ⟨s, hs, r0, r⟩ := branch w (P := qw) (X := qx) (Y := qy) (Z := qz) δ0 δ1 hq (by linarith [(abs_le.1 k2).2]) g3
      (by rw [show 4 * qw ^ 2 = 2 * (qw ^ 2 + qx ^ 2) - 1 + (2 * (qw ^ 2 + qy ^ 2) - 1) + (2 * (qw ^ 2 + qz ^ 2) - 1) + 1 by linarith]; linarith)
      (hsub h21.1 h12.1 h21.2 h12.2 (by ring) (products hq))
      (hsub h02.1 h20.1 h02.2 h20.2 (by ring) (products (c := qx) (d := qz) (by linarith)))
      (hsub h10.1 h01.1 h10.2 h01.2 (by ring) (products (c := qx) (d := qy) (by linarith)))
    unfold toQuat
    dsimp only
    rw [if_pos ht]
    have rx := r _ qx (Or.inl ⟨rfl, rfl⟩)
    have ry := r _ qy (Or.inr (Or.inl ⟨rfl, rfl⟩))
    have rz := r _ qz (Or.inr (Or.inr ⟨rfl, rfl⟩))
    rcases hs with rfl | rfl
    · left
      simp only [one_mul] at r0 rx ry rz
      exact ⟨r0, rx, ry, rz⟩
    · right
      simp only [neg_mul, one_mul] at r0 rx ry rz
      exact ⟨r0, rx, ry, rz⟩
  · have t0 : rv (add f (add f m.e00 m.e11) m.e22) ≤ 0 := by
      by_contra hn
      exact ht ((fine_lt zero g2).2 (by rw [ezero]; exact not_le.1 hn))
    have hW : 4 * qw ^ 2 - 1 ≤ 3 * δ + 6 * (un f : ℝ) := by linarith [(abs_le.1 k2).1]
    have nl : ∀ {a b : Fl}, Fine f a → Fine f b → ¬ lt a b = true → rv b ≤ rv a := fun fa fb h => not_lt.1 fun hn => h ((fine_lt fa fb).2 hn)
    have hl : (largest m = 0 ∧ rv m.e11 ≤ rv m.e00 ∧ rv m.e22 ≤ rv m.e00) ∨ (largest m = 1 ∧ rv m.e22 ≤ rv m.e11 ∧ rv m.e00 ≤ rv m.e11) ∨ (largest m = 2 ∧ rv m.e00 ≤ rv m.e22 ∧ rv m.e11 ≤ rv m.e22) := by
      unfold largest
      dsimp only
      by_cases c1 : lt (el m 0 0) (el m 1 1) = true
      · have c1' := (fine_lt d0.1 d1.1).1 c1
        rw [if_pos c1]
        by_cases c2 : lt (el m 1 1) (el m 2 2) = true
        · have c2' := (fine_lt d1.1 d2.1).1 c2
          exact Or.inr (Or.inr ⟨if_pos c2, by linarith, by linarith⟩)
        · exact Or.inr (Or.inl ⟨if_neg c2, nl d1.1 d2.1 c2, by linarith⟩)
      · have c1' := nl d0.1 d1.1 c1
        rw [if_neg c1]
        by_cases c2 : lt (el m 0 0) (el m 2 2) = true
        · have c2' := (fine_lt d0.1 d2.1).1 c2
          exact Or.inr (Or.inr ⟨if_pos c2, by linarith, by linarith⟩)
        · exact Or.inl ⟨if_neg c2, c1', nl d0.1 d2.1 c2⟩
    rcases hl with ⟨eL, l1, l2⟩ | ⟨eL, l1, l2⟩ | ⟨eL, l1, l2⟩
    · obtain ⟨b1, b2, b3⟩ := diagonal w δ0 δ1 (by linarith) hW d0 d1 d2 l1 l2
      obtain ⟨s, hs, r0, r⟩ := branch w (P := qx) (X := qw) (Y := qy) (Z := qz) δ0 δ1 (by linarith) b1 b2 b3
        (hsub h21.1 h12.1 h21.2 h12.2 (by ring) (products (c := qy) (d := qz) (by linarith)))
        (hadd h10.1 h01.1 h10.2 h01.2 (by ring) (products (c := qw) (d := qz) (by linarith)))
        (hadd h20.1 h02.1 h20.2 h02.2 (by ring) (products (c := qw) (d := qy) (by linarith)))
      have rx := r _ qw (Or.inl ⟨rfl, rfl⟩)
      have ry := r _ qy (Or.inr (Or.inl ⟨rfl, rfl⟩))
      have rz := r _ qz (Or.inr (Or.inr ⟨rfl, rfl⟩))
      unfold toQuat
      dsimp only
      rw [if_neg ht, eL]
      rcases hs with rfl | rfl
      · left
        simp only [one_mul] at r0 rx ry rz
        exact ⟨rx, r0, ry, rz⟩
      · right
        simp only [neg_mul, one_mul] at r0 rx ry rz
        exact ⟨rx, r0, ry, rz⟩
    · obtain ⟨b1, b2, b3⟩ := diagonal w δ0 δ1 (by linarith) hW d1 d2 d0 l1 l2
      obtain ⟨s, hs, r0, r⟩ := branch w (P := qy) (X := qw) (Y := qz) (Z := qx) δ0 δ1 (by linarith) b1 b2 b3
        (hsub h02.1 h20.1 h02.2 h20.2 (by ring) (products (c := qx) (d := qz) (by linarith)))
        (hadd h21.1 h12.1 h21.2 h12.2 (by ring) (products (c := qw) (d := qx) (by linarith)))
        (hadd h01.1 h10.1 h01.2 h10.2 (by ring) (products (c := qw) (d := qz) (by linarith)))
      have rx := r _ qw (Or.inl ⟨rfl, rfl⟩)
      have ry := r _ qz (Or.inr (Or.inl ⟨rfl, rfl⟩))
      have rz := r _ qx (Or.inr (Or.inr ⟨rfl, rfl⟩))
      unfold toQuat
      dsimp only
      rw [if_neg ht, eL]
      rcases hs with rfl | rfl
      · left
        simp only [one_mul] at r0 rx ry rz
        exact ⟨rx, rz, r0, ry⟩
      · right
        simp only [neg_mul, one_mul] at r0 rx ry rz
        exact ⟨rx, rz, r0, ry⟩
    · obtain ⟨b1, b2, b3⟩ := diagonal w δ0 δ1 (by linarith) hW d2 d0 d1 l1 l2
      obtain ⟨s, hs, r0, r⟩ := branch w (P := qz) (X := qw) (Y := qx) (Z := qy) δ0 δ1 (by linarith) b1 b2 b3
        (hsub h10.1 h01.1 h10.2 h01.2 (by ring) (products (c := qx) (d := qy) (by linarith)))
        (hadd h02.1 h20.1 h02.2 h20.2 (by ring) (products (c := qw) (d := qy) (by linarith)))
        (hadd h12.1 h21.1 h12.2 h21.2 (by ring) (products (c := qw) (d := qx) (by linarith)))
      have rx := r _ qw (Or.inl ⟨rfl, rfl⟩)
      have ry := r _ qx (Or.inr (Or.inl ⟨rfl, rfl⟩))
      have rz := r _ qy (Or.inr (Or.inr ⟨rfl, rfl⟩))
      unfold toQuat
      dsimp only
      rw [if_neg ht, eL]
      rcases hs with rfl | rfl
      · left
        simp only [one_mul] at r0 rx ry rz
        exact ⟨rx, ry, rz, r0⟩
      · right
        simp only [neg_mul, one_mul] at r0 rx ry rz
        exact ⟨rx, ry, rz, r0⟩

/-- **C158, the length:** it is one but for the same error. -/
theorem C158_length {f : Fmt} (hf : FloatOrDouble f) (δ : ℝ) (δ1 : δ ≤ 1 / 1000) (q : Quat ℝ) (hq : UnitLength q) (m : Mat33 Fl) (hm : Near f δ m (matrix q)) :
    |(val (toQuat f m).w : ℝ) ^ 2 + (val (toQuat f m).x : ℝ) ^ 2 + (val (toQuat f m).y : ℝ) ^ 2 + (val (toQuat f m).z : ℝ) ^ 2 - 1| ≤ 9 * (4 * δ + 17 * (roundoff f : ℝ)) := by
  obtain ⟨u0, u1, -, -⟩ := un_real (wide_of hf)
  have δ0 : 0 ≤ δ := (abs_nonneg _).trans hm.h00.2
  have e : (roundoff f : ℝ) = (un f : ℝ) := rfl
  have key : ∀ (ε a p : ℝ), ε ≤ 1 / 100 → |p| ≤ 1 → |a - p| ≤ ε → |a ^ 2 - p ^ 2| ≤ 9 / 4 * ε := by
    intro ε a p h1 h2 h3
    have : |a + p| ≤ 9 / 4 := by
      rw [abs_le] at h2 h3 ⊢
      constructor <;> linarith [h2.1, h2.2, h3.1, h3.2]
    rw [show a ^ 2 - p ^ 2 = (a + p) * (a - p) by ring, abs_mul]
    exact mul_le_mul this h3 (abs_nonneg _) (by norm_num)
  have main : ∀ r : Quat ℝ, UnitLength r → QuatNear (4 * δ + 17 * (roundoff f : ℝ)) (toQuat f m) r →
      |(val (toQuat f m).w : ℝ) ^ 2 + (val (toQuat f m).x : ℝ) ^ 2 + (val (toQuat f m).y : ℝ) ^ 2 + (val (toQuat f m).z : ℝ) ^ 2 - 1| ≤ 9 * (4 * δ + 17 * (roundoff f : ℝ)) := by
    rintro ⟨a, b, c, d⟩ h ⟨⟨-, n1⟩, ⟨-, n2⟩, ⟨-, n3⟩, ⟨-, n4⟩⟩
    simp only [UnitLength] at h
    have hε : 4 * δ + 17 * (roundoff f : ℝ) ≤ 1 / 100 := by rw [e]; linarith
    have one : ∀ x y : ℝ, x ^ 2 + y = 1 → 0 ≤ y → |x| ≤ 1 := fun x y h1 h2 => by rw [abs_le]; constructor <;> nlinarith
    have k1 := key _ _ _ hε (one a (b ^ 2 + c ^ 2 + d ^ 2) (by linarith) (by positivity)) n1
    have k2 := key _ _ _ hε (one b (a ^ 2 + c ^ 2 + d ^ 2) (by linarith) (by positivity)) n2
    have k3 := key _ _ _ hε (one c (a ^ 2 + b ^ 2 + d ^ 2) (by linarith) (by positivity)) n3
    have k4 := key _ _ _ hε (one d (a ^ 2 + b ^ 2 + c ^ 2) (by linarith) (by positivity)) n4
    rw [abs_le] at k1 k2 k3 k4 ⊢
    constructor <;> linarith [k1.1, k1.2, k2.1, k2.2, k3.1, k3.2, k4.1, k4.2]
  rcases C158_quaternion hf δ δ1 q hq m hm with h | h
  · exact main q hq h
  · refine main (opposite q) ?_ h
    simp only [UnitLength, opposite] at hq ⊢
    linarith

/-- Half a turn about the second axis, where the other branch is taken. -/
def halfTurn : Mat33 Fl := ⟨neg (ofNat 1), ofNat 0, ofNat 0, ofNat 0, ofNat 1, ofNat 0, ofNat 0, ofNat 0, neg (ofNat 1)⟩

example : toQuat binary32 halfTurn = ⟨ofNat 0, ofNat 0, ofNat 1, ofNat 0⟩ := by decide +kernel

/-- The theorem speaks about it. -/
example : Near binary32 0 halfTurn (matrix ⟨0, 0, 1, 0⟩) ∧ UnitLength (⟨0, 0, 1, 0⟩ : Quat ℝ) := by
  have t0 : OfType binary32 (ofNat 0) := ⟨0, 0, by decide, by decide, by decide, by simp⟩
  have t1 : OfType binary32 (ofNat 1) := ⟨1, 0, by decide, by decide, by decide, by simp⟩
  have t2 : OfType binary32 (neg (ofNat 1)) := ⟨1, 0, by decide, by decide, by decide, by simp⟩
  refine ⟨⟨⟨⟨trivial, t2⟩, ?_⟩, ⟨⟨trivial, t0⟩, ?_⟩, ⟨⟨trivial, t0⟩, ?_⟩, ⟨⟨trivial, t0⟩, ?_⟩, ⟨⟨trivial, t1⟩, ?_⟩, ⟨⟨trivial, t0⟩, ?_⟩, ⟨⟨trivial, t0⟩, ?_⟩, ⟨⟨trivial, t0⟩, ?_⟩, ⟨⟨trivial, t2⟩, ?_⟩⟩, by norm_num [UnitLength]⟩ <;>
    norm_num [halfTurn, matrix, Mat33.fromAxes, Quat.localX, Quat.localY, Quat.localZ, val, neg, ofNat]

/-! ### The axes of a quaternion -/

theorem mul_rr {f : Fmt} (w : Wide f) {a b : Fl} (ha : Fine f a) (hb : Fine f b) {A B α β : ℝ} (h1 : |rv a - A| ≤ α) (h2 : |rv b - B| ≤ β) (hA : |A| ≤ 2) (hB : |B| ≤ 1) (hα : α ≤ 1 / 400) (hβ : β ≤ 1 / 400) :
    Fine f (mul f a b) ∧ |rv (mul f a b) - A * B| ≤ 1.01 * α + 2 * β + 2.1 * (un f : ℝ) := by
  obtain ⟨u0, u1, e0, e1⟩ := un_real w
  have hbig := one_le w
  norm_num at hbig
  have α0 := (abs_nonneg _).trans h1
  have β0 := (abs_nonneg _).trans h2
  have hb1 : |rv b| ≤ 1.01 := by
    have := abs_add_le B (rv b - B)
    rw [add_sub_cancel] at this
    linarith
  have d : |rv a * rv b - A * B| ≤ 1.01 * α + 2 * β := by
    rw [show rv a * rv b - A * B = (rv a - A) * rv b + A * (rv b - B) by ring]
    refine (abs_add_le _ _).trans (add_le_add ?_ ?_) <;> rw [abs_mul]
    · rw [mul_comm (1.01 : ℝ)]
      exact mul_le_mul h1 hb1 (abs_nonneg _) α0
    · exact mul_le_mul hA h2 (abs_nonneg _) (by norm_num)
  have m : |rv a * rv b| ≤ 2.05 := by
    have h := abs_add_le (A * B) (rv a * rv b - A * B)
    rw [add_sub_cancel, abs_mul A B] at h
    have := mul_le_mul hA hB (abs_nonneg _) (by norm_num)
    linarith
  have m' : |val a * val b| ≤ (3 : Nat) := rat_abs_le (by push_cast; exact m.trans (by norm_num))
  obtain ⟨g, h⟩ := mul_fine w ha.1 hb.1 (by push_cast at m'; linarith)
  refine ⟨g, ?_⟩
  have h' : |rv (mul f a b) - (rv a * rv b)| ≤ (un f : ℝ) * |rv a * rv b| + (et f : ℝ) := by
    have := (Rat.cast_le (K := ℝ)).2 h
    push_cast at this
    exact this
  have := mul_le_mul_of_nonneg_left m u0.le
  have := abs_sub_le (rv (mul f a b)) (rv a * rv b) (A * B)
  linarith

/-- The product of a doubled component and a component. -/
theorem twice {f : Fmt} (w : Wide f) {a b : Fl} (ha : Fine f a) (hb : Fine f b) {A B δ : ℝ} (δ1 : δ ≤ 1 / 10000) (h1 : |rv a - A| ≤ δ) (h2 : |rv b - B| ≤ δ) (hA : |A| ≤ 1) (hB : |B| ≤ 1) :
    Fine f (mul f (add f a a) b) ∧ |rv (mul f (add f a a) b) - (A + A) * B| ≤ 4.1 * δ + 4.2 * (un f : ℝ) := by
  obtain ⟨u0, u1, e0, e1⟩ := un_real w
  have δ0 := (abs_nonneg _).trans h1
  have hAA : |A + A| ≤ 2 := (abs_add_le _ _).trans (by linarith)
  obtain ⟨g, k⟩ := add_r w ha ha h1 h1 hAA (by norm_num) (by linarith)
  obtain ⟨g', k'⟩ := mul_rr w g hb k h2 hAA hB (by linarith) (by linarith)
  exact ⟨g', by linarith⟩

/-- **C158, the axes.** If the numbers of a quaternion are near those of a rotation, its axes are near those of the rotation. -/
theorem C158_axes {f : Fmt} (hf : FloatOrDouble f) (δ : ℝ) (δ1 : δ ≤ 1 / 10000) (q : Quat ℝ) (hq : UnitLength q) (a : Quat Fl) (ha : QuatNear δ a q)
    (ht : OfType f a.w ∧ OfType f a.x ∧ OfType f a.y ∧ OfType f a.z) :
    Near f (9 * δ + 12 * (roundoff f : ℝ)) (Mat33.fromAxes (localX f a) (localY f a) (localZ f a)) (matrix q) := by
  have w := wide_of hf
  obtain ⟨u0, u1, e0, e1⟩ := un_real w
  obtain ⟨qw, qx, qy, qz⟩ := q
  obtain ⟨aw, ax, ay, az⟩ := a
  simp only [UnitLength] at hq
  obtain ⟨⟨n1, m1⟩, ⟨n2, m2⟩, ⟨n3, m3⟩, ⟨n4, m4⟩⟩ := ha
  obtain ⟨t1, t2, t3, t4⟩ := ht
  dsimp only at n1 m1 n2 m2 n3 m3 n4 m4 t1 t2 t3 t4
  have δ0 := (abs_nonneg _).trans m1
  have fw : Fine f aw := ⟨n1, t1⟩
  have fx : Fine f ax := ⟨n2, t2⟩
  have fy : Fine f ay := ⟨n3, t3⟩
  have fz : Fine f az := ⟨n4, t4⟩
  have w0 := sq_nonneg qw
  have x0 := sq_nonneg qx
  have y0 := sq_nonneg qy
  have z0 := sq_nonneg qz
  have one : ∀ x : ℝ, x ^ 2 ≤ 1 → |x| ≤ 1 := fun x h => by rw [abs_le]; constructor <;> nlinarith
  have w1 := one qw (by linarith)
  have x1 := one qx (by linarith)
  have y1 := one qy (by linarith)
  have z1 := one qz (by linarith)
  have T : ∀ {a b : Fl} {A B : ℝ}, Fine f a → Fine f b → |rv a - A| ≤ δ → |rv b - B| ≤ δ → |A| ≤ 1 → |B| ≤ 1 →
      Fine f (mul f (add f a a) b) ∧ |rv (mul f (add f a a) b) - (A + A) * B| ≤ 4.1 * δ + 4.2 * (un f : ℝ) := fun fa fb h1 h2 h3 h4 => twice w fa fb δ1 h1 h2 h3 h4
  obtain ⟨one', vone⟩ := CurveFl.small_nat w (n := 1) (by norm_num)
  have eone : |rv (ofNat 1) - 1| ≤ 0 := by rw [rv, vone]; simp
  have plus : ∀ {a b : Fl} {A B : ℝ}, (Fine f a ∧ |rv a - A| ≤ 4.1 * δ + 4.2 * (un f : ℝ)) → (Fine f b ∧ |rv b - B| ≤ 4.1 * δ + 4.2 * (un f : ℝ)) → |A + B| ≤ 2 →
      Fine f (add f a b) ∧ |rv (add f a b) - (A + B)| ≤ 8.2 * δ + 10.5 * (un f : ℝ) := fun h1 h2 h3 => by
    obtain ⟨g, k⟩ := add_r w h1.1 h2.1 h1.2 h2.2 h3 (by norm_num) (by linarith)
    exact ⟨g, by linarith⟩
  have less : ∀ {a b : Fl} {A B : ℝ}, (Fine f a ∧ |rv a - A| ≤ 4.1 * δ + 4.2 * (un f : ℝ)) → (Fine f b ∧ |rv b - B| ≤ 4.1 * δ + 4.2 * (un f : ℝ)) → |A - B| ≤ 2 →
      Fine f (sub f a b) ∧ |rv (sub f a b) - (A - B)| ≤ 9 * δ + 12 * (un f : ℝ) := fun h1 h2 h3 => by
    obtain ⟨g, k⟩ := sub_r w h1.1 h2.1 h1.2 h2.2 h3 (by norm_num) (by linarith)
    exact ⟨g, by linarith⟩
  have from1 : ∀ {a : Fl} {A : ℝ}, (Fine f a ∧ |rv a - A| ≤ 8.2 * δ + 10.5 * (un f : ℝ)) → 0 ≤ A → A ≤ 2 →
      Fine f (sub f (ofNat 1) a) ∧ |rv (sub f (ofNat 1) a) - (1 - A)| ≤ 9 * δ + 12 * (un f : ℝ) := fun h1 h2 h3 => by
    obtain ⟨g, k⟩ := sub_r w one' h1.1 eone h1.2 (M := 1) (by rw [abs_le]; constructor <;> linarith) (by norm_num) (by linarith)
    exact ⟨g, by linarith⟩
  have up : ∀ {a : Fl} {A : ℝ}, (Fine f a ∧ |rv a - A| ≤ 8.2 * δ + 10.5 * (un f : ℝ)) → Fine f a ∧ |rv a - A| ≤ 9 * δ + 12 * (un f : ℝ) := fun h => ⟨h.1, by linarith [h.2]⟩
  have b2 : ∀ p q r s : ℝ, p ^ 2 + q ^ 2 + r ^ 2 + s ^ 2 = 1 → |(p + p) * q + (r + r) * s| ≤ 2 ∧ |(p + p) * q - (r + r) * s| ≤ 2 := fun p q r s h => by
    constructor <;> rw [abs_le] <;> constructor <;> nlinarith [sq_nonneg (p + q), sq_nonneg (p - q), sq_nonneg (r + s), sq_nonneg (r - s)]
  have b3 : ∀ p q r s : ℝ, p ^ 2 + q ^ 2 + r ^ 2 + s ^ 2 = 1 → 0 ≤ (p + p) * p + (q + q) * q ∧ (p + p) * p + (q + q) * q ≤ 2 := fun p q r s h => by
    constructor <;> nlinarith [sq_nonneg p, sq_nonneg q, sq_nonneg r, sq_nonneg s]
  have a3 : ∀ {x : ℝ}, 0 ≤ x ∧ x ≤ 2 → |x| ≤ 2 := fun h => abs_le.2 ⟨by linarith [h.1], h.2⟩
  constructor
  · exact from1 (plus (T fy fy m3 m3 y1 y1) (T fz fz m4 m4 z1 z1) (a3 (b3 qy qz qw qx (by linarith)))) (b3 qy qz qw qx (by linarith)).1 (b3 qy qz qw qx (by linarith)).2
  · exact less (T fy fx m3 m2 y1 x1) (T fz fw m4 m1 z1 w1) (b2 qy qx qz qw (by linarith)).2
  · exact up (plus (T fz fx m4 m2 z1 x1) (T fy fw m3 m1 y1 w1) (b2 qz qx qy qw (by linarith)).1)
  · exact up (plus (T fy fx m3 m2 y1 x1) (T fz fw m4 m1 z1 w1) (b2 qy qx qz qw (by linarith)).1)
  · exact from1 (plus (T fx fx m2 m2 x1 x1) (T fz fz m4 m4 z1 z1) (a3 (b3 qx qz qw qy (by linarith)))) (b3 qx qz qw qy (by linarith)).1 (b3 qx qz qw qy (by linarith)).2
  · exact less (T fz fy m4 m3 z1 y1) (T fx fw m2 m1 x1 w1) (b2 qz qy qx qw (by linarith)).2
  · exact less (T fz fx m4 m2 z1 x1) (T fy fw m3 m1 y1 w1) (b2 qz qx qy qw (by linarith)).2
  · exact up (plus (T fz fy m4 m3 z1 y1) (T fx fw m2 m1 x1 w1) (b2 qz qy qx qw (by linarith)).1)
  · exact from1 (plus (T fx fx m2 m2 x1 x1) (T fy fy m3 m3 y1 y1) (a3 (b3 qx qy qw qz (by linarith)))) (b3 qx qy qw qz (by linarith)).1 (b3 qx qy qw qz (by linarith)).2

/-- **C158, there and back.** A quaternion that is near a rotation, turned into the matrix of its axes and back, is near one of the two quaternions of the rotation. -/
theorem C158_round_trip {f : Fmt} (hf : FloatOrDouble f) (δ : ℝ) (δ1 : δ ≤ 1 / 10000) (q : Quat ℝ) (hq : UnitLength q) (a : Quat Fl) (ha : QuatNear δ a q)
    (ht : OfType f a.w ∧ OfType f a.x ∧ OfType f a.y ∧ OfType f a.z) :
    QuatNear (36 * δ + 65 * (roundoff f : ℝ)) (toQuat f (Mat33.fromAxes (localX f a) (localY f a) (localZ f a))) q ∨
    QuatNear (36 * δ + 65 * (roundoff f : ℝ)) (toQuat f (Mat33.fromAxes (localX f a) (localY f a) (localZ f a))) (opposite q) := by
  obtain ⟨u0, u1, e0, e1⟩ := un_real (wide_of hf)
  have e : (roundoff f : ℝ) = (un f : ℝ) := rfl
  have h := C158_quaternion hf _ (by rw [e]; linarith) q hq _ (C158_axes hf δ δ1 q hq a ha ht)
  rwa [show 4 * (9 * δ + 12 * (roundoff f : ℝ)) + 17 * (roundoff f : ℝ) = 36 * δ + 65 * (roundoff f : ℝ) by ring] at h

/-- A third of a turn about the diagonal, there and back. -/
example : let q : Quat Fl := ⟨.fin false (1 / 2), .fin false (1 / 2), .fin false (1 / 2), .fin false (1 / 2)⟩
    toQuat binary32 (Mat33.fromAxes (localX binary32 q) (localY binary32 q) (localZ binary32 q)) = q ∧ QuatNear 0 q ⟨1 / 2, 1 / 2, 1 / 2, 1 / 2⟩ := by
  refine ⟨by decide +kernel, ⟨trivial, ?_⟩, ⟨trivial, ?_⟩, ⟨trivial, ?_⟩, ⟨trivial, ?_⟩⟩ <;> norm_num [val]

end Xo.MatFl
