import Verif.Model.PowersFl
import Verif.Props.C152_Gradient
import Verif.Props.C156_SoftClamp
import Verif.Props.C157_Curves

/-!
C159: powers and midpoints of floating-point numbers.
-/
namespace Xo.PowFl
open Num (Fl Fmt binary32 binary64)
open Ieee Norm LongSum
open Ieee.Spec (OfType num IsNan)
open Norm.Spec (FloatOrDouble)
open LongSum.Spec

/-! ### Midpoints -/

theorem bound_of {f : Fmt} {a : Fl} (h : Fine f a) : |val a| < 2 ^ f.emax := by
  obtain ⟨s, m, rfl⟩ := finite_fin h.1
  exact val_lt h.2

/-- Half of a rounded difference lies between zero and the difference. -/
theorem half_between {f : Fmt} (w : Wide f) {D : Rat} (g : Grid f D) (h0 : 0 ≤ D) : 0 ≤ rq f (rq f D / 2) ∧ rq f (rq f D / 2) ≤ D := by
  have d0 := rq_nonneg (f := f) h0
  have u0 := un_pos f
  have u1 := un_le w
  norm_num at u1
  have e := rq_grid g
  rw [abs_of_nonneg h0] at e
  have e' := (abs_le.1 e).2
  have uD : un f * D ≤ 1 / 16777216 * D := mul_le_mul_of_nonneg_right u1 h0
  refine ⟨rq_nonneg (by linarith), ?_⟩
  obtain ⟨k, hk⟩ := g
  have t0 : (0 : Rat) < 2 ^ f.emin := zpow_pos (by norm_num) _
  by_cases hk2 : k ≤ 2
  · have k0 : 0 ≤ k := by
      by_contra hn
      have : (k : Rat) ≤ -1 := by exact_mod_cast (by omega : k ≤ -1)
      nlinarith
    have hr : rq f D = D := by
      rw [hk]
      refine rq_mul ?_ le_rfl
      rw [abs_of_nonneg k0]
      calc k ≤ 2 := hk2
        _ < 2 ^ 24 := by norm_num
        _ ≤ 2 ^ f.prec := pow_le_pow_right₀ (by norm_num) w.1.prec
    have := rq_mono w.1 (show rq f D / 2 ≤ D by linarith)
    linarith
  · have k3 : (3 : Rat) ≤ k := by exact_mod_cast (by omega : 3 ≤ k)
    have hD : 3 * et f ≤ D := by
      unfold et
      rw [hk]
      exact mul_le_mul_of_nonneg_right k3 t0.le
    have h := rq_un f (rq f D / 2)
    rw [abs_of_nonneg (show 0 ≤ rq f D / 2 by linarith)] at h
    have h' := (abs_le.1 h).2
    have : un f * (rq f D / 2) ≤ 1 / 16777216 * (rq f D / 2) := mul_le_mul_of_nonneg_right u1 (by linarith)
    linarith

/-- The three steps of a midpoint. -/
theorem midpoint_steps {f : Fmt} (w : Wide f) {v1 v2 : Fl} (h1 : Fine f v1) (h2 : Fine f v2) (h : Ieee.Spec.Finite (sub f v2 v1)) :
    Fine f (midpoint f v1 v2) ∧ val (midpoint f v1 v2) = rq f (val v1 + rq f (rq f (val v2 - val v1) / 2)) ∧ Grid f (rq f (rq f (val v2 - val v1) / 2)) ∧
    ((val v1 ≤ val v1 + rq f (rq f (val v2 - val v1) / 2) ∧ val v1 + rq f (rq f (val v2 - val v1) / 2) ≤ val v2) ∨
     (val v2 ≤ val v1 + rq f (rq f (val v2 - val v1) / 2) ∧ val v1 + rq f (rq f (val v2 - val v1) / 2) ≤ val v1)) := by
  have hs := Ieee.sub_rounds h2.1 h1.1 h
  have b1 := bound_of h1
  have b2 := bound_of h2
  have g : Grid f (val v2 - val v1) := by
    rw [sub_eq_add_neg]
    exact grid_add h2.grid (grid_neg h1.grid)
  have two : val (ofNat 2) = 2 := by norm_num [val, ofNat]
  have D : (0 ≤ rq f (rq f (val v2 - val v1) / 2) ∧ rq f (rq f (val v2 - val v1) / 2) ≤ val v2 - val v1) ∨ (val v2 - val v1 ≤ rq f (rq f (val v2 - val v1) / 2) ∧ rq f (rq f (val v2 - val v1) / 2) ≤ 0) := by
    rcases le_total 0 (val v2 - val v1) with h0 | h0
    · exact Or.inl (half_between w g h0)
    · right
      obtain ⟨k1, k2⟩ := half_between w (grid_neg g) (by linarith)
      rw [rq_neg, neg_div, rq_neg] at k1 k2
      exact ⟨by linarith, by linarith⟩
  have hsub : Fine f (sub f v2 v1) := ⟨h, add_ofType w.1 _ _⟩
  have bs := bound_of hsub
  rw [hs] at bs
  have hh : |rq f (rq f (val v2 - val v1) / 2)| < 2 ^ f.emax := by
    refine lt_of_le_of_lt ?_ bs
    have hr : rq f (rq f (val v2 - val v1)) = rq f (val v2 - val v1) := by rw [← hs]; exact SoftCl.fine_rq hsub
    rcases le_total 0 (rq f (val v2 - val v1)) with h0 | h0
    · rw [abs_of_nonneg h0, abs_of_nonneg (rq_nonneg (by linarith))]
      have := rq_mono w.1 (show rq f (val v2 - val v1) / 2 ≤ rq f (val v2 - val v1) by linarith)
      rwa [hr] at this
    · have n : rq f (rq f (val v2 - val v1) / 2) ≤ 0 := by
        have := rq_mono w.1 (show rq f (val v2 - val v1) / 2 ≤ 0 by linarith)
        rwa [rq_zero] at this
      rw [abs_of_nonpos h0, abs_of_nonpos n]
      have := rq_mono w.1 (show rq f (val v2 - val v1) ≤ rq f (val v2 - val v1) / 2 by linarith)
      rw [hr] at this
      linarith
  obtain ⟨s, m, es⟩ := finite_fin h
  have ed : div f (sub f v2 v1) (ofNat 2) = ofRat f (s != false) (rq f (val v2 - val v1) / 2) := by
    rw [← hs, es]
    show (if ((2 : Nat) : Rat) = 0 then (if m = 0 then Fl.nan false else .inf (s != false)) else ofRat f (s != false) (val (.fin s m) / val (ofNat 2))) = _
    rw [if_neg (by norm_num), two]
  obtain ⟨fh, vh⟩ := fine_round w (z := s != false) hh
  rw [← ed] at fh vh
  have hm : |rq f (val v1 + val (div f (sub f v2 v1) (ofNat 2)))| < 2 ^ f.emax := by
    rw [vh]
    rw [abs_lt] at b1 b2 ⊢
    have r1 := SoftCl.fine_rq h1
    have r2 := SoftCl.fine_rq h2
    rcases D with D | D
    · have k1 := rq_mono w.1 (show val v1 ≤ val v1 + rq f (rq f (val v2 - val v1) / 2) by linarith [D.1])
      have k2 := rq_mono w.1 (show val v1 + rq f (rq f (val v2 - val v1) / 2) ≤ val v2 by linarith [D.2])
      rw [r1] at k1
      rw [r2] at k2
      exact ⟨by linarith, by linarith⟩
    · have k1 := rq_mono w.1 (show val v2 ≤ val v1 + rq f (rq f (val v2 - val v1) / 2) by linarith [D.1])
      have k2 := rq_mono w.1 (show val v1 + rq f (rq f (val v2 - val v1) / 2) ≤ val v1 by linarith [D.2])
      rw [r2] at k1
      rw [r1] at k2
      exact ⟨by linarith, by linarith⟩
  have em : ∃ z, midpoint f v1 v2 = ofRat f z (val v1 + val (div f (sub f v2 v1) (ofNat 2))) := by
    unfold midpoint
    obtain ⟨s1, m1, e1⟩ := finite_fin h1.1
    obtain ⟨s2, m2, e2⟩ := finite_fin fh.1
    rw [e2, e1]
    exact ⟨_, rfl⟩
  obtain ⟨z, em⟩ := em
  obtain ⟨g1, g2⟩ := fine_round w (z := z) hm
  rw [← em] at g1 g2
  rw [vh] at g2
  refine ⟨g1, g2, vh ▸ fh.grid, ?_⟩
  rcases D with D | D
  · exact Or.inl ⟨by linarith [D.1], by linarith [D.2]⟩
  · exact Or.inr ⟨by linarith [D.1], by linarith [D.2]⟩

/-- **C159, midpoints.** The midpoint of two numbers whose difference is within the type lies between them. -/
theorem C159_between_partial {f : Fmt} (hf : FloatOrDouble f) (v1 v2 : Fl) (h1 : Ieee.Spec.Finite v1) (t1 : OfType f v1) (h2 : Ieee.Spec.Finite v2) (t2 : OfType f v2)
    (h : Ieee.Spec.Finite (sub f v2 v1)) :
    Ieee.Spec.Finite (midpoint f v1 v2) ∧ min (val v1) (val v2) ≤ val (midpoint f v1 v2) ∧ val (midpoint f v1 v2) ≤ max (val v1) (val v2) := by
  have w := wide_of hf
  obtain ⟨m1, m2, -, m3⟩ := midpoint_steps w ⟨h1, t1⟩ ⟨h2, t2⟩ h
  have r1 := SoftCl.fine_rq (f := f) ⟨h1, t1⟩
  have r2 := SoftCl.fine_rq (f := f) ⟨h2, t2⟩
  refine ⟨m1.1, ?_, ?_⟩
  all_goals
    rw [m2]
    rcases m3 with ⟨a, b⟩ | ⟨a, b⟩
  · have q := rq_mono w.1 a
    rw [r1] at q
    exact (min_le_left _ _).trans q
  · have q := rq_mono w.1 a
    rw [r2] at q
    exact (min_le_right _ _).trans q
  · have q := rq_mono w.1 b
    rw [r2] at q
    exact q.trans (le_max_right _ _)
  · have q := rq_mono w.1 b
    rw [r1] at q
    exact q.trans (le_max_left _ _)

/-- **C159, halfway.** It is within four roundings of the number halfway. -/
theorem C159_halfway_partial {f : Fmt} (hf : FloatOrDouble f) (v1 v2 : Fl) (h1 : Ieee.Spec.Finite v1) (t1 : OfType f v1) (h2 : Ieee.Spec.Finite v2) (t2 : OfType f v2)
    (h : Ieee.Spec.Finite (sub f v2 v1)) :
    |val (midpoint f v1 v2) - (val v1 + val v2) / 2| ≤ 4 * roundoff f * max |val v1| |val v2| + tiny f := by
  have w := wide_of hf
  obtain ⟨m1, m2, m4, m3⟩ := midpoint_steps w ⟨h1, t1⟩ ⟨h2, t2⟩ h
  have u0 := un_pos f
  have u1 := un_le w
  norm_num at u1
  have f1 : Fine f v1 := ⟨h1, t1⟩
  have f2 : Fine f v2 := ⟨h2, t2⟩
  have M1 := le_max_left |val v1| |val v2|
  have M2 := le_max_right |val v1| |val v2|
  set M := max |val v1| |val v2|
  have M0 : 0 ≤ M := (abs_nonneg _).trans M1
  have g : Grid f (val v2 - val v1) := by
    rw [sub_eq_add_neg]
    exact grid_add f2.grid (grid_neg f1.grid)
  have hx : |val v1 + rq f (rq f (val v2 - val v1) / 2)| ≤ M := by
    rw [abs_le] at M1 M2 ⊢
    rcases m3 with ⟨a, b⟩ | ⟨a, b⟩ <;> constructor <;> linarith
  have hD : |val v2 - val v1| ≤ 2 * M := (abs_sub _ _).trans (by linarith)
  have k1 := rq_grid g
  have k2 := rq_un f (rq f (val v2 - val v1) / 2)
  have k3 := rq_grid (grid_add f1.grid m4)
  rw [← m2] at k3
  have k1' := k1.trans (mul_le_mul_of_nonneg_left hD u0.le)
  have k3' := k3.trans (mul_le_mul_of_nonneg_left hx u0.le)
  have uM : un f * M ≤ 1 / 16777216 * M := mul_le_mul_of_nonneg_right u1 M0
  have hd : |rq f (val v2 - val v1) / 2| ≤ 1.1 * M := by
    have := abs_add_le (rq f (val v2 - val v1) - (val v2 - val v1)) (val v2 - val v1)
    rw [sub_add_cancel] at this
    rw [abs_div, abs_of_pos (show (0 : Rat) < 2 by norm_num)]
    linarith
  have k2' := k2.trans (add_le_add_left (mul_le_mul_of_nonneg_left hd u0.le) _)
  show _ ≤ 4 * un f * M + et f
  have uM0 : 0 ≤ un f * M := mul_nonneg u0.le M0
  rw [abs_le] at k1' k2' k3' ⊢
  constructor <;> linarith

/-- The difference of the ends can be too big although the midpoint is not. -/
theorem C159_midpoint_violated : midpoint binary32 (.fin true (maxVal binary32)) (.fin false (maxVal binary32)) = .inf false ∧
    midpoint binary64 (.fin true (maxVal binary64)) (.fin false (maxVal binary64)) = .inf false ∧
    (val (.fin true (maxVal binary64)) + val (.fin false (maxVal binary64))) / 2 = 0 := by
  refine ⟨by decide +kernel, by decide +kernel, by decide +kernel⟩

/-- Two neighbouring floats have no number between them; the midpoint is one of them. -/
example : midpoint binary32 (.fin false 1) (.fin false (1 + 1 / 2 ^ 23)) = .fin false 1 ∧ midpoint binary32 (.fin true 1) (.fin false 6) = .fin false (5 / 2) ∧
    Ieee.Spec.Finite (sub binary32 (.fin false 6) (.fin true 1)) := by
  refine ⟨by decide +kernel, by decide +kernel, ?_⟩
  rw [show sub binary32 (.fin false 6) (.fin true 1) = .fin false 7 by decide +kernel]
  trivial

/-! ### Powers -/

namespace Spec

/-- A magnitude well within the range of the type. -/
def WithinRange (f : Fmt) (v : Rat) : Prop := 16 / 2 ^ f.emax ≤ |v| ∧ |v| ≤ 2 ^ f.emax / 16

end Spec
open Spec

theorem normal_low {f : Fmt} (hf : FloatOrDouble f) : (2 : Rat) ^ (f.emin + f.prec - 1) ≤ 8 / 2 ^ f.emax ∧ (16 : Rat) / 2 ^ f.emax ≤ 1 ∧ (1 : Rat) ≤ 2 ^ f.emax / 64 := by
  rcases hf with rfl | rfl <;> refine ⟨by decide +kernel, by decide +kernel, by decide +kernel⟩

theorem rq_rel {f : Fmt} {x : Rat} (h : 2 ^ (f.emin + f.prec - 1) ≤ |x|) : |rq f x - x| ≤ un f * |x| := by
  unfold un
  rw [one_div_mul_eq_div]
  rcases le_total 0 x with h0 | h0
  · rw [abs_of_nonneg h0] at h ⊢
    exact TimeReal.rq_err h
  · rw [abs_of_nonpos h0] at h
    have := TimeReal.rq_err h
    rw [rq_neg] at this
    rwa [abs_of_nonpos h0, show rq f x - x = -(-rq f x - -x) by ring, abs_neg]

/-- The powers on the way are between one and the last power. -/
theorem on_the_way {f : Fmt} (hf : FloatOrDouble f) {x : Rat} {n k : Nat} (hk : k ≤ n) (h : WithinRange f (x ^ n)) : WithinRange f (x ^ k) := by
  obtain ⟨-, l, b⟩ := normal_low hf
  unfold WithinRange at h ⊢
  rw [abs_pow] at h ⊢
  have x0 := abs_nonneg x
  rcases le_total 1 |x| with h1 | h1
  · have a := one_le_pow₀ (n := k) h1
    have c := pow_le_pow_right₀ h1 hk
    exact ⟨by linarith, by linarith [h.2]⟩
  · have a := pow_le_one₀ (n := k) x0 h1
    have c := pow_le_pow_of_le_one x0 h1 hk
    exact ⟨by linarith [h.1], by linarith⟩

/-- **C159, powers.** The power is within one rounding for each multiplication of the exact one. -/
theorem C159_power {f : Fmt} (hf : FloatOrDouble f) (x : Fl) (hx : Ieee.Spec.Finite x) (tx : OfType f x) (n : Nat) (hr : WithinRange f (val x ^ n)) (hn : (1 + roundoff f) ^ n ≤ 3 / 2) :
    Ieee.Spec.Finite (power f x n) ∧ OfType f (power f x n) ∧ |val (power f x n) - val x ^ n| ≤ ((1 + roundoff f) ^ (n - 1) - 1) * |val x ^ n| := by
  have w := wide_of hf
  obtain ⟨l1, l2, l3⟩ := normal_low hf
  have u0 := un_pos f
  have u1 := un_le w
  norm_num at u1
  change (1 + un f) ^ n ≤ 3 / 2 at hn
  show Ieee.Spec.Finite (powerNat f x n) ∧ OfType f (powerNat f x n) ∧ |val (powerNat f x n) - val x ^ n| ≤ ((1 + un f) ^ (n - 1) - 1) * |val x ^ n|
  suffices H : ∀ k, k + 1 ≤ n → Fine f (powerNat f x (k + 1)) ∧ |val (powerNat f x (k + 1)) - val x ^ (k + 1)| ≤ ((1 + un f) ^ k - 1) * |val x ^ (k + 1)| by
    cases n with
    | zero =>
      obtain ⟨one, v1⟩ := CurveFl.small_nat w (n := 1) (by norm_num)
      have v1 : val (ofNat 1) = 1 := by simpa using v1
      exact ⟨one.1, one.2, by simp [powerNat, v1]⟩
    | succ n => exact ⟨(H n le_rfl).1.1, (H n le_rfl).1.2, (H n le_rfl).2⟩
  intro k
  induction k with
  | zero => intro _; exact ⟨⟨hx, tx⟩, by simp [powerNat]⟩
  | succ k ih =>
    intro hk
    obtain ⟨g, e⟩ := ih (by omega)
    have c : (1 + un f) ^ (k + 1) ≤ 3 / 2 := (pow_le_pow_right₀ (by linarith) (by omega)).trans hn
    have c1 : 1 ≤ (1 + un f) ^ k := one_le_pow₀ (by linarith)
    have c' : (1 + un f) ^ k ≤ 3 / 2 := (pow_le_pow_right₀ (by linarith) (by omega)).trans hn
    obtain ⟨r1, r2⟩ := on_the_way hf hk hr
    show Fine f (mul f x (powerNat f x (k + 1))) ∧ |val (mul f x (powerNat f x (k + 1))) - val x ^ (k + 1 + 1)| ≤ _
    set p := powerNat f x (k + 1)
    have e2 : |val x * val p - val x ^ (k + 1 + 1)| ≤ ((1 + un f) ^ k - 1) * |val x ^ (k + 1 + 1)| := by
      rw [show val x * val p - val x ^ (k + 1 + 1) = val x * (val p - val x ^ (k + 1)) by ring, abs_mul, show val x ^ (k + 1 + 1) = val x * val x ^ (k + 1) by ring, abs_mul (val x) (val x ^ (k + 1))]
      have := mul_le_mul_of_nonneg_left e (abs_nonneg (val x))
      linarith
    set X := val x ^ (k + 1 + 1)
    have X0 := abs_nonneg X
    have half : ((1 + un f) ^ k - 1) * |X| ≤ 1 / 2 * |X| := mul_le_mul_of_nonneg_right (by linarith) X0
    have t1 := abs_add_le (val x * val p - X) X
    rw [sub_add_cancel] at t1
    have t2 := abs_sub_abs_le_abs_sub X (val x * val p)
    rw [abs_sub_comm] at t2
    have low : 2 ^ (f.emin + f.prec - 1) ≤ |val x * val p| := by
      have : (8 : Rat) / 2 ^ f.emax = 1 / 2 * (16 / 2 ^ f.emax) := by ring
      linarith
    obtain ⟨gm, -⟩ := mul_fine w hx g.1 (by linarith)
    have em := rq_rel low
    rw [← Ieee.mul_rounds hx g.1 gm.1] at em
    refine ⟨gm, ?_⟩
    have t3 : |val x * val p| ≤ (1 + un f) ^ k * |X| := by linarith
    have t4 := mul_le_mul_of_nonneg_left t3 u0.le
    have t5 := abs_sub_le (val (mul f x p)) (val x * val p) X
    rw [pow_succ (1 + un f) k]
    linarith

/-- **C159, negative powers.** The same for the powers with negative exponents. -/
theorem C159_negative_partial {f : Fmt} (hf : FloatOrDouble f) (x : Fl) (hx : Ieee.Spec.Finite x) (tx : OfType f x) (n : Nat) (h0 : 0 < n) (hr : WithinRange f (val x ^ n)) (hn : (1 + roundoff f) ^ n ≤ 3 / 2) :
    Ieee.Spec.Finite (power f x (-n)) ∧ |val (power f x (-n)) - val x ^ (-(n : Int))| ≤ 6 * ((1 + roundoff f) ^ n - 1) * |val x ^ (-(n : Int))| + 3 * tiny f := by
  have w := wide_of hf
  have w64 := wide64
  obtain ⟨l1, l2, l3⟩ := normal_low hf
  have u0 := un_pos f
  have u1 := un_le w
  norm_num at u1
  have e0 := et_pos f
  have ee : et f ≤ 1 := (et_le w).trans ((pow_le_pow_left₀ u0.le u1 5).trans (by norm_num))
  have uu : un binary64 ≤ un f := by rcases hf with rfl | rfl <;> decide +kernel
  have eu : et binary64 ≤ et f := by rcases hf with rfl | rfl <;> decide +kernel
  have bb : (2 : Rat) ^ f.emax ≤ 2 ^ binary64.emax := by rcases hf with rfl | rfl <;> decide +kernel
  obtain ⟨gp, -, ep⟩ := C159_power hf x hx tx n hr hn
  obtain ⟨r1, r2⟩ := hr
  change (1 + un f) ^ n ≤ 3 / 2 at hn
  obtain ⟨m, rfl⟩ : ∃ m, n = m + 1 := ⟨n - 1, by omega⟩
  change Ieee.Spec.Finite (powerNat f x (m + 1)) at gp
  change |val (powerNat f x (m + 1)) - val x ^ (m + 1)| ≤ ((1 + un f) ^ m - 1) * |val x ^ (m + 1)| at ep
  have ex : val x ^ (-((m + 1 : Nat) : Int)) = 1 / val x ^ (m + 1) := by rw [zpow_neg, zpow_natCast, one_div]
  rw [ex]
  show Ieee.Spec.Finite (toType f (div binary64 (ofNat 1) (powerNat f x (m + 1)))) ∧ |val (toType f (div binary64 (ofNat 1) (powerNat f x (m + 1)))) - 1 / val x ^ (m + 1)| ≤ 6 * ((1 + un f) ^ (m + 1) - 1) * |1 / val x ^ (m + 1)| + 3 * et f
  set p := powerNat f x (m + 1)
  set X := val x ^ (m + 1)
  have B0 : (0 : Rat) < 2 ^ f.emax := by linarith
  have X0 : 0 < |X| := lt_of_lt_of_le (by positivity) r1
  have Xn : X ≠ 0 := abs_pos.1 X0
  have c1 : 1 ≤ (1 + un f) ^ m := one_le_pow₀ (by linarith)
  have cm : (1 + un f) ^ m * (1 + un f) ≤ 3 / 2 := by rw [← pow_succ]; exact hn
  have c2 : (1 + un f) ^ m ≤ 3 / 2 := (pow_le_pow_right₀ (by linarith) (by omega)).trans hn
  set t := (1 + un f) ^ m - 1 with ht
  have t0 : 0 ≤ t := by linarith
  have t1 : t ≤ 1 / 2 := by linarith
  have pl : |X| / 2 ≤ |val p| := by
    have := abs_sub_abs_le_abs_sub X (val p)
    rw [abs_sub_comm] at this
    have : t * |X| ≤ 1 / 2 * |X| := mul_le_mul_of_nonneg_right t1 X0.le
    linarith
  have p0 : 0 < |val p| := by linarith
  have pn : val p ≠ 0 := abs_pos.1 p0
  have R0 : 0 < |1 / X| := abs_pos.2 (one_div_ne_zero Xn)
  have RX : |1 / X| * |X| = 1 := by rw [← abs_mul, one_div_mul_cancel Xn, abs_one]
  have QP : |1 / val p| * |val p| = 1 := by rw [← abs_mul, one_div_mul_cancel pn, abs_one]
  have q2 : |1 / val p| ≤ 2 * |1 / X| := by
    have q0 := abs_nonneg (1 / val p)
    have a := mul_le_mul_of_nonneg_left pl (mul_nonneg q0 R0.le)
    have b1 : |1 / val p| * |1 / X| * (|X| / 2) = |1 / val p| / 2 := by
      rw [show |1 / val p| * |1 / X| * (|X| / 2) = |1 / val p| * (|1 / X| * |X|) / 2 by ring, RX]; ring
    have b2 : |1 / val p| * |1 / X| * |val p| = |1 / X| := by
      rw [show |1 / val p| * |1 / X| * |val p| = |1 / X| * (|1 / val p| * |val p|) by ring, QP]; ring
    linarith
  have q3 : |1 / val p - 1 / X| ≤ 2 * t * |1 / X| := by
    rw [show 1 / val p - 1 / X = (1 / val p) * (1 / X) * -(val p - X) by field_simp; ring, abs_mul, abs_mul, abs_neg]
    have a := mul_le_mul_of_nonneg_left ep (mul_nonneg (abs_nonneg (1 / val p)) R0.le)
    have b1 : |1 / val p| * |1 / X| * (t * |X|) = t * |1 / val p| := by
      rw [show |1 / val p| * |1 / X| * (t * |X|) = t * |1 / val p| * (|1 / X| * |X|) by ring, RX]; ring
    have b2 := mul_le_mul_of_nonneg_left q2 t0
    linarith
  have RB : |1 / X| ≤ 2 ^ f.emax / 16 := by
    have a := mul_le_mul_of_nonneg_left r1 R0.le
    rw [RX] at a
    have : |1 / X| * (16 / 2 ^ f.emax) = |1 / X| * 16 / 2 ^ f.emax := by ring
    rw [this, div_le_one B0] at a
    linarith
  have v1 : val (ofNat 1) = 1 := by norm_num [val, ofNat]
  have d := div_fine w64 (a := ofNat 1) (b := p) trivial gp pn (by rw [v1]; linarith)
  rw [v1] at d
  obtain ⟨d1, d2⟩ := d
  set y := div binary64 (ofNat 1) p
  have Q0 := abs_nonneg (1 / val p)
  have d3 : |val y - 1 / val p| ≤ un f * |1 / val p| + et f := d2.trans (add_le_add (mul_le_mul_of_nonneg_right uu Q0) eu)
  have uQ : un f * |1 / val p| ≤ 1 / 16777216 * |1 / val p| := mul_le_mul_of_nonneg_right u1 Q0
  have yb := abs_add_le (val y - 1 / val p) (1 / val p)
  rw [sub_add_cancel] at yb
  have Y0 := abs_nonneg (val y)
  have uy : un f * |val y| ≤ un f * (1.01 * |1 / val p| + et f) := mul_le_mul_of_nonneg_left (by linarith) u0.le
  have uy1 : un f * |val y| ≤ 1 / 16777216 * |val y| := mul_le_mul_of_nonneg_right u1 Y0
  have ry := rq_un f (val y)
  have hb : |rq f (val y)| < 2 ^ f.emax := by
    have := abs_add_le (rq f (val y) - val y) (val y)
    rw [sub_add_cancel] at this
    linarith
  obtain ⟨s, k, ey⟩ := finite_fin d1
  obtain ⟨g1, g2⟩ := fine_round w (z := s) hb
  have et' : toType f y = ofRat f s (val y) := by rw [ey]; rfl
  rw [et']
  refine ⟨g1.1, ?_⟩
  rw [g2]
  have ue : un f * et f ≤ 1 * et f := mul_le_mul_of_nonneg_right (by linarith) e0.le
  have uq : un f * |1 / val p| ≤ un f * (2 * |1 / X|) := mul_le_mul_of_nonneg_left q2 u0.le
  have z1 := abs_sub_le (rq f (val y)) (val y) (1 / X)
  have z2 := abs_sub_le (val y) (1 / val p) (1 / X)
  have gr : t + un f ≤ (1 + un f) ^ (m + 1) - 1 := by
    rw [pow_succ, ht]
    have := mul_le_mul_of_nonneg_right c1 u0.le
    linarith
  have gr' := mul_le_mul_of_nonneg_right gr R0.le
  have tR : 0 ≤ t * |1 / X| := mul_nonneg t0 R0.le
  have uR : 0 ≤ un f * |1 / X| := mul_nonneg u0.le R0.le
  linarith

/-- A power that is exact, one that is not, and one with a negative exponent. -/
example : power binary32 (.fin false 3) 4 = .fin false 81 ∧ power binary64 (.fin true 2) (-3) = .fin true (1 / 8) ∧
    power binary32 (.fin false 4097) 2 = .fin false 16785408 ∧ WithinRange binary32 ((4097 : Rat) ^ 2) ∧ (1 + roundoff binary32) ^ 2 ≤ 3 / 2 := by
  refine ⟨by decide +kernel, by decide +kernel, by decide +kernel, ⟨?_, ?_⟩, by decide +kernel⟩ <;> decide +kernel

/-- A negative power can be lost although it is within the range, because the positive one is not. -/
theorem C159_negative_violated : power binary32 (.fin false (2 ^ 26)) (-5) = .fin false 0 ∧ OfType binary32 (.fin false (1 / (2 ^ 26) ^ 5)) := by
  refine ⟨by decide +kernel, ?_⟩
  refine ⟨2 ^ 19, -149, ?_, ?_, ?_, ?_⟩ <;> norm_num [binary32]

end Xo.PowFl
