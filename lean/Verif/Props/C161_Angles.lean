import Verif.Model.AnglesFl
import Verif.Props.C159_Powers

/-!
C161: angles of quaternions, with rounding.
-/
namespace Xo.AngleFl
open Num (Fl Fmt binary32 binary64)
open Ieee Norm LongSum
open Ieee.Spec (OfType num IsNan)
open Norm.Spec (FloatOrDouble)
open LongSum.Spec

/-! ### The root of a rounded square -/

theorem rootNear_ge {y : Rat} (hy : 0 ≤ y) {M : Nat} (h : ((M : Rat) - 1 / 2) * (M - 1 / 2) < y) : M ≤ rootNear y := by
  have c := (abs_le.1 (rootNear_close hy)).1
  have hyR : (0 : ℝ) ≤ (y : ℝ) := by exact_mod_cast hy
  have h' : ((M : ℝ) - 1 / 2) * (M - 1 / 2) < (y : ℝ) := by
    have := (Rat.cast_lt (K := ℝ)).2 h
    push_cast at this
    exact this
  have s : (M : ℝ) - 1 / 2 < Real.sqrt y := by
    by_contra hn
    have s0 := Real.sqrt_nonneg (y : ℝ)
    have ss := Real.mul_self_sqrt hyR
    nlinarith
  have : (M : ℝ) < (rootNear y : ℝ) + 1 := by linarith
  have : M < rootNear y + 1 := by exact_mod_cast this
  omega

/-- The rounded root of anything that is not below the rounded square is not below the number. -/
theorem root_ge {f : Fmt} (w : Wide f) {M : Nat} {k : Int} (m1 : 2 ^ (f.prec - 1) ≤ M) (m2 : M < 2 ^ f.prec) (hk : f.emin ≤ k) (hn : f.emin + f.prec - 1 ≤ 2 * (k + (f.prec - 1)))
    {S : Rat} (hS : rq f (((M : Rat) * 2 ^ k) * (M * 2 ^ k)) ≤ S) : (M : Rat) * 2 ^ k ≤ rootVal f S := by
  have p24 := w.1.prec
  obtain ⟨p, hp⟩ : ∃ p, f.prec = p + 1 := ⟨f.prec - 1, by omega⟩
  rw [hp] at m1 m2 hn
  simp only [Nat.add_sub_cancel] at m1
  push_cast at hn
  have K0 : (0 : Rat) < 2 ^ k := zpow_pos (by norm_num) _
  have M1 : (2 : Rat) ^ p ≤ M := by exact_mod_cast m1
  have M2 : (M : Rat) + 1 ≤ 2 ^ (p + 1) := by exact_mod_cast m2
  have P0 : (1 : Rat) ≤ 2 ^ p := one_le_pow₀ (by norm_num)
  set x : Rat := M * 2 ^ k with hx
  -- a power of two below the square
  have two : (2 : Rat) ^ (2 * (k + p)) = (2 ^ p * 2 ^ k) * (2 ^ p * 2 ^ k) := by
    rw [two_mul, zpow_add₀ (by norm_num), zpow_add₀ (by norm_num), zpow_natCast]
    ring
  have low : (2 : Rat) ^ (2 * (k + p)) ≤ x * x := by
    rw [two]
    have : (2 : Rat) ^ p * 2 ^ k ≤ x := mul_le_mul_of_nonneg_right M1 K0.le
    exact mul_self_le_mul_self (by positivity) this
  have ex : rq f ((2 : Rat) ^ (2 * (k + p))) = 2 ^ (2 * (k + p)) := by
    have e : (2 : Rat) ^ (2 * (k + p)) = ((2 ^ p : Int) : Rat) * 2 ^ (2 * (k + p) - p) := by
      push_cast
      rw [← zpow_natCast, ← zpow_add₀ (by norm_num)]
      congr 1
      ring
    rw [e]
    refine rq_mul ?_ (by omega)
    rw [abs_of_pos (by positivity), hp]
    exact pow_lt_pow_right₀ (by norm_num) (by omega)
  have S1 : (2 : Rat) ^ (2 * (k + p)) ≤ S := by
    have := rq_mono w.1 low
    rw [ex] at this
    linarith
  have S0 : 0 < S := lt_of_lt_of_le (zpow_pos (by norm_num) _) S1
  have lg : 2 * (k + p) ≤ Int.log 2 S := by
    rw [← Int.zpow_le_iff_le_log (by norm_num) S0]
    exact_mod_cast S1
  have lg2 : k ≤ Int.log 2 S / 2 - ((f.prec : Int) - 1) := by rw [hp]; push_cast; omega
  have er : rootExp f S = Int.log 2 S / 2 - ((f.prec : Int) - 1) := max_eq_left (by omega)
  unfold rootVal
  rcases eq_or_lt_of_le lg2 with h | h
  · rw [er, ← h]
    refine mul_le_mul_of_nonneg_right ?_ K0.le
    have : M ≤ rootNear (S / (2 ^ k * 2 ^ k)) := by
      refine rootNear_ge (by positivity) ?_
      rw [lt_div_iff₀ (by positivity)]
      refine lt_of_lt_of_le ?_ hS
      -- the relative error of the square
      have nb : (2 : Rat) ^ (f.emin + f.prec - 1) ≤ |x * x| := by
        rw [abs_of_nonneg (mul_self_nonneg x)]
        refine le_trans ?_ low
        exact zpow_le_zpow_right₀ (by norm_num) (by rw [hp]; push_cast; omega)
      have e := (abs_le.1 (PowFl.rq_rel nb)).1
      rw [abs_of_nonneg (mul_self_nonneg x)] at e
      have ue : un f * (2 ^ (p + 1)) = 1 := by unfold un; rw [hp]; field_simp
      have u0 := un_pos f
      have key : un f * (M * M) < M - 1 / 4 := by
        have a1 : un f * (M * M) ≤ un f * ((2 ^ (p + 1) - 1) * M) := mul_le_mul_of_nonneg_left (mul_le_mul_of_nonneg_right (by linarith) (by positivity)) u0.le
        have a2 : un f * ((2 ^ (p + 1) - 1) * M) = M - un f * M := by
          rw [show un f * ((2 ^ (p + 1) - 1) * M) = un f * 2 ^ (p + 1) * M - un f * M by ring, ue, one_mul]
        have a3 : 1 / 2 ≤ un f * M := by
          have := mul_le_mul_of_nonneg_left M1 u0.le
          rw [pow_succ] at ue
          linarith
        linarith
      have key2 := mul_lt_mul_of_pos_right key (mul_pos K0 K0)
      have : x * x = M * M * (2 ^ k * 2 ^ k) := by rw [hx]; ring
      rw [this] at e
      rw [this]
      linarith
    exact_mod_cast this
  · rw [er]
    set E : Int := Int.log 2 S / 2 - ((f.prec : Int) - 1) with hE
    have E0 : (0 : Rat) < 2 ^ E := zpow_pos (by norm_num) _
    have : 2 ^ p ≤ rootNear (S / (2 ^ E * 2 ^ E)) := by
      refine rootNear_ge (by positivity) ?_
      rw [lt_div_iff₀ (by positivity)]
      have : (2 : Rat) ^ (2 * (E + p)) ≤ S := by
        have l : (2 : Rat) ^ Int.log 2 S ≤ S := by exact_mod_cast Int.zpow_log_le_self (b := 2) (by norm_num) S0
        refine le_trans (zpow_le_zpow_right₀ (by norm_num) ?_) l
        rw [hE, hp]
        push_cast
        omega
      refine lt_of_lt_of_le ?_ this
      rw [two_mul, zpow_add₀ (by norm_num), zpow_add₀ (by norm_num), zpow_natCast]
      push_cast
      nlinarith [mul_pos E0 E0]
    have this : (2 : Rat) ^ p ≤ (rootNear (S / (2 ^ E * 2 ^ E)) : Rat) := by exact_mod_cast this
    have e2 : (2 : Rat) ^ (k + 1) ≤ 2 ^ E := zpow_le_zpow_right₀ (by norm_num) (by omega)
    rw [zpow_add₀ (by norm_num), zpow_one] at e2
    calc x ≤ 2 ^ (p + 1) * 2 ^ k := mul_le_mul_of_nonneg_right (by linarith) K0.le
      _ = 2 ^ p * (2 ^ k * 2) := by ring
      _ ≤ _ := mul_le_mul this e2 (by positivity) (by positivity)

namespace Spec

/-- What is needed of the arc cosine of the library: an angle for the numbers from -1 to 1, and NaN for everything else. -/
structure AcosLike (a : Fl → Fl) : Prop where
  angle : ∀ x, Ieee.Spec.Finite x → -1 ≤ val x → val x ≤ 1 → Ieee.Spec.Finite (a x) ∧ 0 ≤ val (a x) ∧ val (a x) ≤ 4
  outside : ∀ x, Ieee.Spec.Finite x → val x < -1 ∨ 1 < val x → IsNan (a x)
  infinite : ∀ x, ¬ Ieee.Spec.Finite x → IsNan (a x)

end Spec
open Spec PowFl.Spec

theorem magnitude {f : Fmt} {s : Bool} {m : Rat} (h : OfType f (.fin s m)) : 0 ≤ m := by
  obtain ⟨k, e, -, -, -, hm⟩ := h
  rw [hm]
  exact mul_nonneg (Nat.cast_nonneg k) (zpow_pos (by norm_num) _).le

/-- A number whose square is within the range, with all bits used. -/
theorem all_bits {f : Fmt} (hf : FloatOrDouble f) {x : Fl} (hx : Fine f x) (hr : WithinRange f (val x * val x)) :
    ∃ (M : Nat) (k : Int), 2 ^ (f.prec - 1) ≤ M ∧ M < 2 ^ f.prec ∧ f.emin ≤ k ∧ f.emin + f.prec - 1 ≤ 2 * (k + (f.prec - 1)) ∧ |val x| = M * 2 ^ k := by
  have w := wide_of hf
  obtain ⟨l1, -, l3⟩ := PowFl.normal_low hf
  have p24 := w.1.prec
  have small := w.small
  obtain ⟨s, mag, rfl⟩ := finite_fin hx.1
  have av : |val (.fin s mag)| = mag := by
    have := magnitude hx.2
    cases s
    · simp only [val]; rw [if_neg (by decide)]; exact abs_of_nonneg this
    · simp only [val, if_true]; rw [abs_neg]; exact abs_of_nonneg this
  obtain ⟨m, e, hm, he, -, hv⟩ := hx.2
  have B0 : (0 : Rat) < 2 ^ f.emax := by linarith
  have m0 : m ≠ 0 := by
    rintro rfl
    have h1 := hr.1
    rw [abs_mul, av, hv] at h1
    have : (0 : Rat) < 16 / 2 ^ f.emax := by positivity
    norm_num at h1
    linarith
  obtain ⟨p, hp⟩ : ∃ p, f.prec = p + 1 := ⟨f.prec - 1, by omega⟩
  have b1 := Nat.pow_log_le_self 2 m0
  have b2 := Nat.lt_pow_succ_log_self (b := 2) (by norm_num) m
  have b3 : Nat.log 2 m ≤ p := by
    have : Nat.log 2 m < p + 1 := Nat.log_lt_of_lt_pow m0 (hp ▸ hm)
    omega
  generalize Nat.log 2 m = b at b1 b2 b3
  have M2 : m * 2 ^ (p - b) < 2 ^ (p + 1) := by
    calc m * 2 ^ (p - b) < 2 ^ (b + 1) * 2 ^ (p - b) := Nat.mul_lt_mul_of_pos_right b2 (by positivity)
      _ = 2 ^ (p + 1) := by rw [← pow_add]; congr 1; omega
  have M1 : 2 ^ p ≤ m * 2 ^ (p - b) := by
    calc 2 ^ p = 2 ^ b * 2 ^ (p - b) := by rw [← pow_add]; congr 1; omega
      _ ≤ _ := Nat.mul_le_mul_right _ b1
  have eq : mag = ((m * 2 ^ (p - b) : Nat) : Rat) * 2 ^ (e - ((p - b : Nat) : Int)) := by
    rw [hv, zpow_sub₀ (by norm_num), zpow_natCast]
    push_cast
    field_simp
  have hn : f.emin + f.prec - 1 ≤ 2 * (e - ((p - b : Nat) : Int) + p) := by
    have h1 := hr.1
    rw [abs_mul, av] at h1
    have up : mag * mag < 2 ^ (2 * (e - ((p - b : Nat) : Int) + p + 1)) := by
      have K0 : (0 : Rat) < 2 ^ (e - ((p - b : Nat) : Int)) := zpow_pos (by norm_num) _
      have : mag < 2 ^ (p + 1) * 2 ^ (e - ((p - b : Nat) : Int)) := by
        rw [eq]
        exact mul_lt_mul_of_pos_right (by exact_mod_cast M2) K0
      rw [two_mul, zpow_add₀ (by norm_num), show e - ((p - b : Nat) : Int) + p + 1 = (e - ((p - b : Nat) : Int)) + ((p + 1 : Nat) : Int) by push_cast; ring, zpow_add₀ (by norm_num), zpow_natCast, mul_comm (2 ^ (e - ((p - b : Nat) : Int))) ((2 : Rat) ^ (p + 1))]
      exact mul_self_lt_mul_self (magnitude hx.2) this
    have lo : (2 : Rat) ^ (f.emin + f.prec - 1 + 1) ≤ mag * mag := by
      rw [zpow_add₀ (by norm_num), zpow_one]
      have : (16 : Rat) / 2 ^ f.emax = 8 / 2 ^ f.emax * 2 := by ring
      linarith
    have := (zpow_lt_zpow_iff_right₀ (by norm_num : (1 : Rat) < 2)).1 (lt_of_le_of_lt lo up)
    omega
  refine ⟨m * 2 ^ (p - b), e - ((p - b : Nat) : Int), ?_, ?_, ?_, ?_, ?_⟩
  · rw [hp]; exact M1
  · rw [hp]; exact M2
  · rw [hp] at hn small
    push_cast at hn small
    omega
  · rw [hp] at hn ⊢
    push_cast at hn ⊢
    simpa using hn
  · rw [av, eq]

/-- The sum of two squares and its root. -/
theorem root_of_squares {f : Fmt} (hf : FloatOrDouble f) {x y : Fl} (hx : Fine f x) (hy : Fine f y) (bx : |val x * val x| ≤ 2 ^ f.emax / 16) (by' : |val y * val y| ≤ 2 ^ f.emax / 16) :
    ∃ s m, add f (mul f x x) (mul f y y) = .fin s m ∧ OfType f (.fin s m) ∧ rq f (val x * val x) ≤ val (.fin s m) ∧ rq f (val y * val y) ≤ val (.fin s m) := by
  have w := wide_of hf
  obtain ⟨-, -, l3⟩ := PowFl.normal_low hf
  have u1 := un_le w
  norm_num at u1
  have ee : et f ≤ 1 := (et_le w).trans ((pow_le_pow_left₀ (un_pos f).le u1 5).trans (by norm_num))
  obtain ⟨g1, e1⟩ := mul_fine w hx.1 hx.1 (by linarith)
  obtain ⟨g2, e2⟩ := mul_fine w hy.1 hy.1 (by linarith)
  have v1 := Ieee.mul_rounds hx.1 hx.1 g1.1
  have v2 := Ieee.mul_rounds hy.1 hy.1 g2.1
  have s1 : |val (mul f x x)| ≤ 2 ^ f.emax / 16 * 1.1 + 1 := by
    have := abs_add_le (val (mul f x x) - val x * val x) (val x * val x)
    rw [sub_add_cancel] at this
    have : un f * |val x * val x| ≤ 1 / 16777216 * |val x * val x| := mul_le_mul_of_nonneg_right u1 (abs_nonneg _)
    linarith
  have s2 : |val (mul f y y)| ≤ 2 ^ f.emax / 16 * 1.1 + 1 := by
    have := abs_add_le (val (mul f y y) - val y * val y) (val y * val y)
    rw [sub_add_cancel] at this
    have : un f * |val y * val y| ≤ 1 / 16777216 * |val y * val y| := mul_le_mul_of_nonneg_right u1 (abs_nonneg _)
    linarith
  have s3 := abs_add_le (val (mul f x x)) (val (mul f y y))
  obtain ⟨g3, -⟩ := add_fine w g1 g2 (s3.trans (add_le_add s1 s2)) (by linarith)
  have v3 := SoftCl.add_rounds g1.1 g2.1 g3.1
  obtain ⟨s, m, e⟩ := finite_fin g3.1
  rw [e] at g3 v3
  refine ⟨s, m, e, g3.2, ?_, ?_⟩
  · rw [v3, ← v1]
    have k := rq_mono w.1 (show val (mul f x x) ≤ val (mul f x x) + val (mul f y y) by rw [v2]; linarith [rq_nonneg (f := f) (mul_self_nonneg (val y))])
    rwa [SoftCl.fine_rq g1] at k
  · rw [v3, ← v2]
    have k := rq_mono w.1 (show val (mul f y y) ≤ val (mul f x x) + val (mul f y y) by rw [v1]; linarith [rq_nonneg (f := f) (mul_self_nonneg (val x))])
    rwa [SoftCl.fine_rq g2] at k

/-- The root is not below a number whose square is in the sum. -/
theorem root_above {f : Fmt} (hf : FloatOrDouble f) {x : Fl} (hx : Fine f x) (hr : WithinRange f (val x * val x)) {s : Bool} {m : Rat} (t : OfType f (.fin s m)) (h : rq f (val x * val x) ≤ val (.fin s m)) :
    ∃ r, sqrt f (.fin s m) = .fin false r ∧ 0 < |val x| ∧ |val x| ≤ r := by
  have w := wide_of hf
  obtain ⟨M, k, a1, a2, a3, a4, a5⟩ := all_bits hf hx hr
  have K0 : (0 : Rat) < 2 ^ k := zpow_pos (by norm_num) _
  have M0 : (0 : Rat) < M := by
    have : 0 < M := lt_of_lt_of_le (by positivity) a1
    exact_mod_cast this
  have x0 : 0 < |val x| := by rw [a5]; positivity
  have m0 := magnitude t
  have hv : val (.fin s m) ≤ m := by
    cases s
    · exact le_rfl
    · simp only [val, if_true]; linarith
  have sq : rq f (|val x| * |val x|) ≤ m := by rw [abs_mul_abs_self]; linarith
  have g := root_ge w a1 a2 a3 a4 (S := m) (by rw [← a5]; exact sq)
  rw [← a5] at g
  have pos : 0 < rq f (val x * val x) := by
    obtain ⟨l1, l2, l3⟩ := PowFl.normal_low hf
    have B0 : (0 : Rat) < 2 ^ f.emax := by linarith
    have nb : (2 : Rat) ^ (f.emin + f.prec - 1) ≤ |val x * val x| := by
      have := hr.1
      have : (8 : Rat) / 2 ^ f.emax ≤ 16 / 2 ^ f.emax := div_le_div_of_nonneg_right (by norm_num) B0.le
      linarith
    have e := (abs_le.1 (PowFl.rq_rel nb)).1
    have u1 := un_le w
    norm_num at u1
    rw [abs_of_nonneg (mul_self_nonneg _)] at e
    have q0 : 0 < val x * val x := by rw [← abs_mul_abs_self]; positivity
    have : un f * (val x * val x) ≤ 1 / 16777216 * (val x * val x) := mul_le_mul_of_nonneg_right u1 q0.le
    linarith
  have s0 : s = false := by
    cases s
    · rfl
    · have h : rq f (val x * val x) ≤ -m := h
      linarith
  subst s0
  have mn : m ≠ 0 := by
    rintro rfl
    have h : rq f (val x * val x) ≤ 0 := h
    linarith
  refine ⟨rootVal f m, ?_, x0, g⟩
  simp [sqrt, mn]

/-- **C161, the cosine.** The cosine of the angle around an axis never leaves the range from -1 to 1. -/
theorem C161_cosine {f : Fmt} (hf : FloatOrDouble f) (w c : Fl) (hw : Ieee.Spec.Finite w) (tw : OfType f w) (hc : Ieee.Spec.Finite c) (tc : OfType f c)
    (h : (WithinRange f (val w * val w) ∧ |val c * val c| ≤ 2 ^ f.emax / 16) ∨ (val w = 0 ∧ WithinRange f (val c * val c))) :
    Ieee.Spec.Finite (cosine f w c) ∧ -1 ≤ val (cosine f w c) ∧ val (cosine f w c) ≤ 1 := by
  have wd := wide_of hf
  obtain ⟨-, -, l3⟩ := PowFl.normal_low hf
  have fw : Fine f w := ⟨hw, tw⟩
  have fc : Fine f c := ⟨hc, tc⟩
  have bw : |val w * val w| ≤ 2 ^ f.emax / 16 := by
    rcases h with h | h
    · exact h.1.2
    · rw [h.1, MulZeroClass.mul_zero, abs_zero]; linarith
  have bc : |val c * val c| ≤ 2 ^ f.emax / 16 := by
    rcases h with h | h
    · exact h.2
    · exact h.2.2
  obtain ⟨s, m, e, t, k1, k2⟩ := root_of_squares hf fw fc bw bc
  have R : ∃ r, sqrt f (.fin s m) = .fin false r ∧ 0 < r ∧ |val w| ≤ r := by
    rcases h with h | h
    · obtain ⟨r, r1, r2, r3⟩ := root_above hf fw h.1 t k1
      exact ⟨r, r1, by linarith, r3⟩
    · obtain ⟨r, r1, r2, r3⟩ := root_above hf fc h.2 t k2
      exact ⟨r, r1, by linarith, by rw [h.1, abs_zero]; linarith⟩
  obtain ⟨r, r1, r2, r3⟩ := R
  have ec : cosine f w c = div f w (.fin false r) := by unfold cosine; rw [e, r1]
  have q : |val w / r| ≤ 1 := by
    rw [abs_div, abs_of_pos r2]
    exact (div_le_one r2).2 r3
  obtain ⟨one, v1⟩ := CurveFl.small_nat wd (n := 1) (by norm_num)
  have v1 : val (ofNat 1) = 1 := by simpa using v1
  have rone : rq f 1 = 1 := by have := SoftCl.fine_rq one; rwa [v1] at this
  rw [abs_le] at q
  have q1 := rq_mono wd.1 q.1
  have q2 := rq_mono wd.1 q.2
  rw [rq_neg, rone] at q1
  rw [rone] at q2
  have hb : |rq f (val w / r)| < 2 ^ f.emax := lt_of_le_of_lt (abs_le.2 ⟨q1, q2⟩) (by linarith)
  obtain ⟨sw, mw, ew⟩ := finite_fin hw
  obtain ⟨g1, g2⟩ := fine_round wd (z := sw != false) hb
  have ed : div f w (.fin false r) = ofRat f (sw != false) (val w / r) := by
    rw [ew]
    simp only [div, if_neg r2.ne']
    rfl
  rw [ec, ed, g2]
  exact ⟨g1.1, q1, q2⟩

/-- **C161, the angle.** The angle around an axis is a finite number, with the sign of the component of the axis. -/
theorem C161_angle_partial {f : Fmt} (hf : FloatOrDouble f) {acos : Fl → Fl} (ha : AcosLike acos) (w c : Fl) (hw : Ieee.Spec.Finite w) (tw : OfType f w) (hc : Ieee.Spec.Finite c) (tc : OfType f c)
    (h : (WithinRange f (val w * val w) ∧ |val c * val c| ≤ 2 ^ f.emax / 16) ∨ (val w = 0 ∧ WithinRange f (val c * val c))) :
    Ieee.Spec.Finite (rotationAround f acos w c) ∧ |val (rotationAround f acos w c)| = val (mul f (ofNat 2) (acos (cosine f w c))) ∧ (0 < val c → 0 ≤ val (rotationAround f acos w c)) ∧
    (val c < 0 → val (rotationAround f acos w c) ≤ 0) := by
  have wd := wide_of hf
  have hbig := one_le wd
  norm_num at hbig
  obtain ⟨c1, c2, c3⟩ := C161_cosine hf w c hw tw hc tc h
  obtain ⟨a1, a2, a3⟩ := ha.angle _ c1 c2 c3
  have v2 : val (ofNat 2) = 2 := by norm_num [val, ofNat]
  obtain ⟨g, -⟩ := mul_fine wd (a := ofNat 2) trivial a1 (by rw [v2, abs_of_nonneg (by linarith)]; linarith)
  have e := Ieee.mul_rounds (f := f) (a := ofNat 2) trivial a1 g.1
  rw [v2] at e
  have n : 0 ≤ val (mul f (ofNat 2) (acos (cosine f w c))) := by rw [e]; exact rq_nonneg (by linarith)
  unfold rotationAround
  obtain ⟨s, m, em⟩ := finite_fin g.1
  rw [em] at g n ⊢
  have m0 := magnitude g.2
  obtain ⟨sc, mc, ec⟩ := finite_fin hc
  subst ec
  have mc0 := magnitude tc
  have vm : val (.fin s m) = m := by
    cases s
    · rfl
    · simp only [val, if_true] at n ⊢; linarith
  rw [vm]
  cases sc
  · refine ⟨trivial, ?_, fun _ => m0, fun k => ?_⟩
    · show |m| = m
      exact abs_of_nonneg m0
    · have k : mc < 0 := k
      linarith
  · refine ⟨trivial, ?_, fun k => ?_, fun _ => ?_⟩
    · show |-m| = m
      rw [abs_neg]; exact abs_of_nonneg m0
    · have k : 0 < -mc := k
      linarith
    · show -m ≤ 0
      linarith

/-- **C161, violated.** Without a rotation in the plane of the axis, and for numbers whose squares vanish, the angle is not a number. -/
theorem C161_angle_violated {acos : Fl → Fl} (ha : AcosLike acos) :
    IsNan (rotationAround binary32 acos (ofNat 0) (ofNat 0)) ∧ IsNan (rotationAround binary64 acos (ofNat 0) (ofNat 0)) ∧
    IsNan (rotationAround binary32 acos (.fin false (1 / 2 ^ 80)) (.fin false (1 / 2 ^ 80))) := by
  have key : ∀ f x c, ¬ Ieee.Spec.Finite (cosine f x c) → IsNan (rotationAround f acos x c) := fun f x c h => by
    have := ha.infinite _ h
    unfold rotationAround
    generalize acos (cosine f x c) = a at this
    cases a with
    | nan s => exact trivial
    | inf => exact this.elim
    | fin => exact this.elim
  refine ⟨key _ _ _ ?_, key _ _ _ ?_, key _ _ _ ?_⟩
  · rw [show cosine binary32 (ofNat 0) (ofNat 0) = .nan false by decide +kernel]; exact id
  · rw [show cosine binary64 (ofNat 0) (ofNat 0) = .nan false by decide +kernel]; exact id
  · rw [show cosine binary32 (.fin false (1 / 2 ^ 80)) (.fin false (1 / 2 ^ 80)) = .inf false by decide +kernel]; exact id

/-- **C161, rotation vectors.** If the real part is not below -1, the components of the rotation vector are finite. If the length of the imaginary part is above the margin and the real part is below 1, the vector is
the imaginary part times a number that takes its length to the angle, but for rounding; else it is zero. -/
theorem C161_vector_partial {f : Fmt} (hf : FloatOrDouble f) {acos : Fl → Fl} (ha : AcosLike acos) (q : Quat) (hq : Ieee.Spec.Finite q.w ∧ Ieee.Spec.Finite q.x ∧ Ieee.Spec.Finite q.y ∧ Ieee.Spec.Finite q.z)
    (tw : OfType f q.w) (h1 : -1 ≤ val q.w) (hs : |val q.x| ≤ 2 ∧ |val q.y| ≤ 2 ∧ |val q.z| ≤ 2) :
    (Ieee.Spec.Finite (rotationVector f acos q).x ∧ Ieee.Spec.Finite (rotationVector f acos q).y ∧ Ieee.Spec.Finite (rotationVector f acos q).z) ∧
    (lt (ampleEpsilon f) (Vec.length f ⟨q.x, q.y, q.z⟩) = true → val q.w < 1 → ∃ k : Rat,
      |k * val (Vec.length f ⟨q.x, q.y, q.z⟩) - 2 * val (acos q.w)| ≤ 3 * roundoff f * (2 * val (acos q.w)) + (2 + val (Vec.length f ⟨q.x, q.y, q.z⟩)) * tiny f ∧
      |val (rotationVector f acos q).x - k * val q.x| ≤ roundoff f * |k * val q.x| + tiny f ∧ |val (rotationVector f acos q).y - k * val q.y| ≤ roundoff f * |k * val q.y| + tiny f ∧
      |val (rotationVector f acos q).z - k * val q.z| ≤ roundoff f * |k * val q.z| + tiny f) ∧
    (lt (ampleEpsilon f) (Vec.length f ⟨q.x, q.y, q.z⟩) = false ∨ 1 ≤ val q.w → rotationVector f acos q = ⟨ofNat 0, ofNat 0, ofNat 0⟩) := by
  have ru : roundoff f = un f := rfl
  have te : tiny f = et f := rfl
  rw [ru, te]
  have w := wide_of hf
  have big : 100 / un f + 100 ≤ 2 ^ f.emax := by rcases hf with rfl | rfl <;> decide +kernel
  have u0 := un_pos f
  have u1 := un_le w
  norm_num at u1
  have ee : et f ≤ 1 := (et_le w).trans ((pow_le_pow_left₀ u0.le u1 5).trans (by norm_num))
  have hbig := one_le w
  norm_num at hbig
  have P : ∀ {a b : Fl}, Ieee.Spec.Finite a → Ieee.Spec.Finite b → ∀ {B : Rat}, |val a * val b| ≤ B → 2 * B + 1 ≤ 2 ^ f.emax → Fine f (mul f a b) ∧ |val (mul f a b)| ≤ 1.01 * B + 1 := fun {a b} fa fb {B} hB hl => by
    obtain ⟨g, e⟩ := mul_fine w fa fb (by linarith)
    refine ⟨g, ?_⟩
    have := abs_add_le (val (mul f a b) - val a * val b) (val a * val b)
    rw [sub_add_cancel] at this
    have := mul_le_mul_of_nonneg_right u1 (abs_nonneg (val a * val b))
    have := abs_nonneg (val a * val b)
    linarith
  have sq : ∀ {a : Fl}, |val a| ≤ 2 → |val a * val a| ≤ 4 := fun {a} h => by
    rw [abs_mul]
    nlinarith [abs_nonneg (val a)]
  obtain ⟨fw, fx, fy, fz⟩ := hq
  obtain ⟨g1, b1⟩ := P fx fx (sq hs.1) (by linarith)
  obtain ⟨g2, b2⟩ := P fy fy (sq hs.2.1) (by linarith)
  obtain ⟨g3, b3⟩ := P fz fz (sq hs.2.2) (by linarith)
  have s1 := abs_add_le (val (mul f q.x q.x)) (val (mul f q.y q.y))
  obtain ⟨g4, e4⟩ := add_fine w g1 g2 (M := 12) (by linarith) (by linarith)
  have b4 : |val (add f (mul f q.x q.x) (mul f q.y q.y))| ≤ 13 := by
    have := abs_add_le (val (add f (mul f q.x q.x) (mul f q.y q.y)) - (val (mul f q.x q.x) + val (mul f q.y q.y))) (val (mul f q.x q.x) + val (mul f q.y q.y))
    rw [sub_add_cancel] at this
    linarith
  have s2 := abs_add_le (val (add f (mul f q.x q.x) (mul f q.y q.y))) (val (mul f q.z q.z))
  obtain ⟨g5, -⟩ := add_fine w g4 g3 (M := 20) (by linarith) (by linarith)
  have one := CurveFl.small_nat w (n := 1) (by norm_num)
  have v1 : val (ofNat 1) = 1 := by norm_num [val, ofNat]
  have wlt : lt q.w (ofNat 1) = true ↔ val q.w < 1 := by
    rw [lt_iff (fine_number (f := f) ⟨fw, tw⟩) (fine_number one.1), num_fine (f := f) ⟨fw, tw⟩, num_fine one.1, v1]
    norm_cast
  unfold rotationVector Vec.length
  dsimp only
  obtain ⟨s, m, em⟩ := finite_fin g5.1
  rw [em]
  split
  · rename_i c
    rw [Bool.and_eq_true] at c
    obtain ⟨c1, c2⟩ := c
    have L : ∃ r, sqrt f (.fin s m) = .fin false r ∧ 16 * un f < r := by
      by_cases m0 : m = 0
      · exfalso
        rw [show sqrt f (.fin s m) = .fin s 0 by simp [sqrt, m0], lt_iff (a := ampleEpsilon f) (b := .fin s 0) id id] at c1
        have c1 := WithTop.coe_lt_coe.1 (WithBot.coe_lt_coe.1 c1)
        have : (0 : Rat) < 8 * 2 ^ (1 - (f.prec : Int)) := by positivity
        cases s <;> norm_num at c1 <;> linarith
      · cases s
        · refine ⟨rootVal f m, by simp [sqrt, m0], ?_⟩
          rw [show sqrt f (.fin false m) = .fin false (rootVal f m) by simp [sqrt, m0], lt_iff (a := ampleEpsilon f) (b := .fin false (rootVal f m)) id id] at c1
          have c1 : 8 * (2 : Rat) ^ (1 - (f.prec : Int)) < rootVal f m := WithTop.coe_lt_coe.1 (WithBot.coe_lt_coe.1 c1)
          have : (2 : Rat) ^ (1 - (f.prec : Int)) = 2 * un f := by
            unfold un
            rw [zpow_sub₀ (by norm_num), zpow_one, zpow_natCast]
            ring
          rw [this] at c1
          linarith
        · exfalso
          rw [show sqrt f (.fin true m) = .nan false by simp [sqrt, m0]] at c1
          cases c1
    obtain ⟨r, er, hr⟩ := L
    rw [er]
    have r0 : 0 < r := by linarith
    have w1 : val q.w ≤ 1 := (wlt.1 c2).le
    obtain ⟨a1, a2, a3⟩ := ha.angle _ fw h1 w1
    have v2 : val (ofNat 2) = 2 := by norm_num [val, ofNat]
    obtain ⟨p1, p2⟩ := P (a := ofNat 2) trivial a1 (B := 8) (by rw [v2, abs_of_nonneg (by linarith)]; linarith) (by linarith)
    have vr : val (.fin false r) = r := rfl
    have ir : 1 / r ≤ 1 / (16 * un f) := one_div_le_one_div_of_le (by linarith) hr.le
    have ir' : 1 / (16 * un f) = 100 / un f / 1600 := by field_simp; norm_num
    have d1 : |val (mul f (ofNat 2) (acos q.w)) / r| ≤ 100 / un f / 160 := by
      rw [abs_div, abs_of_pos r0, div_eq_mul_one_div]
      have := mul_le_mul (p2.trans (show (1.01 : Rat) * 8 + 1 ≤ 10 by norm_num)) (ir.trans_eq ir') (one_div_pos.2 r0).le (by norm_num)
      linarith
    have q0 : 0 < 100 / un f := by positivity
    obtain ⟨k1, k2⟩ := div_fine w p1.1 (b := .fin false r) trivial (by rw [vr]; exact r0.ne') (by rw [vr]; linarith)
    rw [vr] at k2
    have k3 : |val (div f (mul f (ofNat 2) (acos q.w)) (.fin false r))| ≤ 100 / un f / 100 + 1 := by
      have := abs_add_le (val (div f (mul f (ofNat 2) (acos q.w)) (.fin false r)) - val (mul f (ofNat 2) (acos q.w)) / r) (val (mul f (ofNat 2) (acos q.w)) / r)
      rw [sub_add_cancel] at this
      have := mul_le_mul_of_nonneg_right u1 (abs_nonneg (val (mul f (ofNat 2) (acos q.w)) / r))
      linarith
    have last : ∀ {a : Fl}, Ieee.Spec.Finite a → |val a| ≤ 2 → Ieee.Spec.Finite (mul f (div f (mul f (ofNat 2) (acos q.w)) (.fin false r)) a) ∧
        |val (mul f (div f (mul f (ofNat 2) (acos q.w)) (.fin false r)) a) - val (div f (mul f (ofNat 2) (acos q.w)) (.fin false r)) * val a| ≤
          un f * |val (div f (mul f (ofNat 2) (acos q.w)) (.fin false r)) * val a| + et f := fun {a} fa hb => by
      have hm : |val (div f (mul f (ofNat 2) (acos q.w)) (.fin false r)) * val a| ≤ (100 / un f / 100 + 1) * 2 := by
        rw [abs_mul]
        exact mul_le_mul k3 hb (abs_nonneg _) (by linarith)
      obtain ⟨g, e⟩ := mul_fine w k1 fa (by linarith)
      exact ⟨g.1, e⟩
    refine ⟨⟨(last fx hs.1).1, (last fy hs.2.1).1, (last fz hs.2.2).1⟩, fun _ _ => ⟨_, ?_, (last fx hs.1).2, (last fy hs.2.1).2, (last fz hs.2.2).2⟩, fun h => ?_⟩
    · rw [vr]
      obtain ⟨-, m2⟩ := mul_fine w (a := ofNat 2) trivial a1 (by rw [v2, abs_of_nonneg (by linarith)]; linarith)
      rw [v2, abs_of_nonneg (a := 2 * val (acos q.w)) (by linarith)] at m2
      generalize val (mul f (ofNat 2) (acos q.w)) = m at *
      generalize val (div f (mul f (ofNat 2) (acos q.w)) (.fin false r)) = k at *
      have k4 : |k * r - m| ≤ un f * |m| + et f * r := by
        have := mul_le_mul_of_nonneg_right k2 r0.le
        rw [abs_div, abs_of_pos r0, add_mul, mul_assoc, div_mul_cancel₀ _ r0.ne'] at this
        rwa [show k * r - m = (k - m / r) * r by field_simp, abs_mul, abs_of_pos r0]
      have t1 := abs_add_le (k * r - m) (m - 2 * val (acos q.w))
      rw [sub_add_sub_cancel] at t1
      have t2 := abs_add_le (m - 2 * val (acos q.w)) (2 * val (acos q.w))
      rw [sub_add_cancel, abs_of_nonneg (a := 2 * val (acos q.w)) (by linarith)] at t2
      have e0 := et_pos f
      have t3 := mul_le_mul_of_nonneg_left (t2.trans (add_le_add_left m2 _)) u0.le
      have t4 := mul_le_mul_of_nonneg_right u1 (mul_nonneg u0.le (show 0 ≤ 2 * val (acos q.w) by linarith))
      have t5 := mul_le_mul_of_nonneg_right u1 e0.le
      have t6 := mul_nonneg u0.le a2
      linarith
    · rcases h with h | h
      · rw [er] at c1
        rw [c1] at h
        cases h
      · linarith [wlt.1 c2]
  · rename_i c
    refine ⟨⟨trivial, trivial, trivial⟩, fun h1 h2 => ?_, fun _ => rfl⟩
    exact (c (by rw [h1, wlt.2 h2]; rfl)).elim

/-- **C161, rotation vectors, violated.** The rotation vector of a quaternion whose squared length is one but for three roundings of one can be NaN: only the upper side is guarded. -/
theorem C161_vector_violated {acos : Fl → Fl} (ha : AcosLike acos) :
    let q : Quat := ⟨.fin true (1 + 1 / 2 ^ 23), .fin false (1 / 2 ^ 19), .fin false 0, .fin false 0⟩
    IsNan (rotationVector binary32 acos q).x ∧ |val q.w * val q.w + val q.x * val q.x - 1| ≤ 1 / 2 ^ 21 := by
  refine ⟨?_, by decide +kernel⟩
  have hn := ha.outside (.fin true (1 + 1 / 2 ^ 23)) trivial (Or.inl (by norm_num [val]))
  unfold rotationVector
  dsimp only
  rw [if_pos (by decide +kernel)]
  generalize acos (.fin true (1 + 1 / 2 ^ 23)) = a at hn
  cases a with
  | nan s => exact trivial
  | inf => exact hn.elim
  | fin => exact hn.elim

/-- Rounding moves the quotient to one but not beyond. -/
example : cosine binary32 (.fin false (1 + 1 / 2 ^ 23)) (.fin true (1 / 2 ^ 19)) = .fin false 1 ∧ WithinRange binary32 ((1 + 1 / 2 ^ 23) * (1 + 1 / 2 ^ 23)) ∧
    cosine binary32 (.fin true 3) (.fin false 4) = .fin true (10066330 / 2 ^ 24) := by
  refine ⟨by decide +kernel, ⟨?_, ?_⟩, by decide +kernel⟩ <;> decide +kernel

/-- A quaternion with two components, whose rotation vector is above the margin. -/
example : let q : Quat := ⟨.fin false 0, .fin false (3 / 2), .fin false 0, .fin true 2⟩
    lt (ampleEpsilon binary32) (Vec.length binary32 ⟨q.x, q.y, q.z⟩) = true ∧ (rotationVector binary32 (fun _ => .fin false (3 / 2)) q).x = .fin false (15099495 / 2 ^ 23) ∧
    (rotationVector binary32 (fun _ => .fin false (3 / 2)) q).z = .fin true (20132660 / 2 ^ 23) := by
  decide +kernel

end Xo.AngleFl
