import Verif.Model.WavesFl
import Verif.Props.C91_Small
import Verif.Props.C122_WrapRounding
import Verif.Props.C161_Angles

/-!
C162: the waves and the positive remainder, with rounding.
-/
namespace Xo.WaveFl
open Num (Fl Fmt binary32 binary64)
open Ieee Norm LongSum
open Ieee.Spec (OfType num IsNan)
open Norm.Spec (FloatOrDouble)
open LongSum.Spec

namespace Spec

/-- `d` is the distance of `x` to the nearest even number: 0 at the even numbers, 1 at the odd ones, straight in between. -/
def ToEven (x d : Rat) : Prop := (∃ n : Int, d = |x - 2 * n|) ∧ ∀ n : Int, d ≤ |x - 2 * n|

end Spec
open Spec

theorem val_fabs {x : Fl} (hx : Ieee.Spec.Finite x) (h : OfType f x) : Ieee.Spec.Finite (fabs x) ∧ val (fabs x) = |val x| := by
  obtain ⟨s, m, rfl⟩ := finite_fin hx
  have m0 : 0 ≤ m := by
    obtain ⟨k, e, -, -, -, h⟩ := h
    rw [h]
    positivity
  refine ⟨trivial, ?_⟩
  cases s
  · exact (abs_of_nonneg m0).symm
  · show m = |-m|
    rw [abs_neg, abs_of_nonneg m0]

/-- A difference of two finite numbers. -/
theorem sub_near {f : Fmt} (w : Wide f) {a b : Fl} (ha : Ieee.Spec.Finite a) (hb : Ieee.Spec.Finite b) (hB : 2 * |val a - val b| + 1 ≤ 2 ^ f.emax) :
    Fine f (sub f a b) ∧ |val (sub f a b) - (val a - val b)| ≤ un f * |val a - val b| + et f := by
  have h := rq_un f (val a - val b)
  have u0 := un_pos f
  have u1 := un_le w
  have e2 : et f ≤ 1 / 2 := (et_le w).trans ((pow_le_pow_left₀ u0.le u1 5).trans (by norm_num))
  have h2 : |rq f (val a - val b)| < 2 ^ f.emax := by
    have := abs_add_le (rq f (val a - val b) - (val a - val b)) (val a - val b)
    rw [sub_add_cancel] at this
    have k : un f * |val a - val b| ≤ 1 / 2 * |val a - val b| := mul_le_mul_of_nonneg_right (u1.trans (by norm_num)) (abs_nonneg _)
    linarith [abs_nonneg (val a - val b)]
  obtain ⟨s, m, rfl⟩ := finite_fin ha
  obtain ⟨t, n, rfl⟩ := finite_fin hb
  obtain ⟨h3, h4⟩ := fine_round w (z := s && !t) h2
  have hn : val (.fin s m) - val (.fin t n) = val (.fin s m) + val (.fin (!t) n) := by cases t <;> simp [val, sub_eq_add_neg]
  have e : sub f (.fin s m) (.fin t n) = ofRat f (s && !t) (val (.fin s m) - val (.fin t n)) := by
    rw [hn]
    rfl
  exact ⟨e ▸ h3, by rw [e, h4]; exact h⟩

/-- The errors of the steps of the triangle wave. -/
theorem triangle_arith {u η x T S D R d : Rat} {n : Int} (u0 : 0 < u) (u1 : u ≤ 1 / 2 ^ 24) (η0 : 0 < η) (hT : |T - 1 / 2 * x| ≤ u * |1 / 2 * x| + η)
    (hS : |S - (T + 1 / 2)| ≤ u * (|T| + 1 / 2)) (n1 : (n : Rat) ≤ S) (n2 : S < n + 1) (hD : |D - (T - n)| ≤ u * |T - n| + η) (hR : |R - (2 * |D|)| ≤ u * (2 * |D|) + η)
    (hd : ToEven x d) : |R - d| ≤ 6 * u * (|x| + 1) + 12 * η := by
  norm_num at u1
  obtain ⟨⟨m, hm⟩, hd⟩ := hd
  have dn := hd n
  rw [abs_mul, abs_of_pos (show (0 : Rat) < 1 / 2 by norm_num)] at hT
  have X0 := abs_nonneg x
  have a0 := mul_nonneg u0.le X0
  have tT : |T| ≤ 1 / 2 * |x| + (u * (1 / 2 * |x|) + η) := by
    have := abs_add_le (T - 1 / 2 * x) (1 / 2 * x)
    rw [sub_add_cancel, abs_mul (1 / 2 : Rat), abs_of_pos (show (0 : Rat) < 1 / 2 by norm_num)] at this
    linarith
  have q1 := mul_le_mul_of_nonneg_right u1 a0
  have q2 := mul_le_mul_of_nonneg_right u1 η0.le
  have q3 := mul_le_mul_of_nonneg_right u1 u0.le
  have e1 : u * (|T| + 1 / 2) ≤ 51 / 100 * (u * |x|) + 1 / 2 * u + 1 / 100 * η := by
    have := mul_le_mul_of_nonneg_left tT u0.le
    linarith
  have tn : |T - n| ≤ 1 / 2 + (51 / 100 * (u * |x|) + 1 / 2 * u + 1 / 100 * η) := by
    obtain ⟨s1, s2⟩ := abs_le.1 (hS.trans e1)
    exact abs_le.2 ⟨by linarith, by linarith⟩
  have e2 : u * |T - n| ≤ 51 / 100 * u + 1 / 100 * (u * |x|) + 1 / 100 * η := by
    have := mul_le_mul_of_nonneg_left tn u0.le
    linarith
  have tD : |D| ≤ |T - n| + (51 / 100 * u + 1 / 100 * (u * |x|) + 1 / 100 * η) + η := by
    have := abs_add_le (D - (T - n)) (T - n)
    rw [sub_add_cancel] at this
    linarith
  have e3 : u * (2 * |D|) ≤ 11 / 10 * u + 1 / 10 * (u * |x|) + 1 / 10 * η := by
    have := mul_le_mul_of_nonneg_left tD u0.le
    linarith
  have xn : |(|x - 2 * n| - 2 * |D|)| ≤ 2 * ((51 / 100 * u + 1 / 100 * (u * |x|) + 1 / 100 * η) + η + (u * (1 / 2 * |x|) + η)) := by
    have := abs_abs_sub_abs_le_abs_sub (x - 2 * n) (2 * D)
    rw [abs_mul (2 : Rat) D, abs_of_pos (show (0 : Rat) < 2 by norm_num)] at this
    refine this.trans ?_
    obtain ⟨t1, t2⟩ := abs_le.1 hT
    obtain ⟨d1, d2⟩ := abs_le.1 hD
    exact abs_le.2 ⟨by linarith, by linarith⟩
  have xn1 : |x - 2 * n| ≤ 1 + 2 * (51 / 100 * (u * |x|) + 1 / 2 * u + 1 / 100 * η) + 2 * (u * (1 / 2 * |x|) + η) := by
    obtain ⟨t1, t2⟩ := abs_le.1 hT
    obtain ⟨s1, s2⟩ := abs_le.1 tn
    exact abs_le.2 ⟨by linarith, by linarith⟩
  have dd : |x - 2 * n| - d ≤ 2 * (2 * (51 / 100 * (u * |x|) + 1 / 2 * u + 1 / 100 * η) + 2 * (u * (1 / 2 * |x|) + η)) := by
    by_cases h : m = n
    · rw [hm, h]
      linarith
    · have h1 : (1 : Rat) ≤ |(m : Rat) - n| := by
        have : 1 ≤ |m - n| := Int.one_le_abs (sub_ne_zero.2 h)
        exact_mod_cast this
      have h2 := abs_sub_abs_le_abs_sub (x - 2 * n) (x - 2 * m)
      have h3 : |(2 : Rat) * (m - n)| ≤ |x - 2 * n| + |x - 2 * m| := by
        have := abs_sub (x - 2 * n) (x - 2 * m)
        rwa [show x - 2 * n - (x - 2 * m) = 2 * ((m : Rat) - n) by ring] at this
      rw [abs_mul, abs_of_pos (show (0 : Rat) < 2 by norm_num)] at h3
      rw [hm]
      rw [hm] at dn
      linarith
  obtain ⟨r1, r2⟩ := abs_le.1 hR
  obtain ⟨x1, x2⟩ := abs_le.1 xn
  exact abs_le.2 ⟨by linarith, by linarith⟩

/-- **C162, the square wave.** For numbers of any size that are not negative the wave is 1 between an even number and the next odd one, and 0 elsewhere: there is no rounding. -/
theorem C162_square_partial {f : Fmt} {v : Fl} (hv : Ieee.Spec.Finite v) (tv : OfType f v) (h0 : 0 ≤ val v) :
    (Even ⌊val v⌋ → squareWave v = ofNat 1) ∧ (Odd ⌊val v⌋ → squareWave v = ofNat 0) := by
  obtain ⟨s, x, rfl⟩ := finite_fin hv
  have x0 := AngleFl.magnitude tv
  unfold squareWave
  rw [show ofNat 2 = .fin false 2 from rfl, fmod_fin _ _ _ _ (by norm_num)]
  have nlt : lt (.fin s (x - ⌊x / 2⌋ * 2)) (ofNat 1) = true ↔ val (.fin s (x - ⌊x / 2⌋ * 2)) < 1 := by
    rw [lt_iff (a := .fin s _) (b := ofNat 1) id id, show num (ofNat 1) = (((1 : Nat) : Rat) : WithTop Rat) from rfl,
      show num (.fin s (x - ⌊x / 2⌋ * 2)) = ((val (.fin s (x - ⌊x / 2⌋ * 2)) : Rat) : WithTop Rat) from rfl]
    norm_cast
  obtain ⟨r0, r1⟩ := fmod_range (x := x) (y := 2) (by norm_num)
  have f1 := Int.floor_le x
  have f2 := Int.lt_floor_add_one x
  cases s
  · constructor
    · rintro ⟨k, hk⟩
      have hk : ⌊x⌋ = k + k := hk
      refine if_pos (nlt.2 ?_)
      by_contra h
      have h : ¬ x - ⌊x / 2⌋ * 2 < 1 := h
      have : (⌊x / 2⌋ * 2 + 1 : Int) ≤ ⌊x⌋ := Int.le_floor.2 (by push_cast; linarith)
      have g : ((⌊x⌋ : Int) : Rat) < (⌊x / 2⌋ * 2 + 2 : Int) := by push_cast; linarith
      have g : ⌊x⌋ < ⌊x / 2⌋ * 2 + 2 := by exact_mod_cast g
      omega
    · rintro ⟨k, hk⟩
      have hk : ⌊x⌋ = 2 * k + 1 := hk
      refine if_neg fun h => ?_
      have h : x - ⌊x / 2⌋ * 2 < 1 := nlt.1 h
      have : (⌊x / 2⌋ * 2 : Int) ≤ ⌊x⌋ := Int.le_floor.2 (by push_cast; linarith)
      have g : ((⌊x⌋ : Int) : Rat) < (⌊x / 2⌋ * 2 + 1 : Int) := by push_cast; linarith
      have g : ⌊x⌋ < ⌊x / 2⌋ * 2 + 1 := by exact_mod_cast g
      omega
  · have h0 : 0 ≤ -x := h0
    obtain rfl : x = 0 := by linarith
    refine ⟨fun _ => by simp [lt, ofNat, val], fun h => ?_⟩
    rw [show val (.fin true 0) = 0 by simp [val], Int.floor_zero] at h
    exact (by decide : ¬ Odd (0 : Int)) h |>.elim

/-- **C162, the square wave, violated.** Below zero the wave does not repeat: it is 1 at -1/2 but 0 at 3/2. -/
theorem C162_square_violated : squareWave (.fin true (1 / 2)) = ofNat 1 ∧ squareWave (.fin false (3 / 2)) = ofNat 0 := by
  decide +kernel

/-- **C162, the triangle wave.** The wave is finite and not negative, and it is the distance to the nearest even number but for six roundings of the argument. -/
theorem C162_triangle_partial {f : Fmt} (hf : FloatOrDouble f) {v : Fl} (hv : Ieee.Spec.Finite v) (hB : |val v| ≤ 2 ^ f.emax / 16) (d : Rat) (hd : ToEven (val v) d) :
    Ieee.Spec.Finite (triangleWave f v) ∧ 0 ≤ val (triangleWave f v) ∧ |val (triangleWave f v) - d| ≤ 6 * roundoff f * (|val v| + 1) + 12 * tiny f := by
  have w := wide_of hf
  have u0 := un_pos f
  have u1 := un_le w
  have e0 := et_pos f
  have hbig := one_le w
  norm_num at hbig
  have ee : et f ≤ 1 := (et_le w).trans ((pow_le_pow_left₀ u0.le u1 5).trans (by norm_num))
  have u2 : un f ≤ 1 / 1000 := u1.trans (by norm_num)
  have hh : val half = 1 / 2 := rfl
  have X0 := abs_nonneg (val v)
  have fh : Fine f half := by rcases hf with rfl | rfl <;> exact ⟨trivial, 1, -1, by decide +kernel, by decide +kernel, by decide +kernel, by norm_num⟩
  have k1 : |val half * val v| = 1 / 2 * |val v| := by rw [hh, abs_mul, abs_of_pos (by norm_num)]
  obtain ⟨gT, eT⟩ := mul_fine w (a := half) (b := v) trivial hv (by rw [k1]; linarith)
  have bT : |val (mul f half v)| ≤ |val v| + 1 := by
    have := abs_add_le (val (mul f half v) - val half * val v) (val half * val v)
    rw [sub_add_cancel] at this
    rw [k1] at this eT
    have := mul_le_mul_of_nonneg_right u2 X0
    linarith
  have bS := abs_add_le (val (mul f half v)) (val half)
  rw [hh, abs_of_pos (show (0 : Rat) < 1 / 2 by norm_num)] at bS
  obtain ⟨gS, eS⟩ := add_fine w gT fh (M := |val (mul f half v)| + 1 / 2) (by rw [hh]; exact bS) (by linarith)
  obtain ⟨s, m, es⟩ := finite_fin gS.1
  obtain ⟨t, k, ek, -, vk, -⟩ := C129_floor s m
  unfold triangleWave
  rw [es, ek]
  rw [es] at eS
  have n1 := Int.floor_le (val (.fin s m))
  have n2 := Int.lt_floor_add_one (val (.fin s m))
  rw [← vk] at n1 n2
  have bn : |val (mul f half v) - val (.fin t k)| ≤ |val v| + 3 := by
    have := mul_le_mul_of_nonneg_right u2 (show 0 ≤ |val (mul f half v)| + 1 / 2 by positivity)
    obtain ⟨s1, s2⟩ := abs_le.1 eS
    rw [hh] at s1 s2
    exact abs_le.2 ⟨by linarith, by linarith⟩
  obtain ⟨gD, eD⟩ := sub_near w gT.1 (b := .fin t k) trivial (by linarith)
  obtain ⟨gA, eA⟩ := val_fabs gD.1 gD.2
  have bD : |val (sub f (mul f half v) (.fin t k))| ≤ 2 * |val v| + 5 := by
    have := abs_add_le (val (sub f (mul f half v) (.fin t k)) - (val (mul f half v) - val (.fin t k))) (val (mul f half v) - val (.fin t k))
    rw [sub_add_cancel] at this
    have := mul_le_mul_of_nonneg_right u2 (abs_nonneg (val (mul f half v) - val (.fin t k)))
    linarith
  have v2 : val (ofNat 2) = 2 := by norm_num [val, ofNat]
  have k2 : |val (ofNat 2) * val (fabs (sub f (mul f half v) (.fin t k)))| = 2 * |val (sub f (mul f half v) (.fin t k))| := by
    rw [v2, eA, abs_mul, abs_abs, abs_of_pos (by norm_num)]
  obtain ⟨gR, eR⟩ := mul_fine w (a := ofNat 2) trivial gA (by rw [k2]; linarith)
  refine ⟨gR.1, ?_, ?_⟩
  · rw [Ieee.mul_rounds (a := ofNat 2) trivial gA gR.1, v2, eA]
    have := rq_mono w.ok (show 0 ≤ 2 * |val (sub f (mul f half v) (.fin t k))| by positivity)
    rwa [rq_zero] at this
  · rw [k2, v2, eA] at eR
    rw [hh] at eT eS
    have : val (.fin t k) = ((⌊val (.fin s m)⌋ : Int) : Rat) := vk
    rw [this] at n1 n2
    refine triangle_arith u0 u1 e0 eT eS n1 n2 ?_ eR hd
    rw [← this]
    exact eD

/-- The error of rounding from a half to one. -/
theorem unit_half {f : Fmt} (hf : FloatOrDouble f) {x : Rat} (h1 : 1 / 2 ≤ x) (h2 : x < 1) : |rq f x - x| ≤ 1 / 2 ^ (f.prec + 1) := by
  have x0 : 0 < x := by linarith
  have l1 : Int.log 2 x < 0 := by
    rw [← Int.lt_zpow_iff_log_lt (by norm_num) x0]
    simpa using h2
  have l2 : -1 ≤ Int.log 2 x := by
    rw [← Int.zpow_le_iff_le_log (by norm_num) x0]
    norm_num
    linarith
  have he : Num.ulpExp f x = -(f.prec : Int) := by
    unfold Num.ulpExp
    rw [show Int.log 2 x = -1 by omega]
    rcases hf with rfl | rfl <;> decide +kernel
  have hp : (0 : Rat) < 2 ^ f.prec := by positivity
  have hc := Num.rhe_close (x / 2 ^ (-(f.prec : Int)))
  have e : Num.rndVal f x - x = ((Num.rhe (x / 2 ^ (-(f.prec : Int))) : Rat) - x / 2 ^ (-(f.prec : Int))) * 2 ^ (-(f.prec : Int)) := by
    unfold Num.rndVal
    rw [he]
    field_simp
  rw [rq_pos x0, e, abs_mul, abs_of_pos (show (0 : Rat) < 2 ^ (-(f.prec : Int)) by positivity)]
  have := mul_le_mul_of_nonneg_right hc (show (0 : Rat) ≤ 2 ^ (-(f.prec : Int)) by positivity)
  refine this.trans_eq ?_
  rw [zpow_neg, zpow_natCast, pow_succ]
  field_simp

/-- The rounded distance to the integer that the program takes is at most a half. -/
theorem floor_near {f : Fmt} (hf : FloatOrDouble f) {T : Fl} (hT : Fine f T) (bT : |val T| ≤ 2 ^ f.prec / 4) (n : Int) (hn : n = ⌊rq f (val T + 1 / 2)⌋) :
    -(1 / 2) ≤ rq f (val T - n) ∧ rq f (val T - n) ≤ 1 / 2 := by
  have w := wide_of hf
  have pbig : (2 : Rat) ^ 24 ≤ 2 ^ f.prec := by rcases hf with rfl | rfl <;> decide +kernel
  norm_num at pbig
  have em : f.emin ≤ -1 := by rcases hf with rfl | rfl <;> decide +kernel
  obtain ⟨b1, b2⟩ := abs_le.1 bT
  have rint : ∀ z : Int, |(z : Rat)| < 2 ^ f.prec → rq f z = z := fun z hz => by
    have := rq_mul (f := f) (m := z) (e := 0) (by exact_mod_cast hz) (by omega)
    simpa using this
  have rhalf : rq f (1 / 2) = 1 / 2 := by
    have := rq_mul (f := f) (m := 1) (e := -1) (by exact_mod_cast (by rw [Int.cast_one, abs_one]; linarith : |((1 : Int) : Rat)| < 2 ^ f.prec)) em
    norm_num at this ⊢
    exact this
  have close : |rq f (val T + 1 / 2) - (val T + 1 / 2)| ≤ 13 / 50 := by
    obtain ⟨s, m, e⟩ := finite_fin hT.1
    have fh : Fine f half := by rcases hf with rfl | rfl <;> exact ⟨trivial, 1, -1, by decide +kernel, by decide +kernel, by decide +kernel, by norm_num⟩
    have h := rq_grid (f := f) (grid_add hT.grid fh.grid)
    rw [show val half = 1 / 2 from rfl] at h
    refine h.trans ?_
    have : |val T + 1 / 2| ≤ 2 ^ f.prec / 4 + 1 / 2 := abs_le.2 ⟨by linarith, by linarith⟩
    refine (mul_le_mul_of_nonneg_left this (un_pos f).le).trans ?_
    unfold un
    rw [one_div_mul_eq_div, div_le_iff₀ (by positivity)]
    linarith
  obtain ⟨c1, c2⟩ := abs_le.1 close
  have n1 := Int.floor_le (rq f (val T + 1 / 2))
  have n2 := Int.lt_floor_add_one (rq f (val T + 1 / 2))
  rw [← hn] at n1 n2
  have up : val T - n < 1 / 2 := by
    by_contra h
    have := rq_mono w.ok (show ((n + 1 : Int) : Rat) ≤ val T + 1 / 2 by push_cast; linarith)
    rw [rint (n + 1) (by push_cast; exact abs_lt.2 ⟨by linarith, by linarith⟩)] at this
    push_cast at this
    linarith
  refine ⟨?_, by have := rq_mono w.ok up.le; rwa [rhalf] at this⟩
  have fin : -(1 / 2) - 1 / 2 ^ (f.prec + 1) ≤ val T - n → -(1 / 2) ≤ rq f (val T - n) := fun h => by
    have := rq_mono w.ok h
    rwa [show rq f (-(1 / 2) - 1 / 2 ^ (f.prec + 1)) = -(1 / 2) by rcases hf with rfl | rfl <;> decide +kernel] at this
  have ep : (0 : Rat) < 1 / 2 ^ (f.prec + 1) := by positivity
  refine fin ?_
  by_contra hc
  have lo : val T + 1 / 2 < n := by linarith
  have Sn : rq f (val T + 1 / 2) = n := by
    have := rq_mono w.ok lo.le
    rw [rint n (abs_lt.2 ⟨by linarith, by linarith⟩)] at this
    linarith
  have exact' : rq f (val T + 1 / 2) = val T + 1 / 2 → False := fun h => by rw [h] at Sn; linarith
  obtain ⟨k, e, hk, he, hv⟩ : ∃ k e : Int, |(k : Rat)| < 2 ^ f.prec ∧ f.emin ≤ e ∧ val T = k * 2 ^ e := by
    obtain ⟨s, m, e⟩ := finite_fin hT.1
    obtain ⟨a, b, h1, h2, -, h3⟩ := (e ▸ hT.2 : OfType f (.fin s m))
    have h1' : (a : Rat) < 2 ^ f.prec := by exact_mod_cast h1
    cases s
    · exact ⟨a, b, by push_cast; rw [abs_of_nonneg (by positivity)]; exact h1', h2, by rw [e]; show m = _; rw [h3]; push_cast; rfl⟩
    · exact ⟨-a, b, by push_cast; rw [abs_neg, abs_of_nonneg (by positivity)]; exact h1', h2, by rw [e]; show -m = _; rw [h3]; push_cast; ring⟩
  have E0 : (0 : Rat) < 2 ^ e := by positivity
  rcases le_or_gt 0 e with h | h
  · -- an integer plus a half
    refine exact' ?_
    obtain ⟨j, rfl⟩ := Int.eq_ofNat_of_zero_le h
    have hv : val T = ((k * 2 ^ j : Int) : Rat) := by rw [hv]; push_cast; rfl
    have e1 : val T + 1 / 2 = ((2 * (k * 2 ^ j) + 1 : Int) : Rat) * 2 ^ (-1 : Int) := by
      rw [hv]
      push_cast
      norm_num
      ring
    rw [e1]
    refine rq_mul ?_ em
    have : |((2 * (k * 2 ^ j) + 1 : Int) : Rat)| < 2 ^ f.prec := by
      have q : ((2 * (k * 2 ^ j) + 1 : Int) : Rat) = 2 * val T + 1 := by rw [hv]; push_cast; rfl
      rw [q]
      exact abs_lt.2 ⟨by linarith, by linarith⟩
    exact_mod_cast this
  · -- a multiple of the smaller power
    obtain ⟨j, hj⟩ : ∃ j : Nat, -1 - e = j := ⟨(-1 - e).toNat, by omega⟩
    have e1 : val T + 1 / 2 = ((k + 2 ^ j : Int) : Rat) * 2 ^ e := by
      have : (2 : Rat) ^ j * 2 ^ e = 1 / 2 := by
        rw [← zpow_natCast, ← zpow_add₀ (by norm_num), ← hj]
        norm_num
      rw [hv]
      push_cast
      rw [add_mul, this]
    by_cases rep : |((k + 2 ^ j : Int) : Rat)| < 2 ^ f.prec
    · refine exact' ?_
      rw [e1]
      exact rq_mul (by exact_mod_cast rep) he
    · obtain ⟨k1, k2⟩ := abs_lt.1 hk
      have j0 : (0 : Rat) < 2 ^ j := by positivity
      have kB : (2 : Rat) ^ f.prec ≤ ((k + 2 ^ j : Int) : Rat) := by
        by_contra h
        refine rep (abs_lt.2 ⟨?_, by linarith⟩)
        push_cast
        linarith
      have B1 : (2 : Rat) ^ f.prec * 2 ^ e ≤ val T + 1 / 2 := by
        rw [e1]
        exact mul_le_mul_of_nonneg_right kB E0.le
      have B2 : val T < 2 ^ f.prec * 2 ^ e := by
        rw [hv]
        exact mul_lt_mul_of_pos_right k2 E0
      have B3 : (2 : Rat) ^ f.prec * 2 ^ e = 2 ^ ((f.prec : Int) + e) := by
        rw [zpow_add₀ (by norm_num), zpow_natCast]
      rw [B3] at B1 B2
      rcases le_or_gt 0 ((f.prec : Int) + e) with g | g
      · obtain ⟨i, hi⟩ := Int.eq_ofNat_of_zero_le g
        rw [hi] at B1 B2
        have B1 : ((2 ^ i : Int) : Rat) ≤ val T + 1 / 2 := by push_cast; exact_mod_cast B1
        have B2 : val T < ((2 ^ i : Int) : Rat) := by push_cast; exact_mod_cast B2
        have : ((2 ^ i : Int) : Rat) < n := B1.trans_lt lo
        have : (2 ^ i : Int) + 1 ≤ n := by exact_mod_cast this
        have : (((2 ^ i : Int) + 1 : Int) : Rat) ≤ n := by exact_mod_cast this
        rw [Int.cast_add, Int.cast_one] at this
        linarith
      · have q : (2 : Rat) ^ ((f.prec : Int) + e) ≤ 2 ^ (-1 : Int) := zpow_le_zpow_right₀ (by norm_num) (by omega)
        norm_num at q
        have x1 : val T + 1 / 2 < 1 := by linarith
        have n1' : n = 1 := by
          have a1 : (n : Rat) < 2 := by linarith
          have a2 : (0 : Rat) < n := by
            have : (0 : Rat) < 2 ^ ((f.prec : Int) + e) := by positivity
            linarith
          have a1 : n < 2 := by exact_mod_cast a1
          have a2 : 0 < n := by exact_mod_cast a2
          omega
        rcases lt_or_ge (val T) 0 with t | t
        · have := rq_mono w.ok (show val T + 1 / 2 ≤ 1 / 2 by linarith)
          rw [rhalf, Sn, n1'] at this
          norm_num at this
        · have := (abs_le.1 (unit_half hf (show 1 / 2 ≤ val T + 1 / 2 by linarith) x1)).2
          rw [Sn] at this
          linarith

/-- **C162, the range of the triangle wave.** For arguments up to half the precision the wave stays from 0 to 1. -/
theorem C162_range_partial {f : Fmt} (hf : FloatOrDouble f) {v : Fl} (hv : Ieee.Spec.Finite v) (hB : |val v| ≤ 2 ^ f.prec / 4) :
    0 ≤ val (triangleWave f v) ∧ val (triangleWave f v) ≤ 1 := by
  have w := wide_of hf
  have pb : (2 : Rat) ^ f.prec / 4 + 1 ≤ 2 ^ f.emax / 16 ∧ (2 : Rat) ^ 24 ≤ 2 ^ f.prec := by rcases hf with rfl | rfl <;> decide +kernel
  obtain ⟨pb, pc⟩ := pb
  norm_num at pc
  have u0 := un_pos f
  have u1 := un_le w
  have u2 : un f ≤ 1 / 1000 := u1.trans (by norm_num)
  have ee : et f ≤ 1 := (et_le w).trans ((pow_le_pow_left₀ u0.le u1 5).trans (by norm_num))
  have X0 := abs_nonneg (val v)
  have hh : val half = 1 / 2 := rfl
  have fh : Fine f half := by rcases hf with rfl | rfl <;> exact ⟨trivial, 1, -1, by decide +kernel, by decide +kernel, by decide +kernel, by norm_num⟩
  have k1 : |val half * val v| = 1 / 2 * |val v| := by rw [hh, abs_mul, abs_of_pos (by norm_num)]
  obtain ⟨gT, eT⟩ := mul_fine w (a := half) (b := v) trivial hv (by rw [k1]; linarith)
  have bT : |val (mul f half v)| ≤ 2 ^ f.prec / 4 := by
    have := abs_add_le (val (mul f half v) - val half * val v) (val half * val v)
    rw [sub_add_cancel] at this
    rw [k1] at this eT
    have := mul_le_mul_of_nonneg_right u2 X0
    linarith
  obtain ⟨t1, t2⟩ := abs_le.1 bT
  obtain ⟨gS, -⟩ := add_fine w gT fh (M := 2 ^ f.prec / 4 + 1 / 2) (by rw [hh]; exact abs_le.2 ⟨by linarith, by linarith⟩) (by linarith)
  have vS := SoftCl.add_rounds gT.1 fh.1 gS.1
  rw [hh] at vS
  obtain ⟨s, m, es⟩ := finite_fin gS.1
  obtain ⟨t, k, ek, -, vk, -⟩ := C129_floor s m
  unfold triangleWave
  rw [es, ek]
  rw [es] at vS
  rw [vS] at vk
  obtain ⟨d1, d2⟩ := floor_near hf gT bT _ rfl
  rw [← vk] at d1 d2
  have n1 := Int.floor_le (rq f (val (mul f half v) + 1 / 2))
  have n2 := Int.lt_floor_add_one (rq f (val (mul f half v) + 1 / 2))
  rw [← vk] at n1 n2
  have hS := rq_un f (val (mul f half v) + 1 / 2)
  have bS : |val (mul f half v) + 1 / 2| ≤ 2 ^ f.prec / 4 + 1 / 2 := abs_le.2 ⟨by linarith, by linarith⟩
  have := mul_le_mul u2 bS (abs_nonneg _) (by norm_num)
  obtain ⟨s1, s2⟩ := abs_le.1 hS
  obtain ⟨gD, -⟩ := sub_near w gT.1 (b := .fin t k) trivial (by
    have : |val (mul f half v) - val (.fin t k)| ≤ 2 ^ f.prec / 4 + 1 := abs_le.2 ⟨by linarith, by linarith⟩
    linarith)
  have vD := Ieee.sub_rounds (b := .fin t k) gT.1 trivial gD.1
  obtain ⟨gA, eA⟩ := val_fabs gD.1 gD.2
  have bD : |val (sub f (mul f half v) (.fin t k))| ≤ 1 / 2 := by rw [vD]; exact abs_le.2 ⟨d1, d2⟩
  have v2 : val (ofNat 2) = 2 := by norm_num [val, ofNat]
  have A0 := abs_nonneg (val (sub f (mul f half v) (.fin t k)))
  obtain ⟨gR, -⟩ := mul_fine w (a := ofNat 2) trivial gA (by rw [v2, eA, abs_of_nonneg (by linarith)]; linarith)
  rw [Ieee.mul_rounds (a := ofNat 2) trivial gA gR.1, v2, eA]
  have q1 := rq_mono w.ok (show 0 ≤ 2 * |val (sub f (mul f half v) (.fin t k))| by linarith)
  have q2 := rq_mono w.ok (show 2 * |val (sub f (mul f half v) (.fin t k))| ≤ 1 by linarith)
  rw [rq_zero] at q1
  have one := CurveFl.small_nat w (n := 1) (by norm_num)
  have r1 := SoftCl.fine_rq one.1
  rw [one.2, Nat.cast_one] at r1
  rw [r1] at q2
  exact ⟨q1, q2⟩

/-- **C162, the triangle wave, violated.** For large numbers the wave leaves its range: it is 2 at an even number. -/
theorem C162_triangle_violated :
    triangleWave binary32 (ofNat (2 ^ 24 + 2)) = ofNat 2 ∧ triangleWave binary64 (ofNat (2 ^ 53 + 2)) = ofNat 2 ∧ triangleWave binary32 (.fin true (2 ^ 24 + 6)) = ofNat 2 := by
  decide +kernel

/-- **C162, the positive remainder.** The result lies from 0 to the divisor. For numbers that are not negative it is exact. -/
theorem C162_pos_mod_partial {f : Fmt} (hf : FloatOrDouble f) {x y : Fl} (hx : Ieee.Spec.Finite x) (tx : OfType f x) (hy : Ieee.Spec.Finite y) (ty : OfType f y) (y0 : 0 < val y) :
    Ieee.Spec.Finite (posMod f x y) ∧ 0 ≤ val (posMod f x y) ∧ val (posMod f x y) ≤ val y ∧
    (0 ≤ val x → val (posMod f x y) < val y ∧ ∃ n : Int, val x - val (posMod f x y) = n * val y) ∧
    (val x < 0 → ∃ n : Int, |val x - n * val y - val (posMod f x y)| ≤ roundoff f * val y) := by
  have w := wide_of hf
  have nx := num_fine (f := f) ⟨hx, tx⟩
  obtain ⟨s, m, rfl⟩ := finite_fin hx
  obtain ⟨t, n, rfl⟩ := finite_fin hy
  have m0 := AngleFl.magnitude tx
  have n0 := AngleFl.magnitude ty
  have ht : t = false := by
    cases t
    · rfl
    · have y0 : 0 < -n := y0
      linarith
  subst ht
  have vy : val (.fin false n) = n := rfl
  have y0 : 0 < n := y0
  obtain ⟨r0, r1⟩ := fmod_range (x := m) y0
  have hof := fmod_ofType w.ok tx ty y0.ne'
  have bn := val_lt ty
  rw [vy, abs_of_pos y0] at bn
  have ry : rq f n = n := rq_val ty
  have z0 : rq f 0 = 0 := rq_zero
  have ltz : lt (.fin s m) (ofNat 0) = true ↔ val (.fin s m) < 0 := by
    rw [lt_iff (a := .fin s m) (b := ofNat 0) id id, nx, show num (ofNat 0) = (((0 : Nat) : Rat) : WithTop Rat) from rfl]
    norm_cast
  unfold posMod
  rw [fmod_fin _ _ _ _ y0.ne'] at hof ⊢
  have k0 : 0 ≤ (⌊m / n⌋ : Rat) := by exact_mod_cast Int.floor_nonneg.2 (div_nonneg m0 y0.le)
  generalize hρ : m - ⌊m / n⌋ * n = ρ at *
  have step : ∀ {c : Fl} {z : Rat}, Fine f c → val c = z → 0 ≤ val (.fin s ρ) + z → val (.fin s ρ) + z ≤ n →
      Ieee.Spec.Finite (add f (.fin s ρ) c) ∧ val (add f (.fin s ρ) c) = rq f (val (.fin s ρ) + z) ∧ 0 ≤ rq f (val (.fin s ρ) + z) ∧ rq f (val (.fin s ρ) + z) ≤ n := by
    intro c z hc hz h1 h2
    have q1 := rq_mono w.ok h1
    have q2 := rq_mono w.ok h2
    rw [z0] at q1
    rw [ry] at q2
    obtain ⟨p, q, rfl⟩ := finite_fin hc.1
    obtain ⟨g1, g2⟩ := fine_round w (z := s && p) (x := val (.fin s ρ) + z) (by rw [abs_of_nonneg q1]; linarith)
    subst hz
    exact ⟨g1.1, g2, q1, q2⟩
  by_cases hn : val (.fin s m) < 0
  · rw [if_pos (ltz.2 hn)]
    have hs : s = true := by
      cases s
      · have hn : m < 0 := hn
        linarith
      · rfl
    subst hs
    have vρ : val (.fin true ρ) = -ρ := rfl
    have vm : val (.fin true m) = -m := rfl
    obtain ⟨c1, c2⟩ := fine_round w (z := false != false) (x := val (ofNat 1) * val (.fin false n)) (by
      rw [show val (ofNat 1) * val (.fin false n) = n by rw [vy]; norm_num [val, ofNat], ry, abs_of_pos y0]
      exact bn)
    have c2 : val (mul f (ofNat 1) (.fin false n)) = n := by
      rw [show mul f (ofNat 1) (.fin false n) = ofRat f (false != false) (val (ofNat 1) * val (.fin false n)) from rfl, c2,
        show val (ofNat 1) * val (.fin false n) = n by rw [vy]; norm_num [val, ofNat], ry]
    obtain ⟨g1, g2, g3, g4⟩ := step (c := mul f (ofNat 1) (.fin false n)) c1 c2 (by rw [vρ]; linarith) (by rw [vρ]; linarith)
    have gr := rq_grid (f := f) (grid_add (Fine.grid (f := f) (a := .fin true ρ) ⟨trivial, hof⟩) (Fine.grid (f := f) (a := .fin false n) ⟨trivial, ty⟩))
    rw [vρ, vy] at gr
    rw [vρ] at g2 g3 g4
    refine ⟨g1, by rw [g2]; exact g3, by rw [g2, vy]; exact g4, fun h => absurd hn (not_lt.2 h), fun _ => ⟨-⌊m / n⌋ - 1, ?_⟩⟩
    rw [g2, vm, vy, abs_sub_comm]
    rw [show -m - ((-⌊m / n⌋ - 1 : Int) : Rat) * n = -ρ + n by rw [← hρ]; push_cast; ring]
    refine gr.trans (mul_le_mul_of_nonneg_left ?_ (un_pos f).le)
    rw [abs_of_nonneg (by linarith)]
    linarith
  · rw [if_neg (fun h => hn (ltz.1 h))]
    obtain ⟨c1, c2⟩ := fine_round w (z := false != false) (x := val (ofNat 0) * val (.fin false n)) (by
      rw [show val (ofNat 0) * val (.fin false n) = 0 by norm_num [val, ofNat], z0, abs_zero]
      positivity)
    have c2 : val (mul f (ofNat 0) (.fin false n)) = 0 := by
      rw [show mul f (ofNat 0) (.fin false n) = ofRat f (false != false) (val (ofNat 0) * val (.fin false n)) from rfl, c2,
        show val (ofNat 0) * val (.fin false n) = 0 by norm_num [val, ofNat], z0]
    have hF : val (.fin s ρ) = ρ ∧ val (.fin s m) = m := by
      cases s
      · exact ⟨rfl, rfl⟩
      · have hn : ¬ -m < 0 := hn
        obtain rfl : m = 0 := by linarith
        have : ρ = 0 := by rw [← hρ]; simp
        rw [this]
        simp [val]
    obtain ⟨g1, g2, g3, g4⟩ := step (c := mul f (ofNat 0) (.fin false n)) c1 c2 (by rw [hF.1]; linarith) (by rw [hF.1]; linarith)
    have e : rq f (val (.fin s ρ) + 0) = ρ := by
      rw [add_zero, rq_val hof, hF.1]
    rw [e] at g2 g3 g4
    refine ⟨g1, by rw [g2]; exact g3, by rw [g2, vy]; exact g4, fun _ => ⟨by rw [g2, vy]; exact r1, ⌊m / n⌋, ?_⟩, fun h => absurd h hn⟩
    rw [g2, hF.2, vy, ← hρ]
    ring

/-- **C162, the positive remainder, violated.** The result can be the divisor. -/
theorem C162_pos_mod_violated : posMod binary32 (.fin true (1 / 2 ^ 30)) (ofNat 1) = ofNat 1 ∧ posMod binary32 (.fin true 2) (ofNat 1) = ofNat 1 := by
  decide +kernel

/-- Twice a number of the format needs no rounding. -/
theorem rq_twice {f : Fmt} {a : Fl} (ha : Fine f a) (h0 : 0 ≤ val a) : rq f (2 * val a) = 2 * val a := by
  obtain ⟨s, m, rfl⟩ := finite_fin ha.1
  obtain ⟨k, e, h1, h2, -, h3⟩ := ha.2
  have m0 : 0 ≤ m := AngleFl.magnitude ha.2
  have hv : val (.fin s m) = m := by
    cases s
    · rfl
    · have h0 : 0 ≤ -m := h0
      show -m = m
      linarith
  rw [hv, h3, show (2 : Rat) * (k * 2 ^ e) = ((k : Int) : Rat) * 2 ^ (e + 1) by rw [zpow_add_one₀ (by norm_num)]; push_cast; ring]
  exact rq_mul (by rw [Nat.abs_cast]; exact_mod_cast h1) (by omega)

/-- **C162, the triangle wave between limits.** The wave is not below the lower limit, and not above the lower limit plus the distance of the limits as it is computed. -/
theorem C162_triangle_in_partial {f : Fmt} (hf : FloatOrDouble f) {v l u : Fl} (hv : Ieee.Spec.Finite v) (tv : OfType f v) (hl : Ieee.Spec.Finite l) (tl : OfType f l) (hu : Ieee.Spec.Finite u) (tu : OfType f u)
    (h : val l < val u) (bv : |val v| ≤ 2 ^ f.emax / 16) (bl : |val l| ≤ 2 ^ f.emax / 16) (bu : |val u| ≤ 2 ^ f.emax / 16) :
    Ieee.Spec.Finite (triangleWaveIn f v l u) ∧ val l ≤ val (triangleWaveIn f v l u) ∧ val (triangleWaveIn f v l u) ≤ val (add f (sub f u l) l) := by
  have w := wide_of hf
  have u0 := un_pos f
  have u1 := un_le w
  have e0 := et_pos f
  have hbig := one_le w
  norm_num at hbig u1
  have tri : ∀ a b : Rat, |a| ≤ 2 ^ f.emax / 16 → |b| ≤ 2 ^ f.emax / 16 → 2 * |a - b| + 1 ≤ 2 ^ f.emax ∧ |a - b| ≤ 2 ^ f.emax / 8 := fun a b ha hb => by
    have := abs_sub a b
    constructor <;> linarith
  have ee : et f ≤ 1 := (et_le w).trans ((pow_le_pow_left₀ u0.le (un_le w) 5).trans (by norm_num))
  obtain ⟨ga, ea⟩ := sub_near w hu hl (tri _ _ bu bl).1
  obtain ⟨gd, ed⟩ := sub_near w hv hu (tri _ _ bv bu).1
  have apos : 0 < val (sub f u l) := by
    rw [Ieee.sub_rounds hu hl ga.1]
    obtain ⟨s, x, rfl⟩ := finite_fin hu
    obtain ⟨t, y, rfl⟩ := finite_fin hl
    exact diff_pos w.ok tu tl h
  have ba : |val (sub f u l)| ≤ 2 ^ f.emax / 6 := by
    have := abs_add_le (val (sub f u l) - (val u - val l)) (val u - val l)
    rw [sub_add_cancel] at this
    have := mul_le_mul_of_nonneg_right u1 (abs_nonneg (val u - val l))
    have := (tri _ _ bu bl).2
    linarith
  rw [abs_of_pos apos] at ba
  have v2 : val (ofNat 2) = 2 := by norm_num [val, ofNat]
  obtain ⟨g2, -⟩ := mul_fine w (a := ofNat 2) trivial ga.1 (by rw [v2, abs_of_pos (by linarith)]; linarith)
  have e2 : val (mul f (ofNat 2) (sub f u l)) = 2 * val (sub f u l) := by
    rw [Ieee.mul_rounds (a := ofNat 2) trivial ga.1 g2.1, v2, rq_twice ga apos.le]
  obtain ⟨p1, p2, p3, -, -⟩ := C162_pos_mod_partial hf gd.1 gd.2 g2.1 g2.2 (by rw [e2]; linarith)
  rw [e2] at p3
  unfold triangleWaveIn
  dsimp only
  generalize posMod f (sub f v u) (mul f (ofNat 2) (sub f u l)) = r at *
  have br : |val r - val (sub f u l)| ≤ val (sub f u l) := abs_le.2 ⟨by linarith, by linarith⟩
  obtain ⟨gs, -⟩ := sub_near w p1 ga.1 (by linarith)
  have es := Ieee.sub_rounds p1 ga.1 gs.1
  have ra := SoftCl.fine_rq ga
  have bs : |val (sub f r (sub f u l))| ≤ val (sub f u l) := by
    rw [es]
    obtain ⟨b1, b2⟩ := abs_le.1 br
    have q1 := rq_mono w.ok b1
    have q2 := rq_mono w.ok b2
    rw [rq_neg, ra] at q1
    rw [ra] at q2
    exact abs_le.2 ⟨q1, q2⟩
  obtain ⟨gA, eA⟩ := val_fabs gs.1 gs.2
  have tA : Fine f (fabs (sub f r (sub f u l))) := by
    obtain ⟨s, m, e⟩ := finite_fin gs.1
    rw [e] at gs ⊢
    exact ⟨trivial, gs.2⟩
  rw [← eA] at bs
  have A0 : 0 ≤ val (fabs (sub f r (sub f u l))) := by rw [eA]; positivity
  obtain ⟨l1, l2⟩ := abs_le.1 bl
  obtain ⟨go, -⟩ := add_fine w tA (b := l) ⟨hl, tl⟩ (M := 2 ^ f.emax / 4) (abs_le.2 ⟨by linarith, by linarith⟩) (by linarith)
  obtain ⟨gt, -⟩ := add_fine w ga (b := l) ⟨hl, tl⟩ (M := 2 ^ f.emax / 4) (abs_le.2 ⟨by linarith, by linarith⟩) (by linarith)
  rw [SoftCl.add_rounds tA.1 hl go.1, SoftCl.add_rounds ga.1 hl gt.1]
  refine ⟨go.1, ?_, rq_mono w.ok (by linarith)⟩
  have := rq_mono w.ok (show val l ≤ val (fabs (sub f r (sub f u l))) + val l by linarith)
  rwa [SoftCl.fine_rq (x := l) ⟨hl, tl⟩] at this

/-- **C162, the triangle wave at its limits.** At the lower limit the wave is the lower limit, without rounding. At the upper limit it is the lower limit plus the distance of the limits, as computed. -/
theorem C162_triangle_ends {f : Fmt} (hf : FloatOrDouble f) {l u : Fl} (hl : Ieee.Spec.Finite l) (tl : OfType f l) (hu : Ieee.Spec.Finite u) (tu : OfType f u)
    (h : val l < val u) (bl : |val l| ≤ 2 ^ f.emax / 16) (bu : |val u| ≤ 2 ^ f.emax / 16) :
    val (triangleWaveIn f l l u) = val l ∧ val (triangleWaveIn f u l u) = val (add f (sub f u l) l) := by
  have w := wide_of hf
  have u0 := un_pos f
  have u1 := un_le w
  have hbig := one_le w
  norm_num at hbig u1
  have ee : et f ≤ 1 := (et_le w).trans ((pow_le_pow_left₀ u0.le (un_le w) 5).trans (by norm_num))
  have t1 := abs_sub (val u) (val l)
  have t2 := abs_sub (val l) (val u)
  obtain ⟨ga, ea⟩ := sub_near w hu hl (by linarith)
  obtain ⟨gb, -⟩ := sub_near w hl hu (by linarith)
  obtain ⟨gz, -⟩ := sub_near w hu hu (by rw [sub_self, abs_zero]; linarith)
  have apos : 0 < val (sub f u l) := by
    rw [Ieee.sub_rounds hu hl ga.1]
    obtain ⟨s, x, rfl⟩ := finite_fin hu
    obtain ⟨t, y, rfl⟩ := finite_fin hl
    exact diff_pos w.ok tu tl h
  have eb : val (sub f l u) = -val (sub f u l) := by
    rw [Ieee.sub_rounds hl hu gb.1, Ieee.sub_rounds hu hl ga.1, ← rq_neg, neg_sub]
  have ez : val (sub f u u) = 0 := by rw [Ieee.sub_rounds hu hu gz.1, sub_self, rq_zero]
  have ba : |val (sub f u l)| ≤ 2 ^ f.emax / 6 := by
    have := abs_add_le (val (sub f u l) - (val u - val l)) (val u - val l)
    rw [sub_add_cancel] at this
    have := mul_le_mul_of_nonneg_right u1 (abs_nonneg (val u - val l))
    linarith
  rw [abs_of_pos apos] at ba
  have v2 : val (ofNat 2) = 2 := by norm_num [val, ofNat]
  obtain ⟨g2, -⟩ := mul_fine w (a := ofNat 2) trivial ga.1 (by rw [v2, abs_of_pos (by linarith)]; linarith)
  have e2 : val (mul f (ofNat 2) (sub f u l)) = 2 * val (sub f u l) := by
    rw [Ieee.mul_rounds (a := ofNat 2) trivial ga.1 g2.1, v2, rq_twice ga apos.le]
  have ra := SoftCl.fine_rq ga
  obtain ⟨l1, l2⟩ := abs_le.1 bl
  have last : ∀ {r : Fl} {c : Rat}, Ieee.Spec.Finite r → 0 ≤ c → c ≤ val (sub f u l) → |rq f (val r - val (sub f u l))| = c → |val r - val (sub f u l)| ≤ val (sub f u l) →
      val (add f (fabs (sub f r (sub f u l))) l) = rq f (c + val l) := by
    intro r c hr c0 hc e br
    obtain ⟨gs, -⟩ := sub_near w hr ga.1 (by linarith)
    obtain ⟨gA, eA⟩ := val_fabs gs.1 gs.2
    have tA : Fine f (fabs (sub f r (sub f u l))) := by
      obtain ⟨s, m, e⟩ := finite_fin gs.1
      rw [e] at gs ⊢
      exact ⟨trivial, gs.2⟩
    have vA : val (fabs (sub f r (sub f u l))) = c := by rw [eA, Ieee.sub_rounds hr ga.1 gs.1, e]
    obtain ⟨go, -⟩ := add_fine w tA (b := l) ⟨hl, tl⟩ (M := 2 ^ f.emax / 4) (by rw [vA]; exact abs_le.2 ⟨by linarith, by linarith⟩) (by linarith)
    rw [SoftCl.add_rounds tA.1 hl go.1, vA]
  unfold triangleWaveIn
  dsimp only
  constructor
  · obtain ⟨p1, -, -, -, -⟩ := C162_pos_mod_partial hf gb.1 gb.2 g2.1 g2.2 (by rw [e2]; linarith)
    have vp : val (posMod f (sub f l u) (mul f (ofNat 2) (sub f u l))) = val (sub f u l) := by
      revert p1
      obtain ⟨s, m, es⟩ := finite_fin gb.1
      obtain ⟨t, n, et⟩ := finite_fin g2.1
      rw [es, et]
      rw [es] at eb gb
      rw [et] at e2 g2
      have m0 : 0 ≤ m := AngleFl.magnitude gb.2
      have n0 : 0 ≤ n := AngleFl.magnitude g2.2
      have hs : s = true ∧ m = val (sub f u l) := by
        cases s
        · have eb : m = -val (sub f u l) := eb
          linarith
        · have eb : -m = -val (sub f u l) := eb
          exact ⟨rfl, by linarith⟩
      have ht : t = false ∧ n = 2 * val (sub f u l) := by
        cases t
        · exact ⟨rfl, e2⟩
        · have e2 : -n = 2 * val (sub f u l) := e2
          linarith
      obtain ⟨rfl, hm⟩ := hs
      obtain ⟨rfl, hn⟩ := ht
      have np : 0 < n := by linarith
      intro p1
      unfold posMod at p1 ⊢
      have lt0 : lt (.fin true m) (ofNat 0) = true := by
        rw [lt_iff (a := .fin true m) (b := ofNat 0) id id, show num (ofNat 0) = (((0 : Nat) : Rat) : WithTop Rat) from rfl, show num (.fin true m) = (((-m : Rat)) : WithTop Rat) from rfl]
        norm_cast
        push_cast
        linarith
      have fl : ⌊m / n⌋ = 0 := by
        rw [Int.floor_eq_zero_iff]
        exact ⟨div_nonneg m0 n0, by rw [div_lt_one np]; linarith⟩
      rw [fmod_fin _ _ _ _ np.ne', fl, Int.cast_zero, zero_mul, sub_zero, if_pos lt0] at p1 ⊢
      have c := fine_round w (z := false != false) (x := val (ofNat 1) * val (.fin false n)) (by
        rw [show val (ofNat 1) * val (.fin false n) = n by norm_num [val, ofNat], show rq f n = n from rq_val g2.2, abs_of_pos np]
        linarith)
      have c1 : Fine f (mul f (ofNat 1) (.fin false n)) := c.1
      have c2 : val (mul f (ofNat 1) (.fin false n)) = n := by
        rw [show mul f (ofNat 1) (.fin false n) = ofRat f (false != false) (val (ofNat 1) * val (.fin false n)) from rfl, c.2,
          show val (ofNat 1) * val (.fin false n) = n by norm_num [val, ofNat], show rq f n = n from rq_val g2.2]
      rw [SoftCl.add_rounds (a := .fin true m) trivial c1.1 p1, c2, show val (.fin true m) = -m from rfl, show -m + n = val (sub f u l) by linarith, ra]
    rw [last p1 le_rfl apos.le (by rw [vp, sub_self, rq_zero, abs_zero]) (by rw [vp, sub_self, abs_zero]; exact apos.le), zero_add]
    exact SoftCl.fine_rq (x := l) ⟨hl, tl⟩
  · obtain ⟨p1, p2, p3, p4, -⟩ := C162_pos_mod_partial hf gz.1 gz.2 g2.1 g2.2 (by rw [e2]; linarith)
    obtain ⟨p5, n, p6⟩ := p4 ez.ge
    rw [ez, e2] at p6
    rw [e2] at p5
    have vp : val (posMod f (sub f u u) (mul f (ofNat 2) (sub f u l))) = 0 := by
      have hn : n = 0 := by
        by_contra hn
        rcases lt_or_gt_of_ne hn with h | h
        · have : (n : Rat) ≤ -1 := by exact_mod_cast (by omega : n ≤ -1)
          have := mul_le_mul_of_nonneg_right this (show 0 ≤ 2 * val (sub f u l) by linarith)
          linarith
        · have : (1 : Rat) ≤ n := by exact_mod_cast h
          have := mul_le_mul_of_nonneg_right this (show 0 ≤ 2 * val (sub f u l) by linarith)
          linarith
      rw [hn] at p6
      push_cast at p6
      linarith
    rw [last p1 apos.le le_rfl (by rw [vp, zero_sub, rq_neg, ra, abs_neg, abs_of_pos apos]) (by rw [vp, zero_sub, abs_neg, abs_of_pos apos])]
    obtain ⟨gt, -⟩ := add_fine w ga (b := l) ⟨hl, tl⟩ (M := 2 ^ f.emax / 4) (abs_le.2 ⟨by linarith, by linarith⟩) (by linarith)
    rw [SoftCl.add_rounds ga.1 hl gt.1]

/-- **C162, the triangle wave between limits, violated.** At the upper limit the wave can be above the upper limit. -/
theorem C162_triangle_in_violated : let u : Fl := .fin false (3 / 2 ^ 25)
    triangleWaveIn binary32 u (.fin true 1) u = .fin false (1 / 2 ^ 23) ∧ val u < val (triangleWaveIn binary32 u (.fin true 1) u) := by
  decide +kernel

/-- A number that is not on the grid of the waves. -/
example : ToEven (13 / 4) (3 / 4) ∧ triangleWave binary32 (.fin false (13 / 4)) = .fin false (3 / 4) ∧ squareWave (.fin false (13 / 4)) = ofNat 0 ∧
    posMod binary32 (.fin true (13 / 4)) (ofNat 3) = .fin false (11 / 4) ∧ triangleWaveIn binary32 (.fin false (13 / 4)) (ofNat 1) (ofNat 2) = .fin false (5 / 4) := by
  refine ⟨⟨⟨2, by norm_num [abs_of_nonpos]⟩, fun n => ?_⟩, by decide +kernel⟩
  rcases le_or_gt n 1 with h | h
  · have : (n : Rat) ≤ 1 := by exact_mod_cast h
    rw [abs_of_nonneg (by linarith)]
    linarith
  · have : (2 : Rat) ≤ n := by exact_mod_cast h
    rw [abs_of_nonpos (by linarith)]
    linarith

end Xo.WaveFl
