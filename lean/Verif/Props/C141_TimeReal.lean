import Verif.Model.TimeReal
import Verif.Lemmas.Ieee
import Mathlib.Tactic.NormNum.Pow
import Mathlib.Tactic.Linarith

/-!
C141: times as floating-point numbers, with rounding.
-/
namespace Xo
namespace TimeReal
open Num (Fl Fmt binary32 binary64 rhe_close log2_le rndVal)
open Ieee
open Ieee.Spec (num OfType)

/-! ## Rounding -/

/-- Rounding moves a number by at most one half unit of its last place. -/
theorem rq_err {f : Fmt} {x : Rat} (hx : 2 ^ (f.emin + f.prec - 1) ≤ x) : |rq f x - x| ≤ x / 2 ^ f.prec := by
  have h0 : (0 : Rat) < x := lt_of_lt_of_le (zpow_pos (by norm_num) _) hx
  rw [rq_pos h0]
  have hl : f.emin + f.prec - 1 ≤ Int.log 2 x := by
    rw [← Int.zpow_le_iff_le_log (by norm_num) h0]; exact_mod_cast hx
  have hu : Num.ulpExp f x = Int.log 2 x - ((f.prec : Int) - 1) := max_eq_left (by omega)
  have he : (0 : Rat) < 2 ^ (Num.ulpExp f x) := zpow_pos (by norm_num) _
  have hc := rhe_close (x / 2 ^ (Num.ulpExp f x))
  have : rndVal f x - x = ((Num.rhe (x / 2 ^ (Num.ulpExp f x)) : Rat) - x / 2 ^ (Num.ulpExp f x)) * 2 ^ (Num.ulpExp f x) := by
    unfold rndVal; field_simp
  rw [this, abs_mul, abs_of_pos he]
  have h2 : (2 : Rat) ^ (Num.ulpExp f x) / 2 ≤ x / 2 ^ f.prec := by
    rw [hu, zpow_sub₀ (by norm_num), zpow_sub₀ (by norm_num), zpow_natCast, zpow_one]
    have := log2_le x h0
    have hp : (0 : Rat) < 2 ^ f.prec := by positivity
    rw [div_div_eq_mul_div, div_div, div_le_div_iff₀ (by positivity) hp]
    nlinarith [mul_le_mul_of_nonneg_right this hp.le]
  calc _ ≤ 1 / 2 * 2 ^ (Num.ulpExp f x) := mul_le_mul_of_nonneg_right hc he.le
    _ ≤ _ := by linarith

theorem ok64 : binary64.Ok := ⟨by decide, by decide⟩

/-- Numbers that are exact: whole multiples of a quarter. -/
theorem rq_quarter (k : Int) (h : |k| < 2 ^ 53) : rq binary64 ((k : Rat) / 4) = k / 4 := by
  have := rq_mul (f := binary64) (m := k) (e := -2) (by exact_mod_cast h) (by decide)
  have e : (k : Rat) * 2 ^ (-2 : Int) = k / 4 := by rw [zpow_neg]; norm_num [div_eq_mul_inv]
  rwa [e] at this

theorem rq_int (k : Int) (h : |k| < 2 ^ 53) : rq binary64 (k : Rat) = k := by
  have := rq_mul (f := binary64) (m := k) (e := 0) (by exact_mod_cast h) (by decide)
  rwa [zpow_zero, mul_one] at this

theorem rq_bound {x : Rat} (h : |x| ≤ 2 ^ 100) : |rq binary64 x| ≤ 2 ^ 100 := by
  have e : rq binary64 (2 ^ 100) = 2 ^ 100 := by
    have := rq_mul (f := binary64) (m := 1) (e := 100) (by decide) (by decide)
    rw [Int.cast_one, one_mul] at this
    exact_mod_cast this
  obtain ⟨h1, h2⟩ := abs_le.1 h
  rw [abs_le]
  have a := rq_mono ok64 h1
  have b := rq_mono ok64 h2
  rw [rq_neg, e] at a
  rw [e] at b
  exact ⟨a, b⟩

theorem round {z : Bool} {x : Rat} (h : |x| ≤ 2 ^ 100) :
    ∃ s m, ofRat binary64 z x = .fin s m ∧ val (.fin s m) = rq binary64 x ∧ OfType binary64 (.fin s m) := by
  have hb : |rq binary64 x| < 2 ^ binary64.emax :=
    lt_of_le_of_lt (rq_bound h) (by
      show (2 : Rat) ^ 100 < 2 ^ (1024 : Int)
      rw [← zpow_natCast]; exact zpow_lt_zpow_right₀ (by norm_num) (by norm_num))
  obtain ⟨s, m, e, hv⟩ := ofRat_finite (z := z) hb
  exact ⟨s, m, e, hv, by rw [← e]; exact ofRat_ofType ok64 _ _⟩

/-- A number of the format stays as it is. -/
theorem conv_same {s : Bool} {m : Rat} (h : OfType binary64 (.fin s m)) (hb : |val (.fin s m)| ≤ 2 ^ 100) :
    ∃ t k, conv binary64 (.fin s m) = .fin t k ∧ val (.fin t k) = val (.fin s m) ∧ OfType binary64 (.fin t k) := by
  obtain ⟨t, k, e, hv, ht⟩ := round (z := s) hb
  exact ⟨t, k, e, by rw [hv, rq_val h], ht⟩

/-- The number before it is cut to a whole one, as a real number. -/
def back (q k : Rat) (n : Int) : Rat := rq binary64 (rq binary64 (rq binary64 q * n) * k)

theorem to_unit {q : Rat} (hq0 : 0 < q) (hq1 : q ≤ 1) {n : Int} (hn : |n| ≤ 2 ^ 49) :
    ∃ s m, toUnit binary64 q n = .fin s m ∧ val (.fin s m) = rq binary64 (rq binary64 q * n) ∧ OfType binary64 (.fin s m) ∧
      |rq binary64 q * n| ≤ 2 ^ 49 := by
  have hq : |q| ≤ 2 ^ 100 := by rw [abs_of_pos hq0]; exact hq1.trans (by norm_num)
  have hn' : |(n : Rat)| ≤ 2 ^ 49 := by exact_mod_cast hn
  obtain ⟨s1, m1, e1, v1, -⟩ := round (z := false) hq
  obtain ⟨s2, m2, e2, v2, -⟩ := round (z := false) (hn'.trans (by norm_num) : |(n : Rat)| ≤ 2 ^ 100)
  rw [rq_int n (lt_of_le_of_lt hn (by norm_num))] at v2
  have hr : |rq binary64 q| ≤ 1 := by
    rw [abs_of_nonneg (rq_nonneg hq0.le)]
    have := rq_mono ok64 hq1
    have e := rq_int 1 (by norm_num)
    rw [Int.cast_one] at e
    rwa [e] at this
  have hp : |rq binary64 q * n| ≤ 2 ^ 49 := by
    rw [abs_mul]
    calc _ ≤ 1 * (2 : Rat) ^ 49 := mul_le_mul hr hn' (abs_nonneg _) (by norm_num)
      _ = _ := one_mul _
  obtain ⟨s3, m3, e3, v3, t3⟩ := round (z := s1 != s2) (hp.trans (by norm_num) : |rq binary64 q * n| ≤ 2 ^ 100)
  obtain ⟨s4, m4, e4, v4, t4⟩ := conv_same t3 (by rw [v3]; exact rq_bound (hp.trans (by norm_num)))
  refine ⟨s4, m4, ?_, by rw [v4, v3], t4, hp⟩
  have em : mul binary64 (.fin s1 m1) (.fin s2 m2) = ofRat binary64 (s1 != s2) (val (.fin s1 m1) * val (.fin s2 m2)) := rfl
  unfold toUnit ofInt
  rw [e1, e2, em, v1, v2, e3, e4]

theorem round_trip_val {q k : Rat} (hq0 : 0 < q) (hq1 : q ≤ 1) (hk0 : 0 < k) (hk1 : k ≤ 2 ^ 40) (hk : rq binary64 k = k) {n : Int}
    (hn : |n| ≤ 2 ^ 49) : ∃ s m, fromUnit k (toUnit binary64 q n) = toStorage (.fin s m) ∧
      val (.fin s m) = rq binary64 (back q k n + 1 / 2) := by
  obtain ⟨s1, m1, e1, v1, t1, b1⟩ := to_unit hq0 hq1 hn
  obtain ⟨s2, m2, e2, v2, t2⟩ := conv_same t1 (by rw [v1]; exact rq_bound (b1.trans (by norm_num)))
  have hk' : |k| ≤ 2 ^ 100 := by rw [abs_of_pos hk0]; exact hk1.trans (by norm_num)
  obtain ⟨s3, m3, e3, v3, -⟩ := round (z := false) hk'
  rw [hk] at v3
  have hb50 : |rq binary64 (rq binary64 q * n)| ≤ 2 ^ 49 := by
    have e : rq binary64 (2 ^ 49) = 2 ^ 49 := by
      have := rq_mul (f := binary64) (m := 1) (e := 49) (by decide) (by decide)
      rw [Int.cast_one, one_mul] at this
      exact_mod_cast this
    obtain ⟨h1, h2⟩ := abs_le.1 b1
    have a := rq_mono ok64 h1
    have b := rq_mono ok64 h2
    rw [rq_neg, e] at a
    rw [e] at b
    exact abs_le.2 ⟨a, b⟩
  have b4 : |rq binary64 (rq binary64 q * n) * k| ≤ 2 ^ 100 := by
    rw [abs_mul, abs_of_pos hk0]
    calc _ ≤ (2 : Rat) ^ 49 * 2 ^ 40 := mul_le_mul hb50 hk1 hk0.le (by norm_num)
      _ ≤ _ := by norm_num
  obtain ⟨s4, m4, e4, v4, -⟩ := round (z := s2 != s3) b4
  obtain ⟨s5, m5, e5, v5, -⟩ := round (z := false) (by norm_num : |(1 / 2 : Rat)| ≤ 2 ^ 100)
  have h5 : rq binary64 (1 / 2 : Rat) = 1 / 2 := by
    have := rq_quarter 2 (by norm_num)
    norm_num at this
    exact this
  rw [h5] at v5
  have b6 : |back q k n + 1 / 2| ≤ 2 ^ 100 := by
    have : |rq binary64 (rq binary64 q * n) * k| ≤ 2 ^ 89 := by
      rw [abs_mul, abs_of_pos hk0]
      calc _ ≤ (2 : Rat) ^ 49 * 2 ^ 40 := mul_le_mul hb50 hk1 hk0.le (by norm_num)
        _ ≤ _ := by norm_num
    have e : rq binary64 (2 ^ 89) = 2 ^ 89 := by
      have := rq_mul (f := binary64) (m := 1) (e := 89) (by decide) (by decide)
      rw [Int.cast_one, one_mul] at this
      exact_mod_cast this
    obtain ⟨h1, h2⟩ := abs_le.1 this
    have a := rq_mono ok64 h1
    have b := rq_mono ok64 h2
    rw [rq_neg, e] at a
    rw [e] at b
    have hab : |back q k n| ≤ 2 ^ 89 := abs_le.2 ⟨a, b⟩
    calc _ ≤ |back q k n| + |(1 / 2 : Rat)| := abs_add_le _ _
      _ ≤ 2 ^ 89 + 1 / 2 := by rw [abs_of_pos (by norm_num : (0 : Rat) < 1 / 2)]; linarith
      _ ≤ _ := by norm_num
  obtain ⟨s6, m6, e6, v6, -⟩ := round (z := s4 && s5) b6
  refine ⟨s6, m6, ?_, v6⟩
  have em : mul binary64 (.fin s2 m2) (.fin s3 m3) = ofRat binary64 (s2 != s3) (val (.fin s2 m2) * val (.fin s3 m3)) := rfl
  have ea : add binary64 (.fin s4 m4) (.fin s5 m5) = ofRat binary64 (s4 && s5) (val (.fin s4 m4) + val (.fin s5 m5)) := rfl
  unfold fromUnit
  rw [e1, e2, e3, em, v2, v1, v3, e4, e5, ea, v4, v5]
  show toStorage (ofRat binary64 (s4 && s5) (back q k n + 1 / 2)) = _
  rw [e6]

theorem back_neg (q k : Rat) (n : Int) : back q k (-n) = -back q k n := by
  unfold back
  rw [Int.cast_neg, mul_neg, rq_neg, neg_mul, rq_neg]

/-- There and back changes a time of up to 2^49 nanoseconds by at most a quarter of a nanosecond. -/
theorem back_close {q k : Rat} (hq0 : 1 / 2 ^ 40 ≤ q) (hq1 : q ≤ 1) (hqk : q * k = 1) {n : Int} (h1 : 1 ≤ n) (hn : n ≤ 2 ^ 49) :
    |back q k n - n| ≤ 1 / 4 := by
  have hqp : 0 < q := lt_of_lt_of_le (by norm_num) hq0
  have hkp : 0 < k := by
    rcases lt_trichotomy 0 k with h | h | h
    · exact h
    · rw [← h] at hqk; norm_num at hqk
    · nlinarith
  have hk1 : 1 ≤ k := by nlinarith
  have hn1 : (1 : Rat) ≤ n := by exact_mod_cast h1
  have hn2 : (n : Rat) ≤ 2 ^ 49 := by exact_mod_cast hn
  have tiny : (2 : Rat) ^ (binary64.emin + binary64.prec - 1) ≤ 1 / 2 ^ 50 := by
    show (2 : Rat) ^ (-1074 + 53 - 1 : Int) ≤ 1 / 2 ^ 50
    rw [one_div, ← zpow_natCast, ← zpow_neg]
    exact zpow_le_zpow_right₀ (by norm_num) (by norm_num)
  have ha := rq_err (f := binary64) (x := q) (tiny.trans (le_trans (by norm_num) hq0))
  unfold back
  generalize rq binary64 q = a at ha ⊢
  have hp : (2 : Rat) ^ binary64.prec = 2 ^ 53 := rfl
  rw [hp] at ha
  obtain ⟨ha1, ha2⟩ := abs_le.1 ha
  have ha0 : q / 2 ≤ a := by
    have : q / 2 ^ 53 ≤ q / 2 := div_le_div_of_nonneg_left hqp.le (by norm_num) (by norm_num)
    linarith
  have ha40 : 1 / 2 ^ 41 ≤ a := le_trans (by linarith [hq0, show (1 : Rat) / 2 ^ 41 = (1 / 2 ^ 40) / 2 by norm_num]) ha0
  have hap : 0 < a := lt_of_lt_of_le (by norm_num) ha40
  have han : 1 / 2 ^ 41 ≤ a * n := by nlinarith
  have hb := rq_err (f := binary64) (x := a * n) (tiny.trans (le_trans (by norm_num) han))
  rw [hp] at hb
  have hgen : ∀ b : Rat, |b - a * n| ≤ a * n / 2 ^ 53 → |rq binary64 (b * k) - n| ≤ 1 / 4 := by
    intro b hb
    obtain ⟨hb1, hb2⟩ := abs_le.1 hb
    have hb0 : 1 / 2 ^ 42 ≤ b := by
      have : a * n / 2 ^ 53 ≤ a * n / 2 := div_le_div_of_nonneg_left (by nlinarith) (by norm_num) (by norm_num)
      have : (1 : Rat) / 2 ^ 42 = (1 / 2 ^ 41) / 2 := by norm_num
      linarith
    have hbk : 1 / 2 ^ 42 ≤ b * k := by nlinarith
    have hc := rq_err (f := binary64) (x := b * k) (tiny.trans (le_trans (by norm_num) hbk))
    rw [hp] at hc
    obtain ⟨hc1, hc2⟩ := abs_le.1 hc
    -- the scaled numbers
    have u1 : a * k ≤ 1 + 1 / 2 ^ 53 := by
      have := mul_le_mul_of_nonneg_right ha2 hkp.le
      have e : q / 2 ^ 53 * k = 1 / 2 ^ 53 := by rw [div_mul_eq_mul_div, hqk]
      rw [e, sub_mul, hqk] at this
      linarith
    have u2 : 1 - 1 / 2 ^ 53 ≤ a * k := by
      have := mul_le_mul_of_nonneg_right ha1 hkp.le
      have e : -(q / 2 ^ 53) * k = -(1 / 2 ^ 53) := by rw [neg_mul, div_mul_eq_mul_div, hqk]
      rw [e, sub_mul, hqk] at this
      linarith
    have u3 : a * k * n ≤ n + 1 / 16 := by
      have := mul_le_mul_of_nonneg_right u1 (by linarith : (0 : Rat) ≤ n)
      nlinarith
    have u4 : n - 1 / 16 ≤ a * k * n := by
      have := mul_le_mul_of_nonneg_right u2 (by linarith : (0 : Rat) ≤ n)
      nlinarith
    have u5 : b * k ≤ a * k * n + a * k * n / 2 ^ 53 := by
      have := mul_le_mul_of_nonneg_right hb2 hkp.le
      have e : a * n / 2 ^ 53 * k = a * k * n / 2 ^ 53 := by ring
      rw [e, sub_mul] at this
      linarith [show a * n * k = a * k * n by ring]
    have u6 : a * k * n - a * k * n / 2 ^ 53 ≤ b * k := by
      have := mul_le_mul_of_nonneg_right hb1 hkp.le
      have e : -(a * n / 2 ^ 53) * k = -(a * k * n / 2 ^ 53) := by ring
      rw [e, sub_mul] at this
      linarith [show a * n * k = a * k * n by ring]
    rw [abs_le]
    norm_num at *
    constructor <;> linarith
  exact hgen _ hb

theorem storage {s : Bool} {m : Rat} {k : Int} (h : Time.trunc (val (.fin s m)) = k) (hk : Time.InRange k) :
    toStorage (.fin s m) = .ok k := by
  show Time.i64 _ = _
  rw [h]
  exact if_pos hk

theorem trunc_pos {x : Rat} {k : Int} (h0 : 0 ≤ k) (h1 : (k : Rat) ≤ x) (h2 : x < k + 1) : Time.trunc x = k := by
  have hk : (0 : Rat) ≤ k := by exact_mod_cast h0
  rw [Time.trunc, if_pos (hk.trans h1)]
  exact Int.floor_eq_iff.2 ⟨h1, h2⟩

theorem trunc_neg {x : Rat} {k : Int} (h0 : x < 0) (h1 : (k : Rat) - 1 < x) (h2 : x ≤ k) : Time.trunc x = k := by
  rw [Time.trunc, if_neg (not_le.2 h0)]
  have e : (-x).floor = ⌊-x⌋ := rfl
  have : ⌊-x⌋ = -k := Int.floor_eq_iff.2 ⟨by push_cast; linarith, by push_cast; linarith⟩
  rw [e, this, neg_neg]

/-- There and back for both units. -/
theorem there_and_back {q k : Rat} (hq0 : 1 / 2 ^ 40 ≤ q) (hq1 : q ≤ 1) (hk1 : k ≤ 2 ^ 40) (hk : rq binary64 k = k) (hqk : q * k = 1)
    {n : Int} (h0 : 0 ≤ n) (hn : n ≤ 2 ^ 49) :
    fromUnit k (toUnit binary64 q n) = .ok n ∧ (1 ≤ n → fromUnit k (toUnit binary64 q (-n)) = .ok (-n + 1)) := by
  have hqp : 0 < q := lt_of_lt_of_le (by norm_num) hq0
  have hkp : 0 < k := by
    rcases lt_trichotomy 0 k with h | h | h
    · exact h
    · rw [← h] at hqk; norm_num at hqk
    · nlinarith
  have habs : |n| ≤ 2 ^ 49 := by rw [abs_of_nonneg h0]; exact hn
  have hclose : |back q k n - n| ≤ 1 / 4 := by
    by_cases h1 : 1 ≤ n
    · exact back_close hq0 hq1 hqk h1 hn
    · have : n = 0 := by omega
      subst this
      norm_num [back, rq_zero]
  obtain ⟨c1, c2⟩ := abs_le.1 hclose
  have q1 := rq_quarter (4 * n + 1) (by rw [abs_of_nonneg (by omega)]; omega)
  have q3 := rq_quarter (4 * n + 3) (by rw [abs_of_nonneg (by omega)]; omega)
  have q1' := rq_quarter (-4 * n + 1) (by rw [abs_lt]; omega)
  have q3' := rq_quarter (-4 * n + 3) (by rw [abs_lt]; omega)
  push_cast at q1 q3 q1' q3'
  constructor
  · obtain ⟨s, m, e, v⟩ := round_trip_val hqp hq1 hkp hk1 hk habs
    rw [e]
    have lo := rq_mono ok64 (show ((4 * n + 1) / 4 : Rat) ≤ back q k n + 1 / 2 by linarith)
    have hi := rq_mono ok64 (show back q k n + 1 / 2 ≤ ((4 * n + 3) / 4 : Rat) by linarith)
    rw [q1] at lo
    rw [q3] at hi
    refine storage (trunc_pos h0 ?_ ?_) ⟨by omega, by omega⟩
    · rw [v]; linarith
    · rw [v]; linarith
  · intro h1
    obtain ⟨s, m, e, v⟩ := round_trip_val hqp hq1 hkp hk1 hk (n := -n) (by rw [abs_neg]; exact habs)
    rw [e]
    rw [back_neg] at v
    have lo := rq_mono ok64 (show ((-4 * n + 1) / 4 : Rat) ≤ -back q k n + 1 / 2 by linarith)
    have hi := rq_mono ok64 (show -back q k n + 1 / 2 ≤ ((-4 * n + 3) / 4 : Rat) by linarith)
    rw [q1'] at lo
    rw [q3'] at hi
    have hn1 : (1 : Rat) ≤ n := by exact_mod_cast h1
    refine storage (trunc_neg ?_ ?_ ?_) ⟨by omega, by omega⟩
    · rw [v]; linarith
    · rw [v]; push_cast; linarith
    · rw [v]; push_cast; linarith

theorem exact9 : rq binary64 1000000000 = 1000000000 := by
  have := rq_int 1000000000 (by norm_num)
  exact_mod_cast this

theorem exact6 : rq binary64 1000000 = 1000000 := by
  have := rq_int 1000000 (by norm_num)
  exact_mod_cast this

theorem half_exact : rq binary64 (1 / 2 : Rat) = 1 / 2 := by
  have := rq_quarter 2 (by norm_num)
  norm_num at this
  exact this

/-- The way of nanoseconds that are exact in the type. -/
theorem nano_val {n : Int} (hn : |n| < 2 ^ 53) :
    ∃ s m, fromNanoseconds (nanosecondsd n) = toStorage (.fin s m) ∧ val (.fin s m) = rq binary64 (n + 1 / 2) := by
  have hn' : |(n : Rat)| ≤ 2 ^ 53 := by exact_mod_cast hn.le
  obtain ⟨s1, m1, e1, v1, t1⟩ := round (z := false) (hn'.trans (by norm_num) : |(n : Rat)| ≤ 2 ^ 100)
  rw [rq_int n hn] at v1
  obtain ⟨s2, m2, e2, v2, -⟩ := conv_same t1 (by rw [v1]; exact hn'.trans (by norm_num))
  obtain ⟨s5, m5, e5, v5, -⟩ := round (z := false) (by norm_num : |(1 / 2 : Rat)| ≤ 2 ^ 100)
  rw [half_exact] at v5
  have b6 : |(n : Rat) + 1 / 2| ≤ 2 ^ 100 := by
    calc _ ≤ |(n : Rat)| + |(1 / 2 : Rat)| := abs_add_le _ _
      _ ≤ 2 ^ 53 + 1 / 2 := by rw [abs_of_pos (by norm_num : (0 : Rat) < 1 / 2)]; linarith
      _ ≤ _ := by norm_num
  obtain ⟨s6, m6, e6, v6, -⟩ := round (z := s2 && s5) b6
  refine ⟨s6, m6, ?_, v6⟩
  have ea : add binary64 (.fin s2 m2) (.fin s5 m5) = ofRat binary64 (s2 && s5) (val (.fin s2 m2) + val (.fin s5 m5)) := rfl
  unfold fromNanoseconds nanosecondsd ofInt
  rw [e1, e2, e5, ea, v2, v1, v5, e6]

/-- **C141, there and back (partial).** A time of up to 2^49 nanoseconds (six and a half days) as a number of seconds or milliseconds of type
`double` gives the same time again; up to 2^52 - 1 nanoseconds (52 days) for the number of nanoseconds.
Missing: longer and negative times, and `float`; see `C141_long_violated`, `C141_negative_violated` and `C141_float_violated`. -/
theorem C141_round_trip_partial {n : Int} (h0 : 0 ≤ n) :
    (n ≤ 2 ^ 49 → fromSeconds (seconds binary64 n) = .ok n ∧ fromMilliseconds (milliseconds binary64 n) = .ok n) ∧
    (n < 2 ^ 52 → fromNanoseconds (nanosecondsd n) = .ok n) := by
  refine ⟨fun hn => ⟨(there_and_back (by norm_num) (by norm_num) (by norm_num) exact9 (by norm_num) h0 hn).1,
    (there_and_back (by norm_num) (by norm_num) (by norm_num) exact6 (by norm_num) h0 hn).1⟩, fun hn => ?_⟩
  obtain ⟨s, m, e, v⟩ := nano_val (n := n) (by rw [abs_of_nonneg h0]; omega)
  have h := rq_mul (f := binary64) (m := 2 * n + 1) (e := -1) (by
    rw [abs_of_nonneg (by omega)]; show 2 * n + 1 < 2 ^ 53; omega) (by decide)
  have e1 : ((2 * n + 1 : Int) : Rat) * 2 ^ (-1 : Int) = n + 1 / 2 := by rw [zpow_neg]; push_cast; norm_num; ring
  rw [e1] at h
  rw [h] at v
  rw [e]
  exact storage (trunc_pos h0 (by rw [v]; linarith) (by rw [v]; linarith)) ⟨by omega, by omega⟩

example : fromSeconds (seconds binary64 1234567891) = .ok 1234567891 := (C141_round_trip_partial (by norm_num)).1 (by norm_num) |>.1

/-- **C141, negative times, violated.** Every negative time of up to 2^49 nanoseconds comes back one nanosecond later. -/
theorem C141_negative_violated {n : Int} (h0 : n < 0) (hn : -2 ^ 49 ≤ n) :
    fromSeconds (seconds binary64 n) = .ok (n + 1) ∧ fromMilliseconds (milliseconds binary64 n) = .ok (n + 1) := by
  have h9 := (there_and_back (by norm_num) (by norm_num) (by norm_num) exact9 (by norm_num : (1 / 1000000000 : Rat) * _ = 1)
    (n := -n) (by omega) (by omega)).2 (by omega)
  have h6 := (there_and_back (by norm_num) (by norm_num) (by norm_num) exact6 (by norm_num : (1 / 1000000 : Rat) * _ = 1)
    (n := -n) (by omega) (by omega)).2 (by omega)
  rw [neg_neg] at h9 h6
  exact ⟨h9, h6⟩

/-- **C141, long times, violated.** Every odd number of nanoseconds from 2^52 to 2^53 comes back one larger, although it is exact as a `double`;
by way of seconds and milliseconds this happens as well. -/
theorem C141_long_violated :
    (∀ n : Int, 2 ^ 52 ≤ n → n < 2 ^ 53 → n % 2 = 1 → fromNanoseconds (nanosecondsd n) = .ok (n + 1)) ∧
    fromSeconds (seconds binary64 2251799813685252) = .ok 2251799813685253 ∧
    fromMilliseconds (milliseconds binary64 4503599627370497) = .ok 4503599627370498 := by
  refine ⟨fun n h1 h2 h3 => ?_, by decide +kernel, by decide +kernel⟩
  obtain ⟨s, m, e, v⟩ := nano_val (n := n) (by rw [abs_of_nonneg (by omega)]; exact h2)
  have h1' : (2 : Rat) ^ 52 ≤ n := by exact_mod_cast h1
  have h2' : (n : Rat) + 1 ≤ 2 ^ 53 := by exact_mod_cast h2
  have hp : (0 : Rat) < n + 1 / 2 := by linarith [show (0 : Rat) < 2 ^ 52 by norm_num]
  have hl : Int.log 2 ((n : Rat) + 1 / 2) = 52 := by
    refine le_antisymm ?_ ?_
    · rw [← Int.lt_add_one_iff, ← Int.lt_zpow_iff_log_lt (by norm_num) hp]
      have : ((2 : Nat) : Rat) ^ ((52 : Int) + 1) = 2 ^ 53 := by norm_num
      rw [this]; linarith
    · rw [← Int.zpow_le_iff_le_log (by norm_num) hp]
      have : ((2 : Nat) : Rat) ^ (52 : Int) = 2 ^ 52 := by norm_num
      rw [this]; linarith
  have hr : rq binary64 (n + 1 / 2) = n + 1 := by
    rw [rq_pos hp]
    unfold rndVal Num.ulpExp
    rw [hl]
    have : max ((52 : Int) - ((binary64.prec : Int) - 1)) binary64.emin = 0 := by decide
    rw [this, zpow_zero, div_one, mul_one]
    have hf : ⌊(n : Rat) + 1 / 2⌋ = n := Int.floor_eq_iff.2 ⟨by linarith, by linarith⟩
    unfold Num.rhe
    rw [hf, if_neg (by linarith), if_neg (by linarith), if_neg (by omega)]
    push_cast; rfl
  rw [hr] at v
  rw [e]
  exact storage (trunc_pos (by omega) (by rw [v]; push_cast; linarith) (by rw [v]; push_cast; linarith)) ⟨by omega, by omega⟩

/-- **C141, `float`, violated.** As a number of seconds of type `float`, 15 milliseconds and 625001 nanoseconds come back as another time. -/
theorem C141_float_violated : fromSeconds (seconds binary32 15625001) = .ok 15625002 := by decide +kernel

/-! ## Order and accuracy -/

theorem unit_val {q : Rat} (hq0 : 0 < q) (hq1 : q ≤ 1) {n : Int} (hn : Time.InRange n) : ∃ s m,
    mul binary64 (ofRat binary64 false q) (ofInt binary64 n) = .fin s m ∧ val (.fin s m) = rq binary64 (rq binary64 q * rq binary64 n) := by
  have hn' : |(n : Rat)| ≤ 2 ^ 63 := by
    have h1 : (-2 ^ 63 : Rat) ≤ n := by exact_mod_cast hn.1
    have h2 : (n : Rat) ≤ 2 ^ 63 := by exact_mod_cast hn.2.le
    exact abs_le.2 ⟨h1, h2⟩
  obtain ⟨s1, m1, e1, v1, -⟩ := round (z := false) (show |q| ≤ 2 ^ 100 by rw [abs_of_pos hq0]; exact hq1.trans (by norm_num))
  obtain ⟨s2, m2, e2, v2, -⟩ := round (z := false) (hn'.trans (by norm_num) : |(n : Rat)| ≤ 2 ^ 100)
  have hr : |rq binary64 q| ≤ 1 := by
    rw [abs_of_nonneg (rq_nonneg hq0.le)]
    have := rq_mono ok64 hq1
    have e := rq_int 1 (by norm_num)
    rw [Int.cast_one] at e
    rwa [e] at this
  have hp : |rq binary64 q * rq binary64 n| ≤ 2 ^ 100 := by
    rw [abs_mul]
    calc _ ≤ 1 * (2 : Rat) ^ 100 := mul_le_mul hr (rq_bound (hn'.trans (by norm_num))) (abs_nonneg _) (by norm_num)
      _ = _ := one_mul _
  obtain ⟨s3, m3, e3, v3, -⟩ := round (z := s1 != s2) hp
  refine ⟨s3, m3, ?_, v3⟩
  have em : mul binary64 (.fin s1 m1) (.fin s2 m2) = ofRat binary64 (s1 != s2) (val (.fin s1 m1) * val (.fin s2 m2)) := rfl
  unfold ofInt
  rw [e1, e2, em, v1, v2, e3]

theorem unit_mono {f : Fmt} (hf : f.Ok) {q : Rat} (hq0 : 0 < q) (hq1 : q ≤ 1) {a b : Int} (ha : Time.InRange a) (hb : Time.InRange b)
    (h : a ≤ b) : num (toUnit f q a) ≤ num (toUnit f q b) := by
  obtain ⟨s1, m1, e1, v1⟩ := unit_val hq0 hq1 ha
  obtain ⟨s2, m2, e2, v2⟩ := unit_val hq0 hq1 hb
  unfold toUnit
  rw [e1, e2]
  show num (ofRat f s1 (val (.fin s1 m1))) ≤ num (ofRat f s2 (val (.fin s2 m2)))
  rw [num_ofRat, num_ofRat, v1, v2]
  have hab : (a : Rat) ≤ b := by exact_mod_cast h
  exact R_mono hf (rq_mono ok64 (mul_le_mul_of_nonneg_left (rq_mono ok64 hab) (rq_nonneg hq0.le)))

/-- What a conversion to a time computes. -/
theorem from_ok {k : Rat} (hk0 : 0 < k) (hk1 : k ≤ 2 ^ 40) (hk : rq binary64 k = k) {s : Bool} {m : Rat} (ht : OfType binary64 (.fin s m)) :
    fromUnit k (.fin s m) = .ub ∨
    fromUnit k (.fin s m) = Time.i64 (Time.trunc (rq binary64 (rq binary64 (val (.fin s m) * k) + 1 / 2))) := by
  obtain ⟨s1, m1, e1, v1⟩ := ofRat_finite (z := s) (x := val (.fin s m)) (f := binary64) (by rw [rq_val ht]; exact val_lt ht)
  rw [rq_val ht] at v1
  obtain ⟨s3, m3, e3, v3, -⟩ := round (z := false) (show |k| ≤ 2 ^ 100 by rw [abs_of_pos hk0]; exact hk1.trans (by norm_num))
  rw [hk] at v3
  obtain ⟨s5, m5, e5, v5, -⟩ := round (z := false) (by norm_num : |(1 / 2 : Rat)| ≤ 2 ^ 100)
  rw [half_exact] at v5
  have ec : conv binary64 (.fin s m) = ofRat binary64 s (val (.fin s m)) := rfl
  have em : mul binary64 (.fin s1 m1) (.fin s3 m3) = ofRat binary64 (s1 != s3) (val (.fin s1 m1) * val (.fin s3 m3)) := rfl
  unfold fromUnit
  rw [ec, e1, e3, e5, em, v1, v3]
  rcases ofRat_cases (f := binary64) (s1 != s3) (val (.fin s m) * k) with h | h | ⟨-, s4, m4, e4, v4⟩
  · rw [h.2]; exact Or.inl rfl
  · rw [h.2]; exact Or.inl rfl
  · rw [e4]
    have ea : add binary64 (.fin s4 m4) (.fin s5 m5) = ofRat binary64 (s4 && s5) (val (.fin s4 m4) + val (.fin s5 m5)) := rfl
    rw [ea, v4, v5]
    rcases ofRat_cases (f := binary64) (s4 && s5) (rq binary64 (val (.fin s m) * k) + 1 / 2) with h | h | ⟨-, s6, m6, e6, v6⟩
    · rw [h.2]; exact Or.inl rfl
    · rw [h.2]; exact Or.inl rfl
    · rw [e6]
      right
      show Time.i64 (Time.trunc (val (.fin s6 m6))) = _
      rw [v6]

theorem trunc_mono {x y : Rat} (h : x ≤ y) : Time.trunc x ≤ Time.trunc y := by
  have e : ∀ z : Rat, z.floor = ⌊z⌋ := fun _ => rfl
  unfold Time.trunc
  simp only [e]
  by_cases hx : 0 ≤ x
  · rw [if_pos hx, if_pos (hx.trans h)]; exact Int.floor_mono h
  · rw [if_neg hx]
    by_cases hy : 0 ≤ y
    · rw [if_pos hy]
      have h1 : 0 ≤ ⌊-x⌋ := Int.floor_nonneg.2 (by linarith)
      have h2 : 0 ≤ ⌊y⌋ := Int.floor_nonneg.2 hy
      omega
    · rw [if_neg hy]
      have := Int.floor_mono (show -y ≤ -x by linarith)
      omega

/-- **C141, order.** A later time is not a smaller number of seconds or milliseconds, in `float` and in `double`, for all times. -/
theorem C141_order {f : Fmt} (hf : f.Ok) {a b : Int} (ha : Time.InRange a) (hb : Time.InRange b) (h : a ≤ b) :
    num (seconds f a) ≤ num (seconds f b) ∧ num (milliseconds f a) ≤ num (milliseconds f b) :=
  ⟨unit_mono hf (by norm_num) (by norm_num) ha hb h, unit_mono hf (by norm_num) (by norm_num) ha hb h⟩

theorem from_mono {k : Rat} (hk0 : 0 < k) (hk1 : k ≤ 2 ^ 40) (hk : rq binary64 k = k) {x y : Fl} (hx : OfType binary64 x)
    (hy : OfType binary64 y) (hxf : Ieee.Spec.Finite x) (hyf : Ieee.Spec.Finite y) (h : num x ≤ num y) {a b : Int}
    (ea : fromUnit k x = .ok a) (eb : fromUnit k y = .ok b) : a ≤ b := by
  rcases x with _ | _ | ⟨s, m⟩
  · exact absurd hxf id
  · exact absurd hxf id
  rcases y with _ | _ | ⟨t, l⟩
  · exact absurd hyf id
  · exact absurd hyf id
  rw [num_fin, num_fin] at h
  have hv : val (.fin s m) ≤ val (.fin t l) := by exact_mod_cast h
  rcases from_ok hk0 hk1 hk hx with e | e
  · rw [ea] at e; exact absurd e (by simp)
  rcases from_ok hk0 hk1 hk hy with e' | e'
  · rw [eb] at e'; exact absurd e' (by simp)
  rw [ea] at e
  rw [eb] at e'
  unfold Time.i64 at e e'
  split at e
  · split at e'
    · injection e with e
      injection e' with e'
      rw [e, e']
      refine trunc_mono (rq_mono ok64 ?_)
      have := rq_mono ok64 (mul_le_mul_of_nonneg_right hv hk0.le)
      linarith
    · exact absurd e' (by simp)
  · exact absurd e (by simp)

/-- **C141, order of conversions.** A larger number of seconds or milliseconds does not give an earlier time. -/
theorem C141_from_order {x y : Fl} (hx : OfType binary64 x) (hy : OfType binary64 y) (hxf : Ieee.Spec.Finite x) (hyf : Ieee.Spec.Finite y)
    (h : num x ≤ num y) (a b : Int) :
    (fromSeconds x = .ok a → fromSeconds y = .ok b → a ≤ b) ∧ (fromMilliseconds x = .ok a → fromMilliseconds y = .ok b → a ≤ b) :=
  ⟨from_mono (by norm_num) (by norm_num) exact9 hx hy hxf hyf h, from_mono (by norm_num) (by norm_num) exact6 hx hy hxf hyf h⟩

/-- **C141, numbers that are not times.** A number of seconds beyond the range of a time (292 years), an infinite one and NaN have no defined
time. -/
theorem C141_undefined {x : Fl} (hx : OfType binary64 x) (h : ∀ s m, x = .fin s m → 9223372037 ≤ |val (.fin s m)|) :
    fromSeconds x = .ub := by
  rcases x with _ | _ | ⟨s, m⟩
  · rfl
  · next s => cases s <;> decide +kernel
  have hv := h s m rfl
  rcases from_ok (by norm_num) (by norm_num) exact9 hx with e | e
  · exact e
  unfold fromSeconds
  rw [e]
  refine if_neg fun hr => ?_
  have e63 : rq binary64 (2 ^ 63) = 2 ^ 63 := by
    have := rq_mul (f := binary64) (m := 1) (e := 63) (by decide) (by decide)
    rw [Int.cast_one, one_mul] at this
    exact_mod_cast this
  have big : ∀ w : Rat, 9223372037 ≤ w → 2 ^ 63 + 4096 ≤ rq binary64 (w * 1000000000) := by
    intro w hw
    have e1 : rq binary64 (2 ^ 63 + 4096) = 2 ^ 63 + 4096 := by
      have := rq_mul (f := binary64) (m := 2 ^ 52 + 2) (e := 11) (by decide) (by decide)
      have e : ((2 ^ 52 + 2 : Int) : Rat) * 2 ^ (11 : Int) = 2 ^ 63 + 4096 := by norm_num
      rwa [e] at this
    rw [← e1]
    exact rq_mono ok64 (by norm_num; linarith)
  rcases le_abs.1 hv with hp | hp
  · have h1 := big _ hp
    have h2 := rq_mono ok64 (show (2 ^ 63 : Rat) ≤ rq binary64 (val (.fin s m) * 1000000000) + 1 / 2 by linarith)
    rw [e63] at h2
    have h3 := trunc_mono h2
    have h4 : Time.trunc (2 ^ 63) = 2 ^ 63 := trunc_pos (by norm_num) (by norm_num) (by norm_num)
    rw [h4] at h3
    have := hr.2
    omega
  · have h1 := big _ hp
    rw [neg_mul, rq_neg] at h1
    have h2 := rq_mono ok64 (show rq binary64 (val (.fin s m) * 1000000000) + 1 / 2 ≤ -(2 ^ 63 + 2048 : Rat) by linarith)
    have e1 : rq binary64 (2 ^ 63 + 2048) = 2 ^ 63 + 2048 := by
      have := rq_mul (f := binary64) (m := 2 ^ 52 + 1) (e := 11) (by decide) (by decide)
      have e : ((2 ^ 52 + 1 : Int) : Rat) * 2 ^ (11 : Int) = 2 ^ 63 + 2048 := by norm_num
      rwa [e] at this
    rw [rq_neg, e1] at h2
    have h3 := trunc_mono h2
    have h4 : Time.trunc (-(2 ^ 63 + 2048)) = -(2 ^ 63 + 2048) := by
      have := trunc_neg (x := -(2 ^ 63 + 2048)) (k := -(2 ^ 63 + 2048)) (by norm_num) (by norm_num) (by norm_num)
      exact this
    rw [h4] at h3
    have := hr.1
    omega

theorem close_pos {q x : Rat} (hq : 1 / 2 ^ 40 ≤ q) (hx : 1 ≤ x) :
    |rq binary64 (rq binary64 q * rq binary64 x) - q * x| ≤ q * x / 2 ^ 51 := by
  have hqp : 0 < q := lt_of_lt_of_le (by norm_num) hq
  have tiny : (2 : Rat) ^ (binary64.emin + binary64.prec - 1) ≤ 1 / 2 ^ 50 := by
    show (2 : Rat) ^ (-1074 + 53 - 1 : Int) ≤ 1 / 2 ^ 50
    rw [one_div, ← zpow_natCast, ← zpow_neg]
    exact zpow_le_zpow_right₀ (by norm_num) (by norm_num)
  have hp : (2 : Rat) ^ binary64.prec = 2 ^ 53 := rfl
  have ha := rq_err (f := binary64) (x := q) (tiny.trans (le_trans (by norm_num) hq))
  have hN := rq_err (f := binary64) (x := x) (tiny.trans (le_trans (by norm_num) hx))
  rw [hp] at ha hN
  generalize rq binary64 q = a at *
  generalize rq binary64 x = N at *
  obtain ⟨a1, a2⟩ := abs_le.1 ha
  obtain ⟨n1, n2⟩ := abs_le.1 hN
  have hP : 0 < q * x := mul_pos hqp (by linarith)
  have up : a * N ≤ (q * (1 + 1 / 2 ^ 53)) * (x * (1 + 1 / 2 ^ 53)) :=
    mul_le_mul (by linarith) (by linarith) (by linarith [show x / 2 ^ 53 ≤ x by linarith [div_le_self (by linarith : (0 : Rat) ≤ x) (by norm_num : (1 : Rat) ≤ 2 ^ 53)]])
      (by positivity)
  have lo : (q * (1 - 1 / 2 ^ 53)) * (x * (1 - 1 / 2 ^ 53)) ≤ a * N :=
    mul_le_mul (by linarith) (by linarith) (mul_nonneg (by linarith) (by norm_num))
      (by linarith [div_le_self hqp.le (by norm_num : (1 : Rat) ≤ 2 ^ 53)])
  have e1 : (q * (1 + 1 / 2 ^ 53)) * (x * (1 + 1 / 2 ^ 53)) = q * x * (1 + 1 / 2 ^ 53) ^ 2 := by ring
  have e2 : (q * (1 - 1 / 2 ^ 53)) * (x * (1 - 1 / 2 ^ 53)) = q * x * (1 - 1 / 2 ^ 53) ^ 2 := by ring
  rw [e1] at up
  rw [e2] at lo
  have hq1 : 1 / 2 ^ 40 ≤ q * x := by nlinarith
  generalize q * x = P at *
  have hbig : 1 / 2 ^ 41 ≤ a * N := by
    refine le_trans ?_ lo
    nlinarith
  have hb := rq_err (f := binary64) (x := a * N) (tiny.trans (le_trans (by norm_num) hbig))
  rw [hp] at hb
  obtain ⟨b1, b2⟩ := abs_le.1 hb
  rw [abs_le]
  norm_num at *
  constructor <;> linarith

/-- **C141, accuracy.** The number of seconds or milliseconds is exact up to one part in 2^51, for every time. -/
theorem C141_accuracy {n : Int} (hn : Time.InRange n) :
    (∃ s m, seconds binary64 n = .fin s m ∧ |val (.fin s m) - n / 1000000000| ≤ |(n : Rat)| / 1000000000 / 2 ^ 51) ∧
    ∃ s m, milliseconds binary64 n = .fin s m ∧ |val (.fin s m) - n / 1000000| ≤ |(n : Rat)| / 1000000 / 2 ^ 51 := by
  have main : ∀ q : Rat, 1 / 2 ^ 40 ≤ q → q ≤ 1 → ∃ s m, toUnit binary64 q n = .fin s m ∧
      |val (.fin s m) - q * n| ≤ q * |(n : Rat)| / 2 ^ 51 := by
    intro q hq hq1
    have hqp : 0 < q := lt_of_lt_of_le (by norm_num) hq
    obtain ⟨s, m, e, v⟩ := unit_val hqp hq1 hn
    have ht : OfType binary64 (.fin s m) := by rw [← e]; exact mul_ofType ok64 _ _
    obtain ⟨s1, m1, e1, v1⟩ := ofRat_finite (z := s) (x := val (.fin s m)) (f := binary64) (by rw [rq_val ht]; exact val_lt ht)
    rw [rq_val ht] at v1
    refine ⟨s1, m1, ?_, ?_⟩
    · unfold toUnit; rw [e]; exact e1
    · rw [v1, v]
      rcases lt_trichotomy n 0 with h | h | h
      · have h1 : (1 : Rat) ≤ -n := by exact_mod_cast (by omega : 1 ≤ -n)
        have := close_pos hq h1
        rw [rq_neg, mul_neg, rq_neg, mul_neg, ← neg_sub_neg, neg_neg, neg_neg, abs_sub_comm] at this
        rw [abs_of_neg (show (n : Rat) < 0 by exact_mod_cast h), mul_neg]
        exact this
      · subst h; simp [rq_zero]
      · have h1 : (1 : Rat) ≤ n := by exact_mod_cast h
        rw [abs_of_nonneg (show (0 : Rat) ≤ n by linarith)]
        exact close_pos hq h1
  have m9 := main (1 / 1000000000) (by norm_num) (by norm_num)
  have m6 := main (1 / 1000000) (by norm_num) (by norm_num)
  simp only [one_div_mul_eq_div] at m9 m6
  exact ⟨m9, m6⟩

/-- **C141, scaling by one (partial).** A time of fewer bits than the type has stays the same when it is multiplied with one or divided by one.
Missing: longer times, see `C141_scale_violated`. -/
theorem C141_scale_partial {f : Fmt} (hf : f.Ok) (hmin : f.emin ≤ 0) (hmax : (f.prec : Int) ≤ f.emax) {n : Int} (h : |n| < 2 ^ f.prec)
    (hr : Time.InRange n) : times f n (.fin false 1) = .ok n ∧ over f n (.fin false 1) = .ok n := by
  have hq : rq f (n : Rat) = n := by
    have := rq_mul (f := f) (m := n) (e := 0) (by exact_mod_cast h) hmin
    rwa [zpow_zero, mul_one] at this
  have hb : |rq f (n : Rat)| < 2 ^ f.emax := by
    rw [hq]
    calc |(n : Rat)| < 2 ^ f.prec := by exact_mod_cast h
      _ = 2 ^ (f.prec : Int) := by rw [zpow_natCast]
      _ ≤ _ := zpow_le_zpow_right₀ (by norm_num) hmax
  obtain ⟨s, m, e, v⟩ := ofRat_finite (z := false) hb
  rw [hq] at v
  have ht : Time.trunc (n : Rat) = n := by
    by_cases h0 : 0 ≤ n
    · exact trunc_pos h0 (le_refl _) (by linarith)
    · exact trunc_neg (by exact_mod_cast (by omega : n < 0)) (by linarith) (le_refl _)
  obtain ⟨s2, m2, e2, v2⟩ := ofRat_finite (z := s != false) (x := (n : Rat)) hb
  rw [hq] at v2
  constructor
  · unfold times ofInt
    rw [e]
    show toStorage (ofRat f (s != false) (val (.fin s m) * 1)) = _
    rw [v, mul_one, e2]
    exact storage (by rw [v2]; exact ht) hr
  · unfold over ofInt
    rw [e]
    have ed : div f (.fin s m) (.fin false 1) = ofRat f (s != false) (val (.fin s m) / 1) := by
      have e1 : val (.fin false 1) = 1 := rfl
      simp only [div, e1]
      exact if_neg one_ne_zero
    rw [ed, v, div_one, e2]
    exact storage (by rw [v2]; exact ht) hr

/-- **C141, scaling by one, violated.** Multiplied with `1.0f`, a time of 16.8 milliseconds changes; multiplied with `1.0`, one of 104 days; and
the longest time has no defined product with one. -/
theorem C141_scale_violated : times binary32 16777217 (.fin false 1) = .ok 16777216 ∧
    times binary64 9007199254740993 (.fin false 1) = .ok 9007199254740992 ∧ times binary64 (2 ^ 63 - 1) (.fin false 1) = .ub := by
  refine ⟨?_, ?_, ?_⟩ <;> decide +kernel

end TimeReal
end Xo
