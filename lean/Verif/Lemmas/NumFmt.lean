import Verif.Lemmas.NumRead
import Verif.Spec.Num

/-! Rounding to six decimal digits and to a binary format: nearest numbers, range, exact cases. -/
namespace Xo
namespace Num
open Spec

theorem ten_lt_iff {a b : Int} : (10 : Rat) ^ a < 10 ^ b ↔ a < b := zpow_lt_zpow_iff_right₀ (by norm_num)
theorem two_lt_iff {a b : Int} : (2 : Rat) ^ a < 2 ^ b ↔ a < b := zpow_lt_zpow_iff_right₀ (by norm_num)

theorem ten_split {a b : Int} (h : b ≤ a) : (10 : Rat) ^ a = ((10 ^ (a - b).toNat : Int) : Rat) * 10 ^ b := by
  have := ten_add b (a - b).toNat
  rw [show b + (((a - b).toNat : Nat) : Int) = a by omega] at this
  rw [this]; push_cast; ring

theorem two_split {a b : Int} (h : b ≤ a) : (2 : Rat) ^ a = ((2 ^ (a - b).toNat : Int) : Rat) * 2 ^ b := by
  have := two_add b (a - b).toNat
  rw [show b + (((a - b).toNat : Nat) : Int) = a by omega] at this
  rw [this]; push_cast; ring

theorem rhe_mul_nearest (x u : Rat) (hu : 0 < u) (n : Int) : |(rhe (x / u) : Rat) * u - x| ≤ |(n : Rat) * u - x| := by
  have h := rhe_nearest (x / u) n
  have e : ∀ m : Rat, m * u - x = (m - x / u) * u := by intro m; field_simp
  rw [e, e, abs_mul, abs_mul, abs_of_pos hu]
  exact mul_le_mul_of_nonneg_right h hu.le

/-- The number written is a decimal of six digits. -/
theorem roundG_decimal {x : Rat} (hx : 0 ≤ x) : Decimal 6 (roundG x) := by
  rcases eq_or_lt_of_le hx with rfl | hx
  · exact ⟨0, 0, by norm_num, by simp [roundG]⟩
  · obtain ⟨h1, h2, _⟩ := sci_cases x hx
    refine ⟨(sci x).1, (sci x).2 - 5, ?_, ?_⟩
    · rw [abs_lt]; constructor <;> omega
    · unfold roundG; rw [if_neg hx.ne']

/-- No decimal of six digits is nearer. -/
theorem roundG_nearest {x d : Rat} (hx : 0 ≤ x) (hd : Decimal 6 d) : |roundG x - x| ≤ |d - x| := by
  rcases eq_or_lt_of_le hx with rfl | hx
  · simp [roundG]
  obtain ⟨m, k, hm, rfl⟩ := hd
  rw [roundG_eq hx]
  have hu := ten_pos (Int.log 10 x - 5)
  have h1 := log10_le x hx
  have e1 := ten_split (a := Int.log 10 x) (b := Int.log 10 x - 5) (by omega)
  by_cases hc : (m : Rat) * 10 ^ k < 10 ^ Int.log 10 x
  · refine le_trans (rhe_mul_nearest x _ hu (10 ^ (Int.log 10 x - (Int.log 10 x - 5)).toNat)) ?_
    rw [← e1, abs_of_nonpos (by linarith), abs_of_neg (by linarith)]
    linarith
  · rw [not_lt] at hc
    have hk : Int.log 10 x - 5 ≤ k := by
      have hmr : (m : Rat) < 10 ^ (6 : Int) := by
        have := (abs_lt.1 hm).2
        exact_mod_cast this
      have h2 : (10 : Rat) ^ Int.log 10 x < 10 ^ (6 + k) := by
        rw [zpow_add₀ (by norm_num)]
        exact lt_of_le_of_lt hc (mul_lt_mul_of_pos_right hmr (ten_pos k))
      have := ten_lt_iff.1 h2
      omega
    rw [ten_split hk, ← mul_assoc]
    have := rhe_mul_nearest x _ hu (m * 10 ^ (k - (Int.log 10 x - 5)).toNat)
    push_cast at this ⊢
    exact this

/-- A positive decimal of six digits has exactly six digits, the last of which may be zeros. -/
theorem decimal_six {d : Rat} (hd : Decimal 6 d) (h0 : 0 < d) :
    ∃ m k : Int, 100000 ≤ m ∧ m < 1000000 ∧ d = m * 10 ^ k := by
  have h := roundG_nearest h0.le hd
  rw [sub_self, abs_zero] at h
  have e : roundG d = d := by have := abs_nonpos_iff.1 h; linarith
  obtain ⟨h1, h2, _⟩ := sci_cases d h0
  refine ⟨(sci d).1, (sci d).2 - 5, h1, h2, ?_⟩
  conv_lhs => rw [← e]
  unfold roundG; rw [if_neg h0.ne']

/-- Numbers below a bound that lies less than half a unit above a decimal of six digits are written as numbers up to
that decimal. -/
theorem roundG_le {x b : Rat} {n e : Int} (hx : 0 < x) (hxb : x ≤ b) (h1 : 100000 ≤ n) (h2 : n < 1000000)
    (hb : b < (n + 1 / 2) * 10 ^ e) : roundG x ≤ n * 10 ^ e := by
  have hu := ten_pos e
  have hn1 : (100000 : Rat) ≤ n := by exact_mod_cast h1
  have hn2 : (n : Rat) + 1 ≤ 1000000 := by exact_mod_cast h2
  have hl : Int.log 10 x < e + 6 := by
    have := log10_le x hx
    have h3 : (10 : Rat) ^ Int.log 10 x < 10 ^ (e + 6) := by
      have e6 : (10 : Rat) ^ (e + 6) = 10 ^ e * 1000000 := by have := ten_add e 6; push_cast at this; rw [this]; norm_num
      rw [e6]
      nlinarith
    exact ten_lt_iff.1 h3
  rw [roundG_eq hx]
  have hu' := ten_pos (Int.log 10 x - 5)
  rcases eq_or_lt_of_le (show Int.log 10 x - 5 ≤ e by omega) with he | he
  · rw [he]
    have : rhe (x / 10 ^ e) ≤ n := by
      have h3 := rhe_close (x / 10 ^ e)
      have h4 : x / 10 ^ e < n + 1 / 2 := by rw [div_lt_iff₀ hu]; linarith
      have h5 := (abs_le.1 h3).2
      have h6 : (rhe (x / 10 ^ e) : Rat) < ((n + 1 : Int) : Rat) := by push_cast; linarith
      have := Int.cast_lt.1 h6
      omega
    exact mul_le_mul_of_nonneg_right (by exact_mod_cast this) hu.le
  · have h3 := lt_log10 x
    have e2 : (10 : Rat) ^ (Int.log 10 x + 1) = 1000000 * 10 ^ (Int.log 10 x - 5) := by
      have := ten_split (a := Int.log 10 x + 1) (b := Int.log 10 x - 5) (by omega)
      rw [show (Int.log 10 x + 1 - (Int.log 10 x - 5)).toNat = 6 by omega] at this
      rw [this]; norm_num
    have h4 : rhe (x / 10 ^ (Int.log 10 x - 5)) ≤ 1000000 := rhe_le (by rw [div_le_iff₀ hu']; push_cast; linarith)
    have h5 : (rhe (x / 10 ^ (Int.log 10 x - 5)) : Rat) * 10 ^ (Int.log 10 x - 5) ≤ 1000000 * 10 ^ (Int.log 10 x - 5) :=
      mul_le_mul_of_nonneg_right (by exact_mod_cast h4) hu'.le
    have h6 : (10 : Rat) ^ (Int.log 10 x + 1) ≤ 10 ^ (e + 5) := ten_mono (by omega)
    have e5 : (10 : Rat) ^ (e + 5) = 10 ^ e * 100000 := by have := ten_add e 5; push_cast at this; rw [this]; norm_num
    nlinarith

/-- The largest number with at most six digits that is not above the largest finite number. -/
theorem roundG_le_max32 {x : Rat} (hx : 0 < x) (h : x ≤ maxFin binary32) : roundG x ≤ maxFin binary32 := by
  refine le_trans (roundG_le (n := 340282) (e := 33) hx h (by norm_num) (by norm_num) ?_) ?_
  · simp only [maxFin, binary32]; norm_num
  · simp only [maxFin, binary32]; norm_num

set_option exponentiation.threshold 2000 in
theorem roundG_le_max64 {x : Rat} (hx : 0 < x) (h : x ≤ maxFin binary64) : roundG x ≤ maxFin binary64 := by
  refine le_trans (roundG_le (n := 179769) (e := 303) hx h (by norm_num) (by norm_num) ?_) ?_
  · simp only [maxFin, binary64]; norm_num
  · simp only [maxFin, binary64]; norm_num

/-! ## Binary formats -/

/-- The value of `rnd` before the test for infinity. -/
def rndVal (f : Fmt) (x : Rat) : Rat := (rhe (x / 2 ^ ulpExp f x) : Rat) * 2 ^ ulpExp f x

theorem rnd_some {f : Fmt} {x r : Rat} (h : rnd f x = some r) : r = rndVal f x ∧ r < 2 ^ f.emax := by
  unfold rnd at h
  simp only at h
  split at h
  · cases h
  · rename_i hc
    cases h
    exact ⟨rfl, not_le.1 hc⟩

theorem log_ulp {f : Fmt} (hf : f.Ok) {x : Rat} (hx : 0 < x) : x < 2 ^ f.prec * 2 ^ ulpExp f x := by
  have h2 := lt_log2 x
  have : (2 : Rat) ^ (Int.log 2 x + 1) ≤ 2 ^ ((f.prec : Int) + ulpExp f x) := two_mono (by unfold ulpExp; omega)
  rw [zpow_add₀ (a := (2 : Rat)) (by norm_num) (f.prec : Int), zpow_natCast] at this
  linarith

/-- What is read is a number of the format. -/
theorem rnd_binary {f : Fmt} (hf : f.Ok) {x r : Rat} (hx : 0 < x) (h : rnd f x = some r) : Binary f.prec f.emin f.emax r := by
  obtain ⟨rfl, hlt⟩ := rnd_some h
  have hp := hf.prec
  have hr := hf.range
  have hu := two_pos' (ulpExp f x)
  have hmin : f.emin ≤ ulpExp f x := by unfold ulpExp; omega
  have h0 : 0 ≤ rhe (x / 2 ^ ulpExp f x) := le_rhe (by push_cast; positivity)
  have hle : rhe (x / 2 ^ ulpExp f x) ≤ 2 ^ f.prec := rhe_le (by
    rw [div_le_iff₀ hu]; push_cast; exact (log_ulp hf hx).le)
  have h1 := log2_le x hx
  unfold rndVal at hlt ⊢
  set e := ulpExp f x with he
  set n := rhe (x / 2 ^ e) with hn
  -- the exponent is in range
  have hcast : ((n.toNat : Nat) : Rat) = n := by
    have : ((n.toNat : Nat) : Int) = n := by omega
    exact_mod_cast congrArg (Int.cast (R := Rat)) this
  by_cases hmax : e ≤ f.emax - f.prec
  · rcases eq_or_lt_of_le hle with heq | hlt'
    · -- the power of two
      have hlt2 : e < f.emax - f.prec := by
        rw [heq] at hlt
        push_cast at hlt
        have : (2 : Rat) ^ ((f.prec : Int) + e) < 2 ^ f.emax := by rw [zpow_add₀ (by norm_num), zpow_natCast]; exact hlt
        have := two_lt_iff.1 this
        omega
      refine ⟨2 ^ (f.prec - 1), e + 1, Nat.pow_lt_pow_right (by omega) (by omega), by omega, by omega, ?_⟩
      rw [heq]
      push_cast
      rw [zpow_add₀ (by norm_num), zpow_one]
      obtain ⟨p, hp'⟩ : ∃ p, f.prec = p + 1 := ⟨f.prec - 1, by omega⟩
      rw [hp', Nat.add_sub_cancel]
      ring
    · refine ⟨n.toNat, e, ?_, hmin, hmax, by rw [hcast]⟩
      have : (n.toNat : Int) < 2 ^ f.prec := by omega
      exact_mod_cast this
  · -- too big: the value is at least a power of two above the range
    exfalso
    have hne : e ≠ f.emin := by omega
    have hel : e = Int.log 2 x - ((f.prec : Int) - 1) := by rw [he]; unfold ulpExp at he ⊢; omega
    have h3 : ((2 ^ (f.prec - 1) : Int) : Rat) ≤ x / 2 ^ e := by
      rw [le_div_iff₀ hu]
      have : (2 : Rat) ^ Int.log 2 x = 2 ^ (f.prec - 1) * 2 ^ e := by
        rw [← zpow_natCast, ← zpow_add₀ (by norm_num)]
        congr 1
        omega
      push_cast
      rw [← this]
      exact h1
    have h4 := le_rhe h3
    have h5 : (2 : Rat) ^ (f.prec - 1) * 2 ^ e ≤ n * 2 ^ e := mul_le_mul_of_nonneg_right (by exact_mod_cast h4) hu.le
    have h6 : (2 : Rat) ^ f.emax ≤ 2 ^ (f.prec - 1) * 2 ^ e := by
      rw [← zpow_natCast, ← zpow_add₀ (by norm_num)]
      exact two_mono (by omega)
    linarith

/-- No number of the format is nearer. -/
theorem rnd_nearest {f : Fmt} (hf : f.Ok) {x r y : Rat} (hx : 0 < x) (h : rnd f x = some r)
    (hy : Binary f.prec f.emin f.emax y) : |r - x| ≤ |y - x| := by
  obtain ⟨rfl, _⟩ := rnd_some h
  obtain ⟨m, k, hm, hk1, hk2, rfl⟩ := hy
  have hp := hf.prec
  have hu := two_pos' (ulpExp f x)
  have h1 := log2_le x hx
  unfold rndVal
  by_cases hk : ulpExp f x ≤ k
  · rw [two_split hk, ← mul_assoc]
    have := rhe_mul_nearest x _ hu ((m : Int) * 2 ^ (k - ulpExp f x).toNat)
    push_cast at this ⊢
    exact this
  · have hel : ulpExp f x = Int.log 2 x - ((f.prec : Int) - 1) := by unfold ulpExp at hk ⊢; omega
    have e1 : (2 : Rat) ^ Int.log 2 x = ((2 ^ (f.prec - 1) : Int) : Rat) * 2 ^ ulpExp f x := by
      push_cast
      rw [← zpow_natCast, ← zpow_add₀ (by norm_num)]
      congr 1
      omega
    have hle : (m : Rat) * 2 ^ k ≤ 2 ^ Int.log 2 x := by
      have h2 : (m : Rat) ≤ 2 ^ f.prec := by exact_mod_cast hm.le
      have h3 : (m : Rat) * 2 ^ k ≤ 2 ^ f.prec * 2 ^ k := mul_le_mul_of_nonneg_right h2 (two_pos' k).le
      refine h3.trans ?_
      rw [← zpow_natCast, ← zpow_add₀ (by norm_num)]
      exact two_mono (by omega)
    refine le_trans (rhe_mul_nearest x _ hu (2 ^ (f.prec - 1))) ?_
    rw [← e1, abs_of_nonpos (by linarith), abs_of_nonpos (by linarith)]
    linarith

/-- The largest finite number of a format. -/
theorem binary_le_max {f : Fmt} {x : Rat} (h : Binary f.prec f.emin f.emax x) : x ≤ maxFin f := by
  obtain ⟨m, e, hm, _, he, rfl⟩ := h
  unfold maxFin
  have h1 : (m : Rat) ≤ 2 ^ f.prec - 1 := by
    have : ((m + 1 : Nat) : Rat) ≤ ((2 ^ f.prec : Nat) : Rat) := Nat.cast_le.2 hm
    push_cast at this
    linarith
  have h0 : (0 : Rat) ≤ m := Nat.cast_nonneg _
  exact mul_le_mul h1 (two_mono he) (two_pos' _).le (by linarith)

/-- Numbers of the format are read exactly. -/
theorem rnd_exact {f : Fmt} (hf : f.Ok) {x : Rat} (hx : 0 < x) (h : Binary f.prec f.emin f.emax x) : rnd f x = some x := by
  have h1 := rnd_finite hf hx (binary_le_max h)
  have h2 := rnd_nearest hf hx h1 h
  rw [sub_self, abs_zero] at h2
  have := abs_nonpos_iff.1 h2
  rw [h1]
  congr 1
  linarith

theorem rnd_zero (f : Fmt) : rnd f 0 = some 0 := by
  unfold rnd
  have : rhe 0 = 0 := rhe_eq (n := 0) (by norm_num)
  simp only [zero_div, this, Int.cast_zero, zero_mul]
  rw [if_neg (not_le.2 (two_pos' _))]

end Num
end Xo
