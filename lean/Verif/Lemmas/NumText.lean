import Verif.Model.NumText
import Verif.Lemmas.Num
import Mathlib.Tactic.Linarith
import Mathlib.Tactic.Positivity
import Mathlib.Tactic.Ring
import Mathlib.Tactic.FieldSimp
import Mathlib.Tactic.NormNum

/-! Lemmas about rounding and the decimal texts of floating-point numbers. -/
namespace Xo
namespace Num

/-! ## Rounding to whole numbers -/

theorem rhe_close (x : Rat) : |(rhe x : Rat) - x| ≤ 1 / 2 := by
  have h1 := Int.floor_le x
  have h2 := Int.lt_floor_add_one x
  unfold rhe
  split
  · rw [abs_le]; constructor <;> linarith
  · split
    · push_cast; rw [abs_le]; constructor <;> linarith
    · split
      · rw [abs_le]; constructor <;> linarith
      · push_cast; rw [abs_le]; constructor <;> linarith

theorem rhe_eq {x : Rat} {n : Int} (h : |x - n| < 1 / 2) : rhe x = n := by
  have h1 := abs_le.1 (rhe_close x)
  have h2 := abs_lt.1 h
  have h3 : (rhe x : Rat) < n + 1 := by linarith
  have h4 : (n : Rat) < rhe x + 1 := by linarith
  have h3' : rhe x < n + 1 := by exact_mod_cast h3
  have h4' : n < rhe x + 1 := by exact_mod_cast h4
  omega

theorem rhe_le {x : Rat} {n : Int} (h : x ≤ n) : rhe x ≤ n := by
  have h1 := abs_le.1 (rhe_close x)
  rcases eq_or_lt_of_le h with rfl | h
  · rw [rhe_eq (n := n) (by simp)]
  · have h3 : (rhe x : Rat) < n + 1 := by linarith
    have h3' : rhe x < n + 1 := by exact_mod_cast h3
    omega

theorem le_rhe {x : Rat} {n : Int} (h : (n : Rat) ≤ x) : n ≤ rhe x := by
  have h1 := abs_le.1 (rhe_close x)
  rcases eq_or_lt_of_le h with rfl | h
  · rw [rhe_eq (n := n) (by simp)]
  · have h3 : (n : Rat) < rhe x + 1 := by linarith
    have h3' : n < rhe x + 1 := by exact_mod_cast h3
    omega

/-- No whole number is nearer. -/
theorem rhe_nearest (x : Rat) (n : Int) : |(rhe x : Rat) - x| ≤ |(n : Rat) - x| := by
  by_contra hc
  rw [not_le] at hc
  have h1 := rhe_close x
  have : rhe x = n := rhe_eq (by rw [abs_sub_comm]; linarith)
  rw [this] at hc
  exact lt_irrefl _ hc

/-! ## Six digits -/

theorem ten_pos (k : Int) : (0 : Rat) < 10 ^ k := zpow_pos (by norm_num) k
theorem two_pos' (k : Int) : (0 : Rat) < 2 ^ k := zpow_pos (by norm_num) k

theorem ten_add (k : Int) (n : Nat) : (10 : Rat) ^ (k + n) = 10 ^ k * 10 ^ n := by
  rw [zpow_add₀ (by norm_num)]; norm_cast

theorem ten_mono {a b : Int} (h : a ≤ b) : (10 : Rat) ^ a ≤ 10 ^ b := zpow_le_zpow_right₀ (by norm_num) h
theorem two_mono {a b : Int} (h : a ≤ b) : (2 : Rat) ^ a ≤ 2 ^ b := zpow_le_zpow_right₀ (by norm_num) h

theorem log10_le (x : Rat) (h : 0 < x) : (10 : Rat) ^ Int.log 10 x ≤ x := by
  have := Int.zpow_log_le_self (b := 10) (by norm_num) h
  exact_mod_cast this

theorem lt_log10 (x : Rat) : x < (10 : Rat) ^ (Int.log 10 x + 1) := by
  have := Int.lt_zpow_succ_log_self (b := 10) (by norm_num) x
  exact_mod_cast this

theorem log2_le (x : Rat) (h : 0 < x) : (2 : Rat) ^ Int.log 2 x ≤ x := by
  have := Int.zpow_log_le_self (b := 2) (by norm_num) h
  exact_mod_cast this

theorem lt_log2 (x : Rat) : x < (2 : Rat) ^ (Int.log 2 x + 1) := by
  have := Int.lt_zpow_succ_log_self (b := 2) (by norm_num) x
  exact_mod_cast this

theorem log10_eq {x : Rat} {e : Int} (h1 : (10 : Rat) ^ e ≤ x) (h2 : x < (10 : Rat) ^ (e + 1)) : Int.log 10 x = e := by
  have hx : 0 < x := lt_of_lt_of_le (ten_pos e) h1
  have a := (Int.zpow_le_iff_le_log (b := 10) (by norm_num) hx (x := e)).1 (by exact_mod_cast h1)
  have b := (Int.lt_zpow_iff_log_lt (b := 10) (by norm_num) hx (x := e + 1)).1 (by exact_mod_cast h2)
  omega

/-- The value written by `%g`. -/
def roundG (x : Rat) : Rat := if x = 0 then 0 else ((sci x).1 : Rat) * 10 ^ ((sci x).2 - 5)

/-- The digits before a carry: the unit of the sixth digit. -/
theorem sci_cases (x : Rat) (hx : 0 < x) :
    100000 ≤ (sci x).1 ∧ (sci x).1 < 1000000 ∧
    ((sci x).1 : Rat) * 10 ^ ((sci x).2 - 5) = (rhe (x / 10 ^ (Int.log 10 x - 5)) : Rat) * 10 ^ (Int.log 10 x - 5) := by
  have hu := ten_pos (Int.log 10 x - 5)
  have h1 := log10_le x hx
  have h2 := lt_log10 x
  have e1 : (10 : Rat) ^ Int.log 10 x = 100000 * 10 ^ (Int.log 10 x - 5) := by
    have := ten_add (Int.log 10 x - 5) 5
    rw [show Int.log 10 x - 5 + ((5 : Nat) : Int) = Int.log 10 x by push_cast; ring] at this
    rw [this]; ring
  have e2 : (10 : Rat) ^ (Int.log 10 x + 1) = 1000000 * 10 ^ (Int.log 10 x - 5) := by
    have := ten_add (Int.log 10 x - 5) 6
    rw [show Int.log 10 x - 5 + ((6 : Nat) : Int) = Int.log 10 x + 1 by push_cast; ring] at this
    rw [this]; ring
  have b1 : ((100000 : Int) : Rat) ≤ x / 10 ^ (Int.log 10 x - 5) := by
    rw [le_div_iff₀ hu]; push_cast; linarith
  have b2 : x / 10 ^ (Int.log 10 x - 5) ≤ ((1000000 : Int) : Rat) := by
    rw [div_le_iff₀ hu]; push_cast; linarith
  have c1 := le_rhe b1
  have c2 := rhe_le b2
  unfold sci
  simp only
  split
  · rename_i h
    refine ⟨by norm_num, by norm_num, ?_⟩
    rw [h]
    simp only
    rw [show Int.log 10 x + 1 - 5 = Int.log 10 x - 5 + ((1 : Nat) : Int) by push_cast; ring, ten_add]
    push_cast; ring
  · rename_i h
    exact ⟨c1, by omega, rfl⟩

theorem sci_unique {x : Rat} {d k : Int} (h1 : 100000 ≤ d) (h2 : d < 1000000)
    (hc : |x - d * 10 ^ k| ≤ d * 10 ^ k / 2 ^ 23) : sci x = (d, k + 5) := by
  have hk := ten_pos k
  have hd1 : (100000 : Rat) ≤ d := by exact_mod_cast h1
  have hd2 : (d : Rat) ≤ 999999 := by exact_mod_cast (show d ≤ 999999 by omega)
  have hc' := abs_le.1 hc
  set u : Rat := 10 ^ k with hu
  have hdu : (100000 : Rat) * u ≤ d * u := mul_le_mul_of_nonneg_right hd1 hk.le
  have hdu2 : (d : Rat) * u ≤ 999999 * u := mul_le_mul_of_nonneg_right hd2 hk.le
  have e5 : (10 : Rat) ^ (k + 5) = 100000 * u := by
    have := ten_add k 5; push_cast at this; rw [this]; norm_num; ring
  have e6 : (10 : Rat) ^ (k + 5 + 1) = 1000000 * u := by
    have := ten_add k 6
    rw [show k + 5 + 1 = k + ((6 : Nat) : Int) by push_cast; ring, this]; norm_num; ring
  have e4 : (10 : Rat) ^ (k + 4) = 10000 * u := by
    have := ten_add k 4; push_cast at this; rw [this]; norm_num; ring
  by_cases hx : 100000 * u ≤ x
  · have hl : Int.log 10 x = k + 5 := log10_eq (by rw [e5]; exact hx) (by rw [e6]; norm_num at hc'; linarith)
    have hr : rhe (x / 10 ^ (Int.log 10 x - 5)) = d := by
      apply rhe_eq
      rw [hl, show k + 5 - 5 = k by ring, ← hu]
      rw [show x / u - (d : Rat) = (x - d * u) / u by field_simp]
      rw [abs_div, abs_of_pos hk, div_lt_iff₀ hk]
      norm_num at hc
      refine lt_of_le_of_lt hc ?_
      linarith
    unfold sci
    simp only
    rw [hr, if_neg (by omega), hl]
  · rw [not_le] at hx
    have hd : d = 100000 := by
      have : (d : Rat) * u < 100001 * u := by norm_num at hc'; linarith
      have := lt_of_mul_lt_mul_right this hk.le
      have : d < 100001 := by exact_mod_cast this
      omega
    subst hd
    have hl : Int.log 10 x = k + 4 := by
      apply log10_eq
      · rw [e4]; norm_num at hc'; linarith
      · rw [show k + 4 + 1 = k + 5 by ring, e5]; exact hx
    have e1 : (10 : Rat) ^ (k - 1) = u / 10 := by
      have := ten_add (k - 1) 1
      rw [show k - 1 + ((1 : Nat) : Int) = k by push_cast; ring] at this
      rw [hu, this]; norm_num
    have hr : rhe (x / 10 ^ (Int.log 10 x - 5)) = 1000000 := by
      apply rhe_eq
      rw [hl, show k + 4 - 5 = k - 1 by ring, e1]
      rw [show x / (u / 10) - ((1000000 : Int) : Rat) = (x - 100000 * u) / (u / 10) by push_cast; field_simp; ring]
      rw [abs_div, abs_of_pos (by positivity : (0 : Rat) < u / 10), div_lt_iff₀ (by positivity)]
      norm_num at hc
      refine lt_of_le_of_lt hc ?_
      linarith
    unfold sci
    simp only
    rw [hr, if_pos rfl, hl]
    congr 1; ring

theorem roundG_pos {x : Rat} (hx : 0 < x) : 0 < roundG x := by
  obtain ⟨h1, h2, _⟩ := sci_cases x hx
  unfold roundG
  rw [if_neg hx.ne']
  have : (100000 : Rat) ≤ (sci x).1 := by exact_mod_cast h1
  exact mul_pos (by linarith) (ten_pos _)

theorem roundG_nonneg {x : Rat} (hx : 0 ≤ x) : 0 ≤ roundG x := by
  rcases eq_or_lt_of_le hx with rfl | h
  · simp [roundG]
  · exact (roundG_pos h).le

theorem roundG_eq {x : Rat} (hx : 0 < x) :
    roundG x = (rhe (x / 10 ^ (Int.log 10 x - 5)) : Rat) * 10 ^ (Int.log 10 x - 5) := by
  unfold roundG
  rw [if_neg hx.ne']
  exact (sci_cases x hx).2.2

/-- Half a unit of the sixth digit. -/
theorem roundG_close {x : Rat} (hx : 0 < x) : |roundG x - x| ≤ x * (5 / 1000000) := by
  have hu := ten_pos (Int.log 10 x - 5)
  have h1 := log10_le x hx
  have e1 : (10 : Rat) ^ Int.log 10 x = 100000 * 10 ^ (Int.log 10 x - 5) := by
    have := ten_add (Int.log 10 x - 5) 5
    rw [show Int.log 10 x - 5 + ((5 : Nat) : Int) = Int.log 10 x by push_cast; ring] at this
    rw [this]; ring
  rw [roundG_eq hx]
  set u : Rat := 10 ^ (Int.log 10 x - 5)
  have h := rhe_close (x / u)
  rw [show (rhe (x / u) : Rat) * u - x = ((rhe (x / u) : Rat) - x / u) * u by field_simp]
  rw [abs_mul, abs_of_pos hu]
  have := mul_le_mul_of_nonneg_right h hu.le
  linarith

/-- Numbers that differ little from a decimal of six digits have its digits. -/
theorem roundG_of_close {x : Rat} {d k : Int} (hx : 0 < x) (h1 : 100000 ≤ d) (h2 : d < 1000000)
    (hc : |x - d * 10 ^ k| ≤ d * 10 ^ k / 2 ^ 23) : roundG x = d * 10 ^ k := by
  unfold roundG
  rw [if_neg hx.ne', sci_unique h1 h2 hc]
  simp

theorem gMag_of_close {x : Rat} {d k : Int} (hx : 0 < x) (h1 : 100000 ≤ d) (h2 : d < 1000000)
    (hc : |x - d * 10 ^ k| ≤ d * 10 ^ k / 2 ^ 23) : gMag x = gMag (d * 10 ^ k) := by
  have hd : (0 : Rat) < d * 10 ^ k := by
    have : (100000 : Rat) ≤ d := by exact_mod_cast h1
    exact mul_pos (by linarith) (ten_pos _)
  have e : sci x = sci (d * 10 ^ k) := by
    rw [sci_unique h1 h2 hc, sci_unique (x := d * 10 ^ k) h1 h2 (by rw [sub_self, abs_zero]; exact div_nonneg hd.le (by norm_num))]
  unfold gMag
  rw [if_neg hx.ne', if_neg hd.ne', e]

/-! ## Rounding to a format -/

/-- The formats of `float` and `double`, and others not smaller. -/
structure Fmt.Ok (f : Fmt) : Prop where
  prec : 24 ≤ f.prec
  range : f.emin + f.prec < f.emax

theorem binary32_ok : binary32.Ok := ⟨by decide, by decide⟩
theorem binary64_ok : binary64.Ok := ⟨by decide, by decide⟩

/-- The largest finite number. -/
def maxFin (f : Fmt) : Rat := (2 ^ f.prec - 1) * 2 ^ (f.emax - f.prec)

theorem two_add (k : Int) (n : Nat) : (2 : Rat) ^ (k + n) = 2 ^ k * 2 ^ n := by
  rw [zpow_add₀ (by norm_num)]; norm_cast

/-- A multiple of the last bit bounds the rounded number. -/
theorem rnd_val_le {f : Fmt} {x : Rat} {n : Int} (h : x ≤ n * 2 ^ ulpExp f x) :
    (rhe (x / 2 ^ ulpExp f x) : Rat) * 2 ^ ulpExp f x ≤ n * 2 ^ ulpExp f x := by
  have hu := two_pos' (ulpExp f x)
  have : rhe (x / 2 ^ ulpExp f x) ≤ n := rhe_le (by rw [div_le_iff₀ hu]; exact h)
  exact mul_le_mul_of_nonneg_right (by exact_mod_cast this) hu.le

theorem rnd_val_le_pow {f : Fmt} {x : Rat} {k : Int} (hx : 0 < x) (hk : f.emin ≤ k) (hp : 1 ≤ f.prec) (h : x ≤ 2 ^ k) :
    (rhe (x / 2 ^ ulpExp f x) : Rat) * 2 ^ ulpExp f x ≤ 2 ^ k := by
  have h1 := log2_le x hx
  have hlk : Int.log 2 x ≤ k := by
    by_contra hc
    have : (2 : Rat) ^ (k + 1) ≤ 2 ^ Int.log 2 x := two_mono (by omega)
    have e : (2 : Rat) ^ (k + 1) = 2 ^ k * 2 := by have := two_add k 1; push_cast at this; simpa using this
    have := two_pos' k
    linarith
  have hle : ulpExp f x ≤ k := by unfold ulpExp; omega
  have e : (2 : Rat) ^ k = ((2 ^ (k - ulpExp f x).toNat : Int) : Rat) * 2 ^ ulpExp f x := by
    have := two_add (ulpExp f x) (k - ulpExp f x).toNat
    rw [show ulpExp f x + (((k - ulpExp f x).toNat : Nat) : Int) = k by omega] at this
    rw [this]; push_cast; ring
  rw [e] at h ⊢
  exact rnd_val_le h

theorem pow_le_rnd_val {f : Fmt} {x : Rat} {k : Int} (hx : 0 < x) (hk : f.emin ≤ k) (hp : 1 ≤ f.prec) (h : 2 ^ k ≤ x)
    (hkx : ulpExp f x ≤ k) :
    (2 : Rat) ^ k ≤ (rhe (x / 2 ^ ulpExp f x) : Rat) * 2 ^ ulpExp f x := by
  have hu := two_pos' (ulpExp f x)
  have e : (2 : Rat) ^ k = ((2 ^ (k - ulpExp f x).toNat : Int) : Rat) * 2 ^ ulpExp f x := by
    have := two_add (ulpExp f x) (k - ulpExp f x).toNat
    rw [show ulpExp f x + (((k - ulpExp f x).toNat : Nat) : Int) = k by omega] at this
    rw [this]; push_cast; ring
  rw [e] at h ⊢
  have : (2 ^ (k - ulpExp f x).toNat : Int) ≤ rhe (x / 2 ^ ulpExp f x) := le_rhe (by rw [le_div_iff₀ hu]; exact h)
  exact mul_le_mul_of_nonneg_right (by exact_mod_cast this) hu.le

/-- Numbers up to the largest finite one are rounded to a finite one. -/
theorem rnd_finite {f : Fmt} (hf : f.Ok) {x : Rat} (hx : 0 < x) (h : x ≤ maxFin f) :
    rnd f x = some ((rhe (x / 2 ^ ulpExp f x) : Rat) * 2 ^ ulpExp f x) := by
  have hp := hf.prec
  have hr := hf.range
  have h1 := log2_le x hx
  have h2 := lt_log2 x
  have emax_eq : (2 : Rat) ^ f.emax = 2 ^ f.prec * 2 ^ (f.emax - f.prec) := by
    have := two_add (f.emax - f.prec) f.prec
    rw [show f.emax - (f.prec : Int) + (f.prec : Int) = f.emax by ring] at this
    rw [this]; ring
  have hq := two_pos' (f.emax - f.prec)
  have hlt : x < 2 ^ f.emax := by
    unfold maxFin at h
    rw [emax_eq]
    calc x ≤ _ := h
      _ < _ := mul_lt_mul_of_pos_right (by linarith) hq
  have hlog : Int.log 2 x < f.emax := by
    by_contra hc
    have := two_mono (show f.emax ≤ Int.log 2 x by omega)
    linarith
  unfold rnd
  simp only
  rw [if_neg]
  rw [not_le]
  by_cases hl : Int.log 2 x = f.emax - 1
  · have he : ulpExp f x = f.emax - f.prec := by unfold ulpExp; omega
    have := rnd_val_le (f := f) (x := x) (n := 2 ^ f.prec - 1) (by rw [he]; unfold maxFin at h; push_cast; exact h)
    rw [he] at this ⊢
    refine lt_of_le_of_lt this ?_
    rw [emax_eq]
    push_cast
    exact mul_lt_mul_of_pos_right (by linarith) hq
  · by_cases hm : f.emin ≤ Int.log 2 x + 1
    · refine lt_of_le_of_lt (rnd_val_le_pow hx hm (by omega) h2.le) ?_
      exact zpow_lt_zpow_right₀ (by norm_num) (by omega)
    · refine lt_of_le_of_lt (rnd_val_le_pow hx (le_refl f.emin) (by omega) ?_) ?_
      · exact h2.le.trans (two_mono (by omega))
      · exact zpow_lt_zpow_right₀ (by norm_num) (by omega)

/-- The relative error of rounding, down to half the smallest normal number. -/
theorem rnd_close {f : Fmt} (hf : f.Ok) {x : Rat} (hx : (2 : Rat) ^ (f.emin + f.prec - 2) ≤ x) :
    |(rhe (x / 2 ^ ulpExp f x) : Rat) * 2 ^ ulpExp f x - x| ≤ x / 2 ^ 23 := by
  have hx0 : 0 < x := lt_of_lt_of_le (two_pos' _) hx
  have hu := two_pos' (ulpExp f x)
  have hp := hf.prec
  have hlog : f.emin + f.prec - 2 ≤ Int.log 2 x := by
    have := (Int.zpow_le_iff_le_log (b := 2) (by norm_num) hx0 (x := f.emin + f.prec - 2)).1 (by exact_mod_cast hx)
    omega
  have he : ulpExp f x ≤ Int.log 2 x - 22 := by unfold ulpExp; omega
  have h3 : (2 : Rat) ^ ulpExp f x ≤ 2 ^ (Int.log 2 x - 22) := two_mono he
  have h4 : (2 : Rat) ^ Int.log 2 x = 2 ^ (Int.log 2 x - 22) * 2 ^ 22 := by
    have := two_add (Int.log 2 x - 22) 22
    rw [show Int.log 2 x - 22 + ((22 : Nat) : Int) = Int.log 2 x by push_cast; ring] at this
    exact this
  have h1 := log2_le x hx0
  have h := rhe_close (x / 2 ^ ulpExp f x)
  rw [show (rhe (x / 2 ^ ulpExp f x) : Rat) * 2 ^ ulpExp f x - x =
    ((rhe (x / 2 ^ ulpExp f x) : Rat) - x / 2 ^ ulpExp f x) * 2 ^ ulpExp f x by field_simp]
  rw [abs_mul, abs_of_pos hu, le_div_iff₀ (by norm_num)]
  have := mul_le_mul_of_nonneg_right h hu.le
  norm_num at h4 this ⊢
  linarith

end Num
end Xo
