import Verif.Props.C72_NumText

/-!
C72, numbers below the normal range: writing, reading and writing again gives the same text for every `float`, and for
every `double` but two.
-/
namespace Xo
open Num Spec

/-- The `double` whose text is not stable: 202403 times the smallest positive `double`. -/
def unstable : Rat := 202403 * 2 ^ (-1074 : Int)

namespace Num

/-- Digits of a number close to a decimal of six digits, where the smallest of them needs more. -/
theorem sci_near {x : Rat} {d k : Int} (hx : 0 < x) (h1 : 100000 ≤ d) (h2 : d < 1000000)
    (hc : |x - d * 10 ^ k| < 10 ^ k / 2)
    (hl : d * 10 ^ k ≤ x ∨ 100000 < d ∨ |x - d * 10 ^ k| < 10 ^ k / 20) : sci x = (d, k + 5) := by
  have hk := ten_pos k
  have hd1 : (100000 : Rat) ≤ d := by exact_mod_cast h1
  have hd2 : (d : Rat) ≤ 999999 := by exact_mod_cast (show d ≤ 999999 by omega)
  have hc' := abs_lt.1 hc
  set u : Rat := 10 ^ k with hu
  have hdu : (100000 : Rat) * u ≤ d * u := mul_le_mul_of_nonneg_right hd1 hk.le
  have hdu2 : (d : Rat) * u ≤ 999999 * u := mul_le_mul_of_nonneg_right hd2 hk.le
  have e5 : (10 : Rat) ^ (k + 5) = 100000 * u := by
    have := ten_add k 5; push_cast at this; rw [this]; norm_num; ring
  have e6 : (10 : Rat) ^ (k + 5 + 1) = 1000000 * u := by
    have := ten_add k 6
    rw [show k + 5 + 1 = k + ((6 : Nat) : Int) by push_cast; ring, this]; norm_num; ring
  have e4 : (10 : Rat) ^ (k + 4) = 10000 * u := by
    have := ten_add k 4; push_cast at this; rw [this]; norm_num; ring
  by_cases hx : 100000 * u ≤ x
  · have hl : Int.log 10 x = k + 5 := log10_eq (by rw [e5]; exact hx) (by rw [e6]; linarith)
    have hr : rhe (x / 10 ^ (Int.log 10 x - 5)) = d := by
      apply rhe_eq
      rw [hl, show k + 5 - 5 = k by ring, ← hu]
      rw [show x / u - (d : Rat) = (x - d * u) / u by field_simp]
      rw [abs_div, abs_of_pos hk, div_lt_iff₀ hk]
      linarith
    unfold sci
    simp only
    rw [hr, if_neg (by omega), hl]
  · rw [not_le] at hx
    have hd : d = 100000 := by
      by_contra hne
      have h3 : 100001 ≤ d := by omega
      have h3' : (100001 : Rat) ≤ d := by exact_mod_cast h3
      have := mul_le_mul_of_nonneg_right h3' hk.le
      linarith
    subst hd
    have hc2 : |x - ((100000 : Int) : Rat) * u| < u / 20 := by
      rcases hl with hl | hl | hl
      · push_cast at hl; linarith
      · omega
      · exact hl
    have hc2' := abs_lt.1 hc2
    have hl : Int.log 10 x = k + 4 := by
      apply log10_eq
      · rw [e4]; push_cast at hc2'; linarith
      · rw [show k + 4 + 1 = k + 5 by ring, e5]; exact hx
    have e1 : (10 : Rat) ^ (k - 1) = u / 10 := by
      have := ten_add (k - 1) 1
      rw [show k - 1 + ((1 : Nat) : Int) = k by push_cast; ring] at this
      rw [hu, this]; norm_num
    have hr : rhe (x / 10 ^ (Int.log 10 x - 5)) = 1000000 := by
      apply rhe_eq
      rw [hl, show k + 4 - 5 = k - 1 by ring, e1]
      rw [show x / (u / 10) - ((1000000 : Int) : Rat) = (x - ((100000 : Int) : Rat) * u) / (u / 10) by
        push_cast; field_simp; ring]
      rw [abs_div, abs_of_pos (by positivity : (0 : Rat) < u / 10), div_lt_iff₀ (by positivity)]
      linarith
    unfold sci
    simp only
    rw [hr, if_pos rfl, hl]
    congr 1; ring

/-- Half a unit of the last digit, and a tenth of that below a power of ten. -/
theorem roundG_unit {x : Rat} (hx : 0 < x) :
    |roundG x - x| ≤ 10 ^ ((sci x).2 - 5) / 2 ∧
      (x < 10 ^ (sci x).2 → |roundG x - x| ≤ 10 ^ ((sci x).2 - 5) / 20) := by
  have hlog : ∀ l : Int, l = Int.log 10 x → |roundG x - x| ≤ 10 ^ (l - 5) / 2 := by
    rintro l rfl
    have hu := ten_pos (Int.log 10 x - 5)
    rw [roundG_eq hx]
    set u : Rat := 10 ^ (Int.log 10 x - 5)
    have h := rhe_close (x / u)
    rw [show (rhe (x / u) : Rat) * u - x = ((rhe (x / u) : Rat) - x / u) * u by field_simp]
    rw [abs_mul, abs_of_pos hu]
    have := mul_le_mul_of_nonneg_right h hu.le
    linarith
  have hcase : (sci x).2 = Int.log 10 x ∨ (sci x).2 = Int.log 10 x + 1 := by
    unfold sci
    simp only
    split
    · right; rfl
    · left; rfl
  have h := hlog _ rfl
  rcases hcase with hs | hs
  · rw [hs]
    refine ⟨h, fun hlt => ?_⟩
    have := log10_le x hx
    linarith
  · rw [hs]
    have e : (10 : Rat) ^ (Int.log 10 x + 1 - 5) = 10 ^ (Int.log 10 x - 5) * 10 := by
      have := ten_add (Int.log 10 x - 5) 1
      rw [show Int.log 10 x + 1 - 5 = Int.log 10 x - 5 + ((1 : Nat) : Int) by push_cast; ring, this]
      norm_num
    have hp := ten_pos (Int.log 10 x - 5)
    rw [e]
    exact ⟨by linarith, fun _ => by linarith⟩

/-- No power of ten with a negative exponent is a power of two with a negative exponent. -/
theorem ten_ne_two {a b : Int} (hb : b < 0) : (10 : Rat) ^ a ≠ 2 ^ b := by
  intro h
  have ha : a < 0 := by
    by_contra hc
    have h1 : (1 : Rat) ≤ 10 ^ a := one_le_zpow₀ (by norm_num) (by omega)
    have h2 : (2 : Rat) ^ b < 2 ^ (0 : Int) := two_lt_iff.2 hb
    rw [zpow_zero] at h2
    linarith
  obtain ⟨m, rfl⟩ : ∃ m : Nat, a = -(m : Int) := ⟨(-a).toNat, by omega⟩
  obtain ⟨n, rfl⟩ : ∃ n : Nat, b = -(n : Int) := ⟨(-b).toNat, by omega⟩
  rw [zpow_neg, zpow_neg, inv_inj, zpow_natCast, zpow_natCast] at h
  have h' : (10 : Nat) ^ m = 2 ^ n := by exact_mod_cast h
  have h5 : 5 ∣ (10 : Nat) ^ m := dvd_pow (by norm_num) (by omega)
  rw [h'] at h5
  have h2 : ∀ k : Nat, ¬ 5 ∣ (2 : Nat) ^ k := by
    intro k
    induction k with
    | zero => decide
    | succ k ih => rw [pow_succ]; omega
  exact h2 n h5

/-- The multiple of the smallest number nearest to a decimal that was written for a number below the normal range. -/
theorem rndVal_low {f : Fmt} (hp : 24 ≤ f.prec) {d : Rat} (h0 : 0 < d) (h : d < 2 ^ (f.emin + f.prec)) :
    rndVal f d = (rhe (d / 2 ^ f.emin) : Rat) * 2 ^ f.emin := by
  have hl : Int.log 2 d < f.emin + f.prec := by
    have h1 := log2_le d h0
    exact two_lt_iff.1 (lt_of_le_of_lt h1 h)
  have : ulpExp f d = f.emin := by unfold ulpExp; omega
  unfold rndVal
  rw [this]

/-- Texts are those of the digits. -/
theorem gMag_of_sci {x y : Rat} (hx : x ≠ 0) (hy : y ≠ 0) (h : sci x = sci y) : gMag x = gMag y := by
  unfold gMag
  rw [if_neg hx, if_neg hy, h]

end Num

theorem stable_low {f : Fmt} (hf : f = binary32 ∨ f = binary64) {x : Rat} (n : Nat) (hn : x = n * 2 ^ f.emin) (hx : 0 < x)
    (hlow : x < minNormal f) (hne : f = binary64 → x ≠ unstable) : gMag (rndVal f (roundG x)) = gMag x := by
  have hok : f.Ok := by rcases hf with rfl | rfl; exacts [binary32_ok, binary64_ok]
  have hp := hok.prec
  obtain ⟨m1, m2, -⟩ := sci_cases x hx
  have hd : roundG x = (sci x).1 * 10 ^ ((sci x).2 - 5) := by unfold roundG; rw [if_neg hx.ne']
  obtain ⟨hun, hun2⟩ := roundG_unit hx
  have hd0 := roundG_pos hx
  have hdlt : roundG x < 2 ^ (f.emin + f.prec) := by
    have h1 := (abs_le.1 (roundG_close hx)).2
    have h2 : (2 : Rat) ^ (f.emin + f.prec) = minNormal f * 2 := by
      have := two_add (f.emin + f.prec - 1) 1
      unfold minNormal
      rw [show f.emin + (f.prec : Int) = f.emin + f.prec - 1 + ((1 : Nat) : Int) by push_cast; ring, this]
      norm_num
    rw [h2]
    linarith
  have hy := rndVal_low hp hd0 hdlt
  set d := roundG x with hdd
  set m := (sci x).1 with hm
  set k := (sci x).2 - 5 with hk
  have hke : (sci x).2 = k + 5 := by omega
  have hs := ten_pos k
  have hu := two_pos' f.emin
  set u : Rat := 2 ^ f.emin with huu
  set y := rndVal f d with hyy
  have hclose : |y - d| ≤ u / 2 := by
    rw [hy, show (rhe (d / u) : Rat) * u - d = ((rhe (d / u) : Rat) - d / u) * u by field_simp, abs_mul, abs_of_pos hu]
    have := mul_le_mul_of_nonneg_right (rhe_close (d / u)) hu.le
    linarith
  have hemin : f.emin < 0 := by rcases hf with rfl | rfl <;> decide
  rcases lt_trichotomy ((10 : Rat) ^ k) u with hsu | hsu | hsu
  · -- the digits are finer than the numbers: the number comes back
    have hyx : y = x := by
      rw [hy, hn]
      have : rhe (d / u) = (n : Int) := by
        apply rhe_eq
        rw [show d / u - (((n : Int) : Rat)) = (d - x) / u by rw [hn]; push_cast; field_simp]
        rw [abs_div, abs_of_pos hu, div_lt_iff₀ hu]
        linarith
      rw [this]; push_cast; rfl
    rw [hyx]
  · exact absurd hsu (ten_ne_two hemin)
  · -- the numbers are finer than the digits
    have hy0 : 0 < y := by
      have h1 := (abs_le.1 hclose).1
      have h2 : (100000 : Rat) ≤ m := by exact_mod_cast m1
      have h3 := mul_le_mul_of_nonneg_right h2 hs.le
      linarith
    have hst : |y - m * 10 ^ k| < 10 ^ k / 2 := by rw [← hd]; linarith
    have key : m * 10 ^ k ≤ y ∨ 100000 < m ∨ |y - m * 10 ^ k| < 10 ^ k / 20 := by
      by_contra hc
      push Not at hc
      obtain ⟨c1, c2, c3⟩ := hc
      have hm5 : m = 100000 := by omega
      have hd5 : d = 10 ^ (k + 5) := by
        have := ten_add k 5
        push_cast at this
        rw [hd, hm5, this]; norm_num; ring
      rw [← hd] at c1 c3
      have hu10 : (10 : Rat) ^ (k - 1) < u := by
        have e1 : (10 : Rat) ^ k = 10 ^ (k - 1) * 10 := by
          have := ten_add (k - 1) 1
          rw [show k - 1 + ((1 : Nat) : Int) = k by push_cast; ring] at this
          rw [this]; norm_num
        rcases lt_or_eq_of_le (show (10 : Rat) ^ (k - 1) ≤ u by linarith) with h | h
        · exact h
        · exact absurd h (ten_ne_two hemin)
      rcases hf with rfl | rfl
      · -- `float`
        have hk44 : k = -44 := by
          have h1 : (10 : Rat) ^ (-45 : Int) < u := by rw [huu]; norm_num [binary32]
          have h2 : u < (10 : Rat) ^ (-44 : Int) := by rw [huu]; norm_num [binary32]
          have h3 := ten_lt_iff.1 (h1.trans hsu)
          have h4 := ten_lt_iff.1 (hu10.trans h2)
          omega
        have hr : rhe (d / u) = 713624 := by
          apply rhe_eq
          rw [hd5, hk44, huu]
          norm_num [binary32, abs_lt]
        rw [hy, hr, hd5, hk44, huu] at c1
        norm_num [binary32] at c1
      · -- `double`
        have hk323 : k = -323 := by
          have h1 : (10 : Rat) ^ (-324 : Int) < u := by rw [huu]; show _ < _; decide +kernel
          have h2 : u < (10 : Rat) ^ (-323 : Int) := by rw [huu]; show _ < _; decide +kernel
          have h3 := ten_lt_iff.1 (h1.trans hsu)
          have h4 := ten_lt_iff.1 (hu10.trans h2)
          omega
        apply hne rfl
        have hn' : (n : Int) = 202403 := by
          have hd' : d = 10 ^ (-318 : Int) := by rw [hd5, hk323]; norm_num
          rw [hke, hk323] at hun2
          rw [hk323] at hun
          have hb1 : (202402 : Rat) * u < d := by rw [hd', huu]; decide +kernel
          have hb2 : d + 10 ^ (-323 : Int) / 2 < 202404 * u := by rw [hd', huu]; decide +kernel
          have hb3 : 202402 * u + 10 ^ (-323 : Int) / 20 < d := by rw [hd', huu]; decide +kernel
          have hup : (n : Rat) * u < 202404 * u := by
            rw [← hn]
            have := (abs_le.1 hun).1
            linarith
          have hlo : (202402 : Rat) * u < n * u := by
            rw [← hn]
            by_contra hcc
            rw [not_lt] at hcc
            have hxd : x < 10 ^ ((-323 : Int) + 5) := by
              rw [show (-323 : Int) + 5 = -318 by norm_num, ← hd']
              linarith
            have := (abs_le.1 (hun2 hxd)).2
            linarith
          have h5 : (n : Rat) < 202404 := lt_of_mul_lt_mul_right hup hu.le
          have h6 : (202402 : Rat) < n := lt_of_mul_lt_mul_right hlo hu.le
          have h5' : n < 202404 := by exact_mod_cast h5
          have h6' : 202402 < n := by exact_mod_cast h6
          omega
        have hn'' : (n : Rat) = 202403 := by exact_mod_cast hn'
        rw [hn, hn'', huu]
        rfl
    have hsci := sci_near hy0 m1 m2 hst key
    apply gMag_of_sci hy0.ne' hx.ne'
    rw [hsci, ← hke]

/-- Every number of a format is a multiple of the smallest. -/
theorem binary_multiple {f : Fmt} {x : Rat} (h : Binary f.prec f.emin f.emax x) : ∃ n : Nat, x = n * 2 ^ f.emin := by
  obtain ⟨m, e, h1, h2, h3, hm⟩ := h
  refine ⟨m * 2 ^ (e - f.emin).toNat, ?_⟩
  rw [hm]
  have := two_add f.emin (e - f.emin).toNat
  rw [show f.emin + (((e - f.emin).toNat : Nat) : Int) = e by omega] at this
  rw [this]
  push_cast; ring

/-- Writing a number, reading the text and writing again gives the same text, for every finite `float`, and for every finite
`double` other than 202403 times the smallest positive one and its negation. -/
theorem C72_text_stable_partial {f : Fmt} (hf : f = binary32 ∨ f = binary64) (neg : Bool) {x : Rat}
    (hb : Binary f.prec f.emin f.emax x) (hne : f = binary64 → x ≠ unstable) :
    ∃ v, strtod f (toStr (.fin neg x)) = some v ∧ toStr v = toStr (.fin neg x) := by
  have hok : f.Ok := by rcases hf with rfl | rfl; exacts [binary32_ok, binary64_ok]
  have hmax := binary_le_max hb
  obtain ⟨m, e, h1, h2, h3, hm⟩ := hb
  have hx : 0 ≤ x := by rw [hm]; exact mul_nonneg (by positivity) (two_pos' e).le
  rcases hx.eq_or_lt with hx | hx
  · subst hx
    exact ⟨_, (C72_special neg).2.2, rfl⟩
  rcases le_or_gt (minNormal f) x with hl | hl
  · exact C72_text_stable hf neg hl hmax
  obtain ⟨n, hn⟩ := binary_multiple ⟨m, e, h1, h2, h3, hm⟩
  have hgm : roundG x ≤ maxFin f := by
    rcases hf with rfl | rfl
    · exact roundG_le_max32 hx hmax
    · exact roundG_le_max64 hx hmax
  have hr := rnd_finite hok (roundG_pos hx) hgm
  refine ⟨.fin neg (rndVal f (roundG x)), ?_, ?_⟩
  · rw [strtod_toStr_fin f neg hx.le]
    unfold roundFl
    rw [hr]
    rfl
  · show signText neg ++ gMag _ = signText neg ++ gMag x
    rw [stable_low hf n hn hx hl hne]

/-- The exception: 202403 times the smallest positive `double` is written as 1e-318, which is read as 202402 times the
smallest, which is written as 9.99999e-319. -/
theorem C72_text_violated (neg : Bool) :
    Binary 53 (-1074) 1024 unstable ∧ toStr (.fin neg unstable) = signText neg ++ "1e-318".toList ∧
      strtod binary64 (toStr (.fin neg unstable)) = some (.fin neg (202402 * 2 ^ (-1074 : Int))) ∧
      toStr (.fin neg (202402 * 2 ^ (-1074 : Int))) = signText neg ++ "9.99999e-319".toList := by
  refine ⟨⟨202403, -1074, by norm_num, le_refl _, by norm_num, rfl⟩, ?_, ?_, ?_⟩
  · cases neg <;> decide +kernel
  · cases neg <;> decide +kernel
  · cases neg <;> decide +kernel

/-- The hypotheses are met below the normal range: by the smallest `float` and by a `double`. -/
example : Binary 24 (-149) 128 (2 ^ (-149 : Int)) ∧ Binary 53 (-1074) 1024 (12345 * 2 ^ (-1074 : Int)) ∧
    toStr (.fin false (2 ^ (-149 : Int))) = "1.4013e-45".toList := by
  refine ⟨⟨1, -149, by norm_num, by norm_num, by norm_num, by norm_num⟩,
    ⟨12345, -1074, by norm_num, by norm_num, by norm_num, by norm_num⟩, by decide +kernel⟩

/-- A decimal of six digits below the normal range is never midway between two multiples of the smallest number. -/
theorem no_tie {m k e z : Int} (h1 : 0 < m) (h2 : m < 1000000) (hk : k ≤ -9) (he : e ≤ 0)
    (h : (m : Rat) * 10 ^ k = z * 2 ^ e) : False := by
  obtain ⟨j, rfl⟩ : ∃ j : Nat, k = -(j : Int) := ⟨(-k).toNat, by omega⟩
  obtain ⟨i, rfl⟩ : ∃ i : Nat, e = -(i : Int) := ⟨(-e).toNat, by omega⟩
  rw [zpow_neg, zpow_neg, zpow_natCast, zpow_natCast] at h
  have h' : (m : Rat) * 2 ^ i = z * 10 ^ j := by
    have e1 : (10 : Rat) ^ j ≠ 0 := by positivity
    have e2 : (2 : Rat) ^ i ≠ 0 := by positivity
    field_simp at h
    linarith
  have hi : m * 2 ^ i = z * 10 ^ j := by exact_mod_cast h'
  obtain ⟨m', rfl⟩ : ∃ m' : Nat, m = m' := ⟨m.toNat, by omega⟩
  obtain ⟨t, rfl⟩ : ∃ t : Nat, j = 9 + t := ⟨j - 9, by omega⟩
  have hz : (5 : Int) ^ 9 ∣ (m' : Int) * 2 ^ i := by
    rw [hi]
    refine ⟨z * 2 ^ 9 * 10 ^ t, ?_⟩
    rw [pow_add, show (10 : Int) ^ 9 = 5 ^ 9 * 2 ^ 9 by norm_num]
    ring
  have hz' : 5 ^ 9 ∣ m' * 2 ^ i := by exact_mod_cast hz
  have hco : Nat.Coprime (5 ^ 9) (2 ^ i) := Nat.Coprime.pow _ _ (by decide)
  have := Nat.le_of_dvd (by omega) (hco.dvd_of_dvd_mul_right hz')
  omega

theorem survive_low {f : Fmt} (hf : f = binary32 ∨ f = binary64) {x d' : Rat} (n : Nat) (hn : x = n * 2 ^ f.emin)
    (hx : 0 < x) (hlow : x < minNormal f) (hd : 0 < d') (hdec : Decimal 6 d') (hr : rndVal f d' = x) :
    rndVal f (roundG x) = x := by
  have hok : f.Ok := by rcases hf with rfl | rfl; exacts [binary32_ok, binary64_ok]
  have hp := hok.prec
  have hu := two_pos' f.emin
  have h2 : (2 : Rat) ^ (f.emin + f.prec) = minNormal f * 2 := by
    have := two_add (f.emin + f.prec - 1) 1
    unfold minNormal
    rw [show f.emin + (f.prec : Int) = f.emin + f.prec - 1 + ((1 : Nat) : Int) by push_cast; ring, this]
    norm_num
  have hd'lt : d' < 2 ^ (f.emin + f.prec) := by
    by_contra hc
    rw [not_lt] at hc
    have hlg : f.emin + f.prec ≤ Int.log 2 d' := by
      have := two_lt_iff.1 (hc.trans_lt (lt_log2 d'))
      omega
    have h3 := pow_le_rnd_val (f := f) hd (k := Int.log 2 d') (by omega) (by omega) (log2_le d' hd) (by unfold ulpExp; omega)
    have h4 : (2 : Rat) ^ (f.emin + f.prec) ≤ rndVal f d' := (two_mono hlg).trans h3
    rw [hr, h2] at h4
    linarith
  have hd0 := roundG_pos hx
  have hdlt : roundG x < 2 ^ (f.emin + f.prec) := by
    have h1 := (abs_le.1 (roundG_close hx)).2
    rw [h2]
    linarith
  have hxe : |x - d'| ≤ 2 ^ f.emin / 2 := by
    rw [← hr, rndVal_low hp hd hd'lt]
    set u : Rat := 2 ^ f.emin
    rw [show (rhe (d' / u) : Rat) * u - d' = ((rhe (d' / u) : Rat) - d' / u) * u by field_simp, abs_mul, abs_of_pos hu]
    have := mul_le_mul_of_nonneg_right (rhe_close (d' / u)) hu.le
    linarith
  have hnear := roundG_nearest hx.le hdec
  rw [abs_sub_comm d' x] at hnear
  have hle : |roundG x - x| ≤ 2 ^ f.emin / 2 := hnear.trans hxe
  obtain ⟨m, k, m1, m2, hmk⟩ := decimal_six (roundG_decimal hx.le) hd0
  have hk : k ≤ -9 := by
    have e1 : (2 : Rat) ^ (f.emin + f.prec) < 10 ^ (-4 : Int) := by
      rcases hf with rfl | rfl <;> decide +kernel
    have h3 : (10 : Rat) ^ (k + 5) ≤ roundG x := by
      have := ten_add k 5
      push_cast at this
      rw [hmk, this]
      have h4 : (100000 : Rat) ≤ m := by exact_mod_cast m1
      have := mul_le_mul_of_nonneg_right h4 (ten_pos k).le
      linarith
    have := ten_lt_iff.1 ((h3.trans_lt hdlt).trans e1)
    omega
  have he : f.emin - 1 ≤ 0 := by rcases hf with rfl | rfl <;> decide
  have e2 : (2 : Rat) ^ f.emin = 2 ^ (f.emin - 1) * 2 := by
    have := two_add (f.emin - 1) 1
    rw [show f.emin - 1 + ((1 : Nat) : Int) = f.emin by push_cast; ring] at this
    rw [this]; norm_num
  have hlt : |roundG x - x| < 2 ^ f.emin / 2 := by
    rcases hle.lt_or_eq with h | h
    · exact h
    · exfalso
      rw [e2] at h
      have h' : |roundG x - x| = 2 ^ (f.emin - 1) := by rw [h]; ring
      rw [hn, e2] at h'
      rcases abs_choice (roundG x - n * (2 ^ (f.emin - 1) * 2)) with hc | hc
      · refine no_tie (m := m) (k := k) (e := f.emin - 1) (z := 2 * n + 1) (by omega) m2 hk he ?_
        rw [← hmk, hn, e2]
        rw [hn, e2] at hc
        rw [h'] at hc
        push_cast
        linarith
      · refine no_tie (m := m) (k := k) (e := f.emin - 1) (z := 2 * n - 1) (by omega) m2 hk he ?_
        rw [← hmk, hn, e2]
        rw [hn, e2] at hc
        rw [h'] at hc
        push_cast
        linarith
  rw [rndVal_low hp hd0 hdlt]
  have : rhe (roundG x / 2 ^ f.emin) = (n : Int) := by
    apply rhe_eq
    set u : Rat := 2 ^ f.emin
    rw [show roundG x / u - (((n : Int) : Rat)) = (roundG x - x) / u by
      rw [show (((n : Int) : Rat)) = x / u by rw [hn]; push_cast; field_simp]; ring]
    rw [abs_div, abs_of_pos hu, div_lt_iff₀ hu]
    linarith
  rw [this, hn]; push_cast; rfl

/-- A positive finite number, however small, comes back from its text exactly if it is the number nearest to some decimal
of six digits. -/
theorem C72_survive_all {f : Fmt} (hf : f = binary32 ∨ f = binary64) (neg : Bool) {x : Rat} (hx : 0 < x)
    (hb : Binary f.prec f.emin f.emax x) :
    strtod f (toStr (.fin neg x)) = some (.fin neg x) ↔ ∃ d, 0 < d ∧ Decimal 6 d ∧ rnd f d = some x := by
  have hok : f.Ok := by rcases hf with rfl | rfl; exacts [binary32_ok, binary64_ok]
  rcases le_or_gt (minNormal f) x with hl | hl
  · exact C72_survive hf neg hl hb
  obtain ⟨n, hn⟩ := binary_multiple hb
  have hmax := binary_le_max hb
  have hgm : roundG x ≤ maxFin f := by
    rcases hf with rfl | rfl
    · exact roundG_le_max32 hx hmax
    · exact roundG_le_max64 hx hmax
  have hr := rnd_finite hok (roundG_pos hx) hgm
  have e1 : strtod f (toStr (.fin neg x)) = some (.fin neg (rndVal f (roundG x))) := by
    rw [strtod_toStr_fin f neg hx.le]
    unfold roundFl
    rw [hr]
    rfl
  rw [e1]
  constructor
  · intro h
    simp only [Option.some.injEq, Fl.fin.injEq, true_and] at h
    refine ⟨roundG x, roundG_pos hx, roundG_decimal hx.le, ?_⟩
    rw [hr]
    exact congrArg some h
  · rintro ⟨d, hd, hdec, hrd⟩
    rw [survive_low hf n hn hx hl hd hdec (rnd_some hrd).1.symm]

/-- The hypotheses are met: the smallest `double` comes back, although its text has six digits of which none but the first
matters. -/
example : strtod binary64 (toStr (.fin true (2 ^ (-1074 : Int)))) = some (.fin true (2 ^ (-1074 : Int))) ∧
    toStr (.fin true (2 ^ (-1074 : Int))) = "-4.94066e-324".toList ∧
    strtod binary64 "-5e-324".toList = some (.fin true (2 ^ (-1074 : Int))) := by decide +kernel

end Xo
