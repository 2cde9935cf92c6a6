import Verif.Model.Math
import Mathlib.Tactic.Linarith
import Mathlib.Tactic.FieldSimp
import Mathlib.Tactic.Ring
import Mathlib.Data.Rat.Floor
import Mathlib.Tactic.NormNum

/-!
C49: clamping and wrapping; also the periodic waves and conversion to bytes. Everything holds in every ordered field
with `floor`, so also for the real numbers.
-/
namespace Xo
open Math

variable {K : Type} [Field K] [LinearOrder K] [IsStrictOrderedRing K] [FloorRing K]

/-- **C49, clamp.** The result is in the range, it is the value itself when that is inside, and no point of the range
is closer to the value. -/
theorem C49_clamp (v lo hi : K) (h : lo ≤ hi) :
    lo ≤ clamp v lo hi ∧ clamp v lo hi ≤ hi ∧ (lo ≤ v → v ≤ hi → clamp v lo hi = v) ∧
    ∀ x, lo ≤ x → x ≤ hi → |clamp v lo hi - v| ≤ |x - v| := by
  unfold clamp
  refine ⟨?_, ?_, ?_, ?_⟩
  · split_ifs <;> linarith
  · split_ifs <;> linarith
  · intro h1 h2
    rw [if_neg (not_lt.2 h1), if_neg (not_lt.2 h2)]
  · intro x h1 h2
    split_ifs with h3 h4
    · rw [abs_of_pos (by linarith), abs_of_pos (by linarith)]; linarith
    · rw [abs_of_neg (by linarith), abs_of_neg (by linarith)]; linarith
    · simp

/-- `soft_clamp` with a positive boundary of at most one half: it stays strictly inside the range, and changes nothing
in the middle part. -/
theorem C49_soft_clamp (v lo hi b : K) (h : lo < hi) (hb : 0 < b) (hb2 : b ≤ 1 / 2) :
    lo < softClamp v lo hi b ∧ softClamp v lo hi b < hi ∧
    (lo + b * (hi - lo) ≤ v → v ≤ hi - b * (hi - lo) → softClamp v lo hi b = v) := by
  have hr : 0 < b * (hi - lo) := mul_pos hb (by linarith)
  have hr2 : 2 * (b * (hi - lo)) ≤ hi - lo := by nlinarith
  unfold softClamp limitTransform
  simp only
  generalize b * (hi - lo) = r at hr hr2
  have frac : ∀ x, 0 < x → 0 < r * r / (x + r) ∧ r * r / (x + r) < r := by
    intro x hx
    refine ⟨by positivity, ?_⟩
    rw [div_lt_iff₀ (by linarith)]
    nlinarith
  refine ⟨?_, ?_, ?_⟩
  · split_ifs with h1 h2
    · have := frac (v - hi + r) (by linarith); linarith
    · have := frac (lo + r - v) (by linarith); linarith
    · linarith
  · split_ifs with h1 h2
    · have := frac (v - hi + r) (by linarith); linarith
    · have := frac (lo + r - v) (by linarith); linarith
    · linarith
  · intro h1 h2
    rw [if_neg (not_lt.2 h2), if_neg (not_lt.2 h1)]

/-! ### Remainders -/

theorem fmod_nonneg {x y : K} (hx : 0 ≤ x) (hy : 0 < y) :
    ∃ m, fmod x y = some m ∧ 0 ≤ m ∧ m < y ∧ ∃ n : ℤ, x = m + n * y := by
  unfold fmod
  rw [if_neg (ne_of_gt hy)]
  have hq : 0 ≤ x / y := div_nonneg hx (le_of_lt hy)
  have hxy : x / y * y = x := div_mul_cancel₀ x (ne_of_gt hy)
  refine ⟨_, rfl, ?_, ?_, ⌊x / y⌋, ?_⟩
  · rw [trunc, if_pos hq]
    have := Int.floor_le (x / y)
    nlinarith
  · rw [trunc, if_pos hq]
    have := Int.lt_floor_add_one (x / y)
    nlinarith
  · rw [trunc, if_pos hq]; ring

theorem fmod_neg {x y : K} (hx : x < 0) (hy : 0 < y) :
    ∃ m, fmod x y = some m ∧ -y < m ∧ m ≤ 0 ∧ ∃ n : ℤ, x = m + n * y := by
  unfold fmod
  rw [if_neg (ne_of_gt hy)]
  have hq : ¬ 0 ≤ x / y := not_le.2 (div_neg_of_neg_of_pos hx hy)
  have hxy : x / y * y = x := div_mul_cancel₀ x (ne_of_gt hy)
  refine ⟨_, rfl, ?_, ?_, ⌈x / y⌉, ?_⟩
  · rw [trunc, if_neg hq]
    have := Int.ceil_lt_add_one (x / y)
    nlinarith
  · rw [trunc, if_neg hq]
    have := Int.le_ceil (x / y)
    nlinarith
  · rw [trunc, if_neg hq]; ring

/-- **C49 (partial), wrap.** The result differs from the value by a whole number of periods and lies in the closed
range; it is below the upper end for values that are not below the range, and for those that do not lie a whole number
of periods below it. -/
theorem C49_wrap_partial (v lo hi : K) (h : lo < hi) :
    ∃ w, wrap v lo hi = some w ∧ (∃ n : ℤ, v = w + n * (hi - lo)) ∧ lo ≤ w ∧ w ≤ hi ∧
      (lo ≤ v ∨ (¬∃ n : ℤ, v = lo + n * (hi - lo)) → w < hi) := by
  unfold wrap
  by_cases hv : v - lo ≥ 0
  · rw [if_pos hv]
    obtain ⟨m, e, h1, h2, n, h3⟩ := fmod_nonneg hv (show (0 : K) < hi - lo by linarith)
    rw [e]
    exact ⟨m + lo, rfl, ⟨n, by linarith⟩, by linarith, by linarith, fun _ => by linarith⟩
  · rw [if_neg hv]
    obtain ⟨m, e, h1, h2, n, h3⟩ := fmod_neg (not_le.1 hv) (show (0 : K) < hi - lo by linarith)
    rw [e]
    refine ⟨m + hi, rfl, ⟨n - 1, by push_cast; linarith⟩, by linarith, by linarith, ?_⟩
    rintro (h4 | h4)
    · exact absurd (sub_nonneg.2 h4) hv
    · rcases lt_or_eq_of_le h2 with h5 | h5
      · linarith
      · exact absurd ⟨n, by rw [h5] at h3; linarith⟩ h4

/-- **C49 is violated** for every value that lies a whole number of periods below the range: it is wrapped to the upper
end of the range, not to the lower one. -/
theorem C49_wrap_violated (lo hi : K) (h : lo < hi) (n : ℕ) (hn : 0 < n) :
    wrap (lo - n * (hi - lo)) lo hi = some hi := by
  have hp : (0 : K) < hi - lo := by linarith
  have hn' : (0 : K) < n := by exact_mod_cast hn
  have e : lo - n * (hi - lo) - lo = -(n : K) * (hi - lo) := by ring
  have hneg : -(n : K) * (hi - lo) < 0 := by nlinarith
  unfold wrap
  rw [e, if_neg (not_le.2 hneg)]
  unfold fmod
  have hd : -(n : K) * (hi - lo) / (hi - lo) = ((-(n : ℤ) : ℤ) : K) := by
    rw [mul_div_assoc, div_self (ne_of_gt hp)]; push_cast; ring
  rw [if_neg (ne_of_gt hp), hd, trunc, if_neg, Int.ceil_intCast]
  · simp
  · push_cast; linarith

/-- `pos_mod` (partial): congruent, and in the closed range. -/
theorem C49_pos_mod_partial (x y : K) (hy : 0 < y) :
    ∃ m, posMod x y = some m ∧ (∃ n : ℤ, x = m + n * y) ∧ 0 ≤ m ∧ m ≤ y ∧
      (0 ≤ x ∨ (¬∃ n : ℤ, x = n * y) → m < y) := by
  unfold posMod
  by_cases hx : x < 0
  · obtain ⟨m, e, h1, h2, n, h3⟩ := fmod_neg hx hy
    rw [e]
    refine ⟨m + y, by simp [hx], ⟨n - 1, by push_cast; linarith⟩, by linarith, by linarith, ?_⟩
    rintro (h4 | h4)
    · linarith
    · rcases lt_or_eq_of_le h2 with h5 | h5
      · linarith
      · exact absurd ⟨n, by rw [h5] at h3; linarith⟩ h4
  · obtain ⟨m, e, h1, h2, n, h3⟩ := fmod_nonneg (not_lt.1 hx) hy
    rw [e]
    exact ⟨m, by simp [hx], ⟨n, h3⟩, h1, le_of_lt h2, fun _ => h2⟩

/-- `pos_mod` of a negative multiple is the modulus itself, not 0. -/
theorem C49_pos_mod_violated : posMod (-3 : ℚ) 3 = some 3 ∧ posMod (3 : ℚ) 3 = some 0 := by
  constructor
  · norm_num [posMod, fmod, trunc]
  · norm_num [posMod, fmod, trunc]

/-! ### Waves (C71) -/

/-- **C71.** The triangle wave has period 2, values between 0 and 1, rises from 0 at 0 to 1 at
1 and falls back to 0 at 2. -/
theorem C71_triangle (v : K) : triangleWave (v + 2) = triangleWave v ∧ 0 ≤ triangleWave v ∧ triangleWave v ≤ 1 ∧
    (0 ≤ v → v < 1 → triangleWave v = v) ∧ (1 ≤ v → v ≤ 2 → triangleWave v = 2 - v) := by
  unfold triangleWave
  have h1 := Int.floor_le (v / 2 + 1 / 2)
  have h2 := Int.lt_floor_add_one (v / 2 + 1 / 2)
  refine ⟨?_, by positivity, ?_, ?_, ?_⟩
  · have : (v + 2) / 2 + 1 / 2 = v / 2 + 1 / 2 + 1 := by ring
    rw [this, Int.floor_add_one]
    push_cast
    congr 2
    ring
  · have : |v / 2 - (⌊v / 2 + 1 / 2⌋ : K)| ≤ 1 / 2 := by
      rw [abs_le]; constructor <;> linarith
    linarith
  · intro h3 h4
    have : ⌊v / 2 + 1 / 2⌋ = 0 := by rw [Int.floor_eq_zero_iff]; constructor <;> linarith
    rw [this, Int.cast_zero, sub_zero, abs_of_nonneg (by linarith)]; ring
  · intro h3 h4
    have : ⌊v / 2 + 1 / 2⌋ = 1 := by
      rw [Int.floor_eq_iff]; push_cast; constructor <;> linarith
    rw [this, Int.cast_one, abs_of_nonpos (by linarith)]; ring

/-- **C71.** The triangle wave between `l` and `u` has values between them and period `2 ( u - l )`; it is `l` at `l`
and `u` at `u`. -/
theorem C71_triangle_in (v l u : K) (h : l < u) : ∃ w, triangleWaveIn v l u = some w ∧ l ≤ w ∧ w ≤ u ∧
    (∀ n : ℤ, triangleWaveIn (v + n * (2 * (u - l))) l u = some w) ∧ (l ≤ v → v ≤ u → w = v) := by
  have hp : (0 : K) < 2 * (u - l) := by linarith
  obtain ⟨m, e, ⟨n0, hn0⟩, h1, h2, _⟩ := C49_pos_mod_partial (v - u) (2 * (u - l)) hp
  have uniq : ∀ (m1 m2 : K) (n : ℤ), m1 = m2 + n * (2 * (u - l)) → 0 ≤ m1 → m1 ≤ 2 * (u - l) → 0 ≤ m2 →
      m2 ≤ 2 * (u - l) → |m1 - (u - l)| = |m2 - (u - l)| := by
    intro m1 m2 n e1 a1 a2 b1 b2
    rcases lt_trichotomy n 0 with hn | hn | hn
    · have hn' : (n : K) ≤ -1 := by exact_mod_cast (show n ≤ -1 by omega)
      have h3 : m1 = 0 := by nlinarith
      have h4 : m2 = 2 * (u - l) := by nlinarith
      rw [h3, h4, zero_sub, abs_neg]
      congr 1
      ring
    · rw [hn] at e1
      simp at e1
      rw [e1]
    · have hn' : (1 : K) ≤ n := by exact_mod_cast hn
      have h3 : m2 = 0 := by nlinarith
      have h4 : m1 = 2 * (u - l) := by nlinarith
      rw [h3, h4, zero_sub, abs_neg]
      congr 1
      ring
  refine ⟨|m - (u - l)| + l, by unfold triangleWaveIn; rw [e]; rfl, ?_, ?_, ?_, ?_⟩
  · have := abs_nonneg (m - (u - l)); linarith
  · have : |m - (u - l)| ≤ u - l := by rw [abs_le]; constructor <;> linarith
    linarith
  · intro n
    obtain ⟨m', e', ⟨n1, hn1⟩, h1', h2', _⟩ := C49_pos_mod_partial (v + n * (2 * (u - l)) - u) (2 * (u - l)) hp
    unfold triangleWaveIn
    rw [e']
    simp only [Option.map_some, Option.some.injEq]
    rw [uniq m' m (n0 + n - n1) (by push_cast; linarith) h1' h2' h1 h2]
  · intro a b
    have := uniq m (v - u + 2 * (u - l)) (-n0 - 1) (by push_cast; linarith) h1 h2 (by linarith) (by linarith)
    rw [this, abs_of_nonneg (by linarith)]
    ring

/-- **C71 (partial).** The square wave has period 2 for arguments that are not negative: 1 on the first half of a
period, 0 on the second. -/
theorem C71_square_partial (v : K) (hv : 0 ≤ v) (n : ℕ) : (v < 1 → squareWave (v + 2 * n) = some 1) ∧
    (1 ≤ v → v < 2 → squareWave (v + 2 * n) = some 0) := by
  have hn : (0 : K) ≤ n := Nat.cast_nonneg n
  obtain ⟨m, e, h1, h2, k, h3⟩ := fmod_nonneg (show (0 : K) ≤ v + 2 * n by linarith) (show (0 : K) < 2 by norm_num)
  have hm : v < 2 → m = v := by
    intro h
    have : k = n := by
      have a : ((k - n : ℤ) : K) < 1 := by push_cast; linarith
      have b : (-1 : K) < ((k - n : ℤ) : K) := by push_cast; linarith
      have a' : k - n < 1 := by exact_mod_cast a
      have b' : -1 < k - (n : ℤ) := by exact_mod_cast b
      omega
    rw [this] at h3
    push_cast at h3
    linarith
  unfold squareWave
  rw [e]
  simp only [Option.map_some, Option.some.injEq]
  exact ⟨fun h => by rw [hm (by linarith), if_pos h], fun h h' => by rw [hm h', if_neg (not_lt.2 h)]⟩

/-- **C71 is violated** by the square wave of negative arguments: it is always 1 there. -/
theorem C71_square_violated (v : K) (hv : v < 0) : squareWave v = some 1 := by
  obtain ⟨m, e, h1, h2, _⟩ := fmod_neg hv (show (0 : K) < 2 by norm_num)
  unfold squareWave
  rw [e]
  simp only [Option.map_some, Option.some.injEq]
  rw [if_pos (by linarith)]

/-- Bytes: every value of the unit interval gives a number from 0 to 255, and the 256 evenly spaced values give back
their number. -/
theorem C71_float_to_byte (v : K) : 0 ≤ floatToByte v ∧ floatToByte v ≤ 255 ∧
    ∀ n : ℕ, n ≤ 255 → floatToByte ((n : K) / 255) = n := by
  have hc := C49_clamp v 0 1 (by norm_num : (0 : K) ≤ 1)
  unfold floatToByte roundC
  have h0 : (0 : K) ≤ clamp v 0 1 * 255 := by nlinarith [hc.1]
  rw [if_pos h0]
  refine ⟨?_, ?_, ?_⟩
  · rw [Int.le_floor]; push_cast; linarith
  · rw [← Int.lt_add_one_iff, Int.floor_lt]; push_cast; nlinarith [hc.2.1]
  · intro n hn
    have hn' : (n : K) ≤ 255 := by exact_mod_cast hn
    have hn0 : (0 : K) ≤ n := Nat.cast_nonneg n
    have e : clamp ((n : K) / 255) 0 1 = n / 255 :=
      (C49_clamp ((n : K) / 255) 0 1 (by norm_num)).2.2.1 (by positivity) (by rw [div_le_one (by norm_num)]; exact hn')
    have e2 : (n : K) / 255 * 255 = n := by field_simp
    rw [e, e2, if_pos hn0, Int.floor_eq_iff]
    push_cast
    constructor <;> linarith

/-- Non-vacuity. -/
example : clamp (7 : ℚ) 1 5 = 5 ∧ wrap (7 : ℚ) 1 5 = some 3 ∧ wrap (-2 : ℚ) 1 5 = some 2 ∧ wrap (-3 : ℚ) 1 5 = some 5 := by
  refine ⟨by norm_num [clamp], ?_, ?_, ?_⟩ <;> norm_num [wrap, fmod, trunc]
example : squareWave (-3 / 2 : ℚ) = some 1 ∧ squareWave (1 / 2 : ℚ) = some 1 ∧ squareWave (3 / 2 : ℚ) = some 0 :=
  ⟨C71_square_violated _ (by norm_num),
    by simpa using (C71_square_partial (1 / 2 : ℚ) (by norm_num) 0).1 (by norm_num),
    by simpa using (C71_square_partial (3 / 2 : ℚ) (by norm_num) 0).2 (by norm_num) (by norm_num)⟩

end Xo
