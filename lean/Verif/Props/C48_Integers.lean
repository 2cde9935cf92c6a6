import Verif.Model.Math
import Mathlib.Data.Nat.Digits.Defs
import Mathlib.Data.Nat.Digits.Lemmas
import Mathlib.Data.Int.GCD
import Mathlib.Tactic.Ring
import Mathlib.Tactic.Linarith

/-!
C48: integer helpers.
-/
namespace Xo
open Math

/-! ### Powers of two -/

private theorem pow2_key {w : Nat} (v : BitVec w) (h0 : v ≠ 0#w) :
    (v &&& (v - 1#w)) = 0#w ↔ v.toNat &&& (v.toNat - 1) = 0 := by
  have hn : v.toNat ≠ 0 := by
    intro h; exact h0 (BitVec.eq_of_toNat_eq (by simpa using h))
  have hw : 0 < w := by
    rcases Nat.eq_zero_or_pos w with rfl | h
    · exact absurd (BitVec.eq_of_toNat_eq (by have := v.isLt; simp at this; simp [this])) h0
    · exact h
  have h1 : (1#w).toNat = 1 := by
    rw [BitVec.toNat_ofNat, Nat.mod_eq_of_lt]
    exact Nat.one_lt_two_pow (by omega)
  have hle : 1#w ≤ v := by rw [BitVec.le_def, h1]; omega
  have hs : (v - 1#w).toNat = v.toNat - 1 := by rw [BitVec.toNat_sub_of_le hle, h1]
  rw [← BitVec.toNat_inj, BitVec.toNat_and, hs]
  simp

/-- **C48.** `is_power_of_two` is true exactly for powers of two, for unsigned integers of every width. -/
theorem C48_power_of_two {w : Nat} (v : BitVec w) : isPowerOfTwo v = true ↔ ∃ k, v.toNat = 2 ^ k := by
  have key : isPowerOfTwo v = true ↔ v.toNat ≠ 0 ∧ v.toNat &&& (v.toNat - 1) = 0 := by
    unfold isPowerOfTwo
    by_cases h0 : v = 0#w
    · simp [h0]
    · have hn : v.toNat ≠ 0 := by
        intro h; exact h0 (BitVec.eq_of_toNat_eq (by simpa using h))
      simp only [Bool.and_eq_true, bne_iff_ne, ne_eq, beq_iff_eq, pow2_key v h0, h0, hn, not_false_eq_true]
  rw [key, Nat.ne_zero_and_sub_one_eq_zero_iff_isPowerOfTwo]
  rfl

/-- **C48.** For signed integers too, except for the smallest one, where it is undefined. -/
theorem C48_power_of_two_signed {w : Nat} (v : BitVec w) (h : v ≠ BitVec.intMin w) :
    ∃ b, isPowerOfTwoSigned v = .ok b ∧ (b = true ↔ ∃ k, v.toInt = 2 ^ k) := by
  unfold isPowerOfTwoSigned
  by_cases h0 : v = 0#w
  · rw [if_pos h0]
    refine ⟨false, rfl, ?_⟩
    subst h0
    simp only [Bool.false_eq_true, BitVec.toInt_zero, false_iff, not_exists]
    intro k hk
    have : (0 : Int) < 2 ^ k := by positivity
    omega
  · rw [if_neg h0, if_neg h]
    refine ⟨_, rfl, ?_⟩
    have hn : v.toNat ≠ 0 := by
      intro h; exact h0 (BitVec.eq_of_toNat_eq (by simpa using h))
    have hw : 0 < w := by
      rcases Nat.eq_zero_or_pos w with rfl | h
      · exact absurd (BitVec.eq_of_toNat_eq (by have := v.isLt; simp at this; simp [this])) h0
      · exact h
    rw [beq_iff_eq, pow2_key v h0]
    have := Nat.ne_zero_and_sub_one_eq_zero_iff_isPowerOfTwo (n := v.toNat)
    have hp : v.toNat &&& (v.toNat - 1) = 0 ↔ ∃ k, v.toNat = 2 ^ k := by
      rw [show (∃ k, v.toNat = 2 ^ k) ↔ v.toNat.isPowerOfTwo from Iff.rfl, ← this]
      simp [hn]
    rw [hp]
    have h2w : 2 ^ w = 2 * 2 ^ (w - 1) := by
      conv_lhs => rw [show w = (w - 1) + 1 by omega, Nat.pow_succ]
      omega
    have hlt := v.isLt
    have hti : v.toInt = if 2 * v.toNat < 2 ^ w then (v.toNat : Int) else (v.toNat : Int) - (2 ^ w : Nat) := BitVec.toInt_eq_toNat_cond v
    have hmin : v.toNat ≠ 2 ^ (w - 1) := by
      intro e
      apply h
      apply BitVec.eq_of_toNat_eq
      rw [e, BitVec.toNat_intMin]
      rw [Nat.mod_eq_of_lt]
      exact Nat.pow_lt_pow_right (by omega) (by omega)
    constructor
    · rintro ⟨k, hk⟩
      refine ⟨k, ?_⟩
      have hk1 : k < w := (Nat.pow_lt_pow_iff_right (by omega : 1 < 2)).1 (hk ▸ hlt)
      have hk2 : k ≠ w - 1 := fun e => hmin (e ▸ hk)
      have hk3 : 2 ^ (k + 1) ≤ 2 ^ (w - 1) := Nat.pow_le_pow_right (by omega) (by omega)
      rw [Nat.pow_succ] at hk3
      have hpos : 0 < 2 ^ k := Nat.pos_of_ne_zero (by positivity)
      rw [hti, if_pos (by rw [hk, h2w]; omega), hk]
      push_cast
      rfl
    · rintro ⟨k, hk⟩
      refine ⟨k, ?_⟩
      have hpos : (0 : Int) < 2 ^ k := by positivity
      rw [hti] at hk
      split at hk
      · exact_mod_cast hk
      · omega

/-- **C48 is violated** (undefined) for the smallest signed integer: `v - 1` overflows. -/
theorem C48_power_of_two_violated (w : Nat) (hw : 0 < w) : isPowerOfTwoSigned (BitVec.intMin w) = .ub := by
  unfold isPowerOfTwoSigned
  rw [if_neg, if_pos rfl]
  intro h
  have := congrArg BitVec.toNat h
  rw [BitVec.toNat_intMin, Nat.mod_eq_of_lt (Nat.pow_lt_pow_right (by omega) (by omega))] at this
  have h2 : 2 ^ (w - 1) ≠ 0 := by positivity
  simp at this

/-! ### Digits -/

/-- **C48 (partial).** In base 10, `count_digits` is the number of decimal digits (one for zero). -/
theorem C48_digits_partial (n : Nat) : countDigits n 10 = some (max 1 (Nat.digits 10 n).length) := by
  induction n using Nat.strongRecOn with
  | ind n ih =>
    unfold countDigits
    rw [if_neg (by omega)]
    by_cases h : n ≥ 10
    · rw [dif_pos h, ih (n / 10) (Nat.div_lt_self (by omega) (by omega)), Nat.digits_def' (by omega) (by omega : 0 < n)]
      have : 1 ≤ (Nat.digits 10 (n / 10)).length := by
        rw [Nat.one_le_iff_ne_zero, ne_eq, List.length_eq_zero_iff, Nat.digits_eq_nil_iff_eq_zero]
        omega
      rw [max_eq_right this]
      simp
    · rw [dif_neg h]
      rcases Nat.eq_zero_or_pos n with rfl | hn
      · simp
      · rw [Nat.digits_of_lt 10 n (by omega) (by omega)]; rfl

/-- **C48 is violated for every other base**: it divides by 10 whatever the base is. For every base of at least 2 other
than 10 there is a number for which the count is wrong; with base 0 the loop never ends. -/
theorem C48_digits_violated (b : Nat) (hb : 2 ≤ b) (h10 : b ≠ 10) :
    ∃ n, 0 < n ∧ countDigits n b ≠ some (Nat.digits b n).length := by
  have len2 : ∀ x y, 0 < y → x < b → y < b → Nat.digits b (x + b * y) = [x, y] := by
    intro x y hy hx hyb
    rw [Nat.digits_add b (by omega) x y hx (Or.inr (by omega)), Nat.digits_of_lt b y (by omega) hyb]
  rcases Nat.lt_or_gt_of_ne h10 with h | h
  · -- `b * b` has three digits
    refine ⟨b * b, Nat.mul_pos (by omega) (by omega), ?_⟩
    have hd : (Nat.digits b (b * b)).length = 3 := by
      have := Nat.digits_add b (by omega) 0 b (by omega) (Or.inr (by omega))
      rw [Nat.zero_add] at this
      rw [this]
      have := Nat.digits_add b (by omega) 0 1 (by omega) (Or.inr (by omega))
      rw [Nat.zero_add, Nat.mul_one] at this
      rw [this, Nat.digits_of_lt b 1 (by omega) (by omega)]
      rfl
    rw [hd]
    have hge : b * b ≥ b := Nat.le_mul_of_pos_left b (by omega)
    have hlt : b * b / 10 < b := by
      apply Nat.div_lt_of_lt_mul
      exact Nat.mul_lt_mul_of_pos_right h (by omega)
    unfold countDigits
    rw [if_neg (by omega), dif_pos hge]
    unfold countDigits
    rw [if_neg (by omega), dif_neg (by omega)]
    simp
  · -- `b * b - 1` has two digits
    refine ⟨(b - 1) + b * (b - 1), by omega, ?_⟩
    rw [len2 (b - 1) (b - 1) (by omega) (by omega) (by omega)]
    have hge : (b - 1) + b * (b - 1) ≥ b := by
      have : b * 1 ≤ b * (b - 1) := Nat.mul_le_mul_left b (by omega)
      omega
    have hge2 : ((b - 1) + b * (b - 1)) / 10 ≥ b := by
      rw [ge_iff_le, Nat.le_div_iff_mul_le (by omega)]
      have : b * 10 ≤ b * (b - 1) := Nat.mul_le_mul_left b (by omega)
      omega
    unfold countDigits
    rw [if_neg (by omega), dif_pos hge]
    unfold countDigits
    rw [if_neg (by omega), dif_pos hge2]
    intro e
    cases hc : countDigits (((b - 1) + b * (b - 1)) / 10 / 10) b with
    | none => rw [hc] at e; cases e
    | some k =>
      rw [hc] at e
      simp at e
      subst e
      unfold countDigits at hc
      rw [if_neg (by omega)] at hc
      split at hc
      · cases hm : countDigits (((b - 1) + b * (b - 1)) / 10 / 10 / 10) b with
        | none => rw [hm] at hc; cases hc
        | some m => rw [hm] at hc; simp at hc
      · cases hc

theorem C48_digits_base_zero (n : Nat) : countDigits n 0 = none := by
  unfold countDigits; rw [if_pos rfl]

/-! ### Greatest common divisor -/

/-- **C48.** The greatest common divisor of unsigned integers. -/
theorem C48_gcd_unsigned (p q : Nat) : gcdUnsigned p q ∣ p ∧ gcdUnsigned p q ∣ q ∧
    ∀ d, d ∣ p → d ∣ q → d ∣ gcdUnsigned p q := by
  have e : gcdUnsigned p q = Nat.gcd p q := by
    induction q using Nat.strongRecOn generalizing p with
    | ind q ih =>
      unfold gcdUnsigned
      split
      · next h => subst h; simp
      · next h =>
        rw [ih (p % q) (Nat.mod_lt _ (by omega)) q, Nat.gcd_comm p q, Nat.gcd_rec q p, Nat.gcd_comm]
  rw [e]
  exact ⟨Nat.gcd_dvd_left p q, Nat.gcd_dvd_right p q, fun d h1 h2 => Nat.dvd_gcd h1 h2⟩

/-- For signed integers the result is the greatest common divisor up to its sign, or the computation is undefined. -/
theorem C48_gcd_signed_abs (w : Nat) (p q : Int) :
    gcdSigned w p q = .ub ∨ ∃ g, gcdSigned w p q = .ok g ∧ g.natAbs = Int.gcd p q := by
  induction hq : q.natAbs using Nat.strongRecOn generalizing p q with
  | ind n ih =>
    unfold gcdSigned
    split
    · next h => subst h; right; exact ⟨p, rfl, by simp⟩
    · next h =>
      split
      · left; rfl
      · have hlt : (p.tmod q).natAbs < n := by
          rw [Int.natAbs_tmod, ← hq]
          exact Nat.mod_lt _ (by omega)
        have key : Int.gcd q (p.tmod q) = Int.gcd p q := by
          unfold Int.gcd
          rw [Int.natAbs_tmod, Nat.gcd_comm p.natAbs, Nat.gcd_rec q.natAbs p.natAbs, Nat.gcd_comm]
        rcases ih _ hlt q (p.tmod q) rfl with h | ⟨g, h1, h2⟩
        · left; exact h
        · right; exact ⟨g, h1, h2.trans key⟩

/-- **C48 (partial).** For signed integers that are not negative, the result is their greatest common divisor. -/
theorem C48_gcd_signed_partial (w : Nat) (p q : Int) (hp : 0 ≤ p) (hq : 0 ≤ q) :
    gcdSigned w p q = .ok (Int.gcd p q) := by
  induction hn : q.natAbs using Nat.strongRecOn generalizing p q with
  | ind n ih =>
    unfold gcdSigned
    split
    · next h => subst h; simp [abs_of_nonneg hp]
    · next h =>
      rw [if_neg (by omega)]
      have hlt : (p.tmod q).natAbs < n := by
        rw [Int.natAbs_tmod, ← hn]
        exact Nat.mod_lt _ (by omega)
      rw [ih _ hlt q (p.tmod q) hq (Int.tmod_nonneg q hp) rfl]
      congr 2
      unfold Int.gcd
      rw [Int.natAbs_tmod, Nat.gcd_comm p.natAbs, Nat.gcd_rec q.natAbs p.natAbs, Nat.gcd_comm]

/-- **C48 is violated for negative integers**: the result may be negative, and with the smallest integer and -1 the
computation is undefined. -/
theorem C48_gcd_signed_violated : gcdSigned 32 4 (-6) = .ok (-2) ∧ gcdSigned 32 (-4) 0 = .ok (-4) ∧
    gcdSigned 32 (-2147483648) (-1) = .ub := by decide +kernel

/-- Non-vacuity. -/
example : isPowerOfTwo (64#32) = true ∧ isPowerOfTwo (65#32) = false ∧ isPowerOfTwo (0#8) = false ∧
    isPowerOfTwo (128#8) = true := by decide
example : countDigits 0 10 = some 1 ∧ countDigits 99 10 = some 2 ∧ countDigits 100 10 = some 3 ∧
    countDigits 255 16 = some 3 := by decide +kernel
example : gcdUnsigned 12 18 = 6 ∧ gcdUnsigned 0 5 = 5 ∧ gcdUnsigned 5 0 = 5 := by decide +kernel

end Xo
