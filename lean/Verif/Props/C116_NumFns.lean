import Verif.Model.NumFns
import Mathlib.Tactic.Linarith
import Mathlib.Tactic.FieldSimp
import Mathlib.Tactic.Ring
import Mathlib.Tactic.LinearCombination
import Mathlib.Tactic.Positivity
import Mathlib.Data.Sign.Basic
import Mathlib.Data.BitVec

/-!
C116: functions of numbers.
-/
namespace Xo
namespace NumF
namespace Spec

/-- `m` is halfway between `a` and `b`, up to rounding to an integer. -/
def IsMid (a b m : Int) : Prop := (min a b ≤ m ∧ m ≤ max a b) ∧ |2 * m - (a + b)| ≤ 1

end Spec
open _root_.Xo.NumF.Spec

section Field
variable {K : Type} [Field K] [LinearOrder K] [IsStrictOrderedRing K]

/-- **C116, least and greatest of three.** -/
theorem C116_three (a b c : K) :
    min3 a b c = min a (min b c) ∧ max3 a b c = max a (max b c) := by
  have h1 : ∀ a b : K, min2 a b = min a b := by
    intro a b; unfold min2; split
    · rw [min_eq_left (by linarith)]
    · rw [min_eq_right (by linarith)]
  have h2 : ∀ a b : K, max2 a b = max a b := by
    intro a b; unfold max2; split
    · rw [max_eq_right (by linarith)]
    · rw [max_eq_left (by linarith)]
  unfold min3 max3
  simp only [h1, h2, and_self]

/-- **C116, absolute value.** -/
theorem C116_abs (v : K) : abs v = |v| := by
  unfold abs; split
  · rw [abs_of_neg (by assumption)]
  · rw [abs_of_nonneg (by linarith)]

theorem powerNat_eq (b : K) : ∀ n, powerNat b n = b ^ n
  | 0 => by simp [powerNat]
  | 1 => by simp [powerNat]
  | n + 2 => by rw [powerNat, powerNat_eq b (n + 1)]; ring

/-- **C116, powers.** `power< E >( b )` is `b` to the power `E`, for every integer `E`. -/
theorem C116_power (b : K) (e : Int) : power b e = b ^ e := by
  cases e with
  | ofNat n => rw [power, powerNat_eq, Int.ofNat_eq_natCast, zpow_natCast]
  | negSucc n => rw [power, powerNat_eq, zpow_negSucc, one_div]

/-- **C116, midpoint of floating-point numbers.** -/
theorem C116_midpoint (a b : K) : midpoint a b - a = b - midpoint a b ∧ midpoint a b = midpoint b a := by
  unfold midpoint; constructor <;> ring

/-- **C116, sign.** `sign` times the absolute value is the number, and `signum` is the sign. -/
theorem C116_sign (v : K) :
    sign v * |v| = v ∧ |sign v| = 1 ∧ signum v = ((SignType.sign v : SignType) : Int) := by
  refine ⟨?_, ?_, ?_⟩
  · unfold sign; split
    · rename_i h; rw [abs_of_nonneg h, one_mul]
    · rw [abs_of_neg (by linarith)]; ring
  · unfold sign; split <;> simp
  · unfold signum
    rcases lt_trichotomy v 0 with h | h | h
    · simp [h, h.not_gt]
    · simp [h]
    · simp [h, h.not_gt]

/-- **C116, same sign (partial).** Numbers that are not 0 have the same sign exactly if their product is positive.
Missing: 0, where it fails. -/
theorem C116_same_sign_partial (a b : K) (ha : a ≠ 0) (hb : b ≠ 0) :
    (sameSign a b = true ↔ 0 < a * b) ∧ (sameSign a b = true ↔ sign a = sign b) := by
  have key : ∀ x : K, x ≠ 0 → (0 < x ∧ signum x = 1 ∧ sign x = 1) ∨ (x < 0 ∧ signum x = -1 ∧ sign x = -1) := by
    intro x hx
    rcases lt_or_gt_of_ne hx with h | h
    · right; refine ⟨h, ?_, ?_⟩
      · simp [signum, h, h.not_gt]
      · simp [sign, h]
    · left; refine ⟨h, ?_, ?_⟩
      · simp [signum, h, h.not_gt]
      · simp [sign, h.le]
  have n1 : (1 : K) ≠ -1 := by intro h; linarith
  have n2 : (-1 : K) ≠ 1 := fun h => n1 h.symm
  unfold sameSign
  rcases key a ha with ⟨a1, a2, a3⟩ | ⟨a1, a2, a3⟩ <;> rcases key b hb with ⟨b1, b2, b3⟩ | ⟨b1, b2, b3⟩ <;>
    rw [a2, b2, a3, b3]
  · simp [mul_pos a1 b1]
  · have := mul_neg_of_pos_of_neg a1 b1
    simp [this.le, n1]
  · have := mul_neg_of_neg_of_pos a1 b1
    simp [this.le, n2]
  · simp [mul_pos_of_neg_of_neg a1 b1]

/-- **C116 is violated for zero.** `sign` says that 0 and every positive number have the same sign; `same_sign` says
that they have not. -/
theorem C116_same_sign_violated (b : K) (hb : 0 < b) : sign (0 : K) = sign b ∧ sameSign 0 b = false := by
  constructor
  · simp [sign, hb.le]
  · simp [sameSign, signum, hb, hb.not_gt]

/-- **C116, set if different.** The value is the other one afterwards, and the result tells if it has changed. -/
theorem C116_set (a b : K) : (setIfDifferent a b).1 = b ∧ ((setIfDifferent a b).2 = true ↔ (setIfDifferent a b).1 ≠ a) := by
  unfold setIfDifferent; split <;> simp_all

/-- **C116, between.** -/
theorem C116_between (v a b : K) : isBetween v a b = true ↔ v ∈ Set.Icc a b := by
  simp [isBetween]

/-- **C116, intersection.** The line has the value `y` there, and only there. -/
theorem C116_intersect (o s y x : K) (hs : s ≠ 0) : intersectY o s y = x ↔ o + s * x = y := by
  unfold intersectY
  rw [div_eq_iff hs]
  constructor
  · intro h; linear_combination -h
  · intro h; linear_combination -h

variable [FloorRing K]

/-- **C116, whole numbers.** -/
theorem C116_whole (v : K) : isWhole v = true ↔ ∃ n : ℤ, v = n := by
  unfold isWhole
  rw [decide_eq_true_eq]
  constructor
  · intro h; exact ⟨_, h.symm⟩
  · rintro ⟨n, rfl⟩; rw [Int.floor_intCast]

theorem roundC_near (x : K) : |(Math.roundC x : K) - x| ≤ 1 / 2 := by
  unfold Math.roundC
  split
  · have h1 := Int.floor_le (x + 1 / 2); have h2 := Int.lt_floor_add_one (x + 1 / 2)
    rw [abs_le]; constructor <;> linarith
  · have h1 := Int.le_ceil (x - 1 / 2); have h2 := Int.ceil_lt_add_one (x - 1 / 2)
    rw [abs_le]; constructor <;> linarith

theorem roundC_int (n : ℤ) : Math.roundC (n : K) = n := by
  unfold Math.roundC
  split
  · rw [Int.floor_eq_iff]; constructor <;> linarith
  · rw [Int.ceil_eq_iff]; constructor <;> linarith

theorem roundC_mono (x y : K) (h : x ≤ y) : Math.roundC x ≤ Math.roundC y := by
  unfold Math.roundC
  split
  · rw [if_pos (by linarith)]; exact Int.floor_mono (by linarith)
  · split
    · have h1 : (0 : ℤ) ≤ ⌊y + 1 / 2⌋ := Int.floor_nonneg.2 (by linarith)
      have h2 : ⌈x - 1 / 2⌉ ≤ (0 : ℤ) := by rw [Int.ceil_le]; push_cast; linarith
      omega
    · exact Int.ceil_mono (by linarith)

theorem roundC_neg (x : K) : Math.roundC (-x) = -Math.roundC x := by
  unfold Math.roundC
  rcases lt_trichotomy x 0 with h | h | h
  · rw [if_pos (by linarith), if_neg (by linarith), ← Int.floor_neg]; congr 1; ring
  · subst h
    have h1 : ⌊(0 : K) + 1 / 2⌋ = 0 := by rw [Int.floor_eq_iff]; constructor <;> norm_num
    simp only [neg_zero, le_refl, if_true, h1]
  · rw [if_neg (by linarith), if_pos (by linarith), ← Int.ceil_neg]; congr 1; ring

/-- **C116, rounding to decimals.** The result is a whole number of units of the last decimal, at most half a unit from
the value; rounding it again does nothing; rounding respects the order and the sign. -/
theorem C116_round (v : K) (d : Int) :
    (∃ n : ℤ, roundDecimals v d = n * (10 : K) ^ (-d)) ∧ |roundDecimals v d - v| ≤ (10 : K) ^ (-d) / 2 ∧
    roundDecimals (roundDecimals v d) d = roundDecimals v d ∧
    (∀ w, v ≤ w → roundDecimals v d ≤ roundDecimals w d) ∧ roundDecimals (-v) d = -roundDecimals v d := by
  have hf : (0 : K) < (10 : K) ^ d := zpow_pos (by norm_num) d
  have hne := hf.ne'
  refine ⟨⟨Math.roundC (v * (10 : K) ^ d), ?_⟩, ?_, ?_, ?_, ?_⟩
  · unfold roundDecimals; rw [zpow_neg, div_eq_mul_inv]
  · unfold roundDecimals
    have := roundC_near (v * (10 : K) ^ d)
    have e : (Math.roundC (v * (10 : K) ^ d) : K) / (10 : K) ^ d - v =
        ((Math.roundC (v * (10 : K) ^ d) : K) - v * (10 : K) ^ d) / (10 : K) ^ d := by field_simp
    simp only
    rw [e, abs_div, abs_of_pos hf, zpow_neg, div_le_iff₀ hf]
    calc _ ≤ (1 / 2 : K) := this
      _ = _ := by field_simp
  · unfold roundDecimals
    simp only
    rw [div_mul_cancel₀ _ hne, roundC_int]
  · intro w h
    unfold roundDecimals
    simp only
    rw [div_le_div_iff_of_pos_right hf, Int.cast_le]
    exact roundC_mono _ _ (mul_le_mul_of_nonneg_right h hf.le)
  · unfold roundDecimals
    simp only
    rw [neg_mul, roundC_neg, Int.cast_neg, neg_div]

end Field

section Integers

/-- **C116, absolute value of integers (partial).** Missing: the smallest integer, where it fails. -/
theorem C116_abs_signed_partial (w : Nat) (v : Int) (h : InRange w v) (hm : v ≠ -2 ^ (w - 1)) :
    absSigned w v = .ok |v| := by
  unfold absSigned
  split
  · rename_i hv
    have hr : InRange w (-v) := by unfold InRange at *; omega
    rw [abs_of_neg hv, if_pos hr]
  · rw [abs_of_nonneg (by omega)]

/-- **C116 is violated for the smallest integer.** Its absolute value is undefined behaviour. -/
theorem C116_abs_signed_violated (w : Nat) : absSigned w (-2 ^ (w - 1)) = .ub := by
  have : (0 : Int) < 2 ^ (w - 1) := by positivity
  have hr : ¬ InRange w (- -2 ^ (w - 1)) := by unfold InRange; omega
  unfold absSigned
  rw [if_pos (by omega), if_neg hr]

/-- **C116, midpoint of signed integers (partial).** If the difference is in range then the result is between the two, and
halfway up to rounding. Missing: larger differences, where it fails. -/
theorem C116_midpoint_signed_partial (w : Nat) (a b : Int) (ha : InRange w a) (hb : InRange w b)
    (h : InRange w (b - a)) : ∃ m, midpointSigned w a b = .ok m ∧ IsMid a b m := by
  have key : IsMid a b (a + (b - a).tdiv 2) := by
    unfold IsMid
    rcases le_total a b with hab | hab
    · rw [Int.tdiv_eq_ediv_of_nonneg (by omega), abs_le]; omega
    · have : (b - a).tdiv 2 = -((a - b) / 2) := by
        rw [← Int.tdiv_eq_ediv_of_nonneg (by omega), ← Int.neg_tdiv]; congr 1; omega
      rw [this, abs_le]; omega
  refine ⟨_, ?_, key⟩
  unfold midpointSigned
  rw [if_pos h, if_pos]
  unfold IsMid at key; unfold InRange at *
  omega

/-- **C116 is violated for integers far apart.** If the difference is out of range then the midpoint is undefined
behaviour, although there is one. -/
theorem C116_midpoint_signed_violated (w : Nat) (a b : Int) (h : ¬ InRange w (b - a)) :
    midpointSigned w a b = .ub := by
  unfold midpointSigned; rw [if_neg h]

/-- **C116, midpoint of unsigned integers (partial).** Missing: a first number above the second, where it fails. -/
theorem C116_midpoint_unsigned_partial (w a b : Nat) (hb : b < 2 ^ w) (h : a ≤ b) :
    IsMid a b (midpointUnsigned w a b) := by
  have e : (b + 2 ^ w - a) % 2 ^ w = b - a := by
    rw [show b + 2 ^ w - a = (b - a) + 2 ^ w by omega, Nat.add_mod_right, Nat.mod_eq_of_lt (by omega)]
  unfold midpointUnsigned IsMid
  rw [e, Nat.mod_eq_of_lt (by omega), abs_le]
  omega

/-- **C116 is violated for unsigned integers in falling order.** The result is never the midpoint: it is wrong by half of
the range. -/
theorem C116_midpoint_unsigned_violated (w a b : Nat) (hw : 2 ≤ w) (ha : a < 2 ^ w) (h : b < a) :
    ¬ IsMid a b (midpointUnsigned w a b) := by
  obtain ⟨u, rfl⟩ : ∃ u, w = u + 2 := ⟨w - 2, by omega⟩
  have hp : 2 ^ (u + 2) = 4 * 2 ^ u := by ring
  have h1 : 1 ≤ 2 ^ u := Nat.one_le_two_pow
  unfold midpointUnsigned IsMid
  rw [Nat.mod_eq_of_lt (show b + 2 ^ (u + 2) - a < 2 ^ (u + 2) by omega), hp]
  rw [hp] at ha
  generalize 2 ^ u = q at *
  rintro ⟨-, h2⟩
  rw [abs_le] at h2
  rcases Nat.lt_or_ge (a + (b + 4 * q - a) / 2) (4 * q) with hl | hl
  · rw [Nat.mod_eq_of_lt hl] at h2; omega
  · have : (a + (b + 4 * q - a) / 2) % (4 * q) = a + (b + 4 * q - a) / 2 - 4 * q := by
      rw [Nat.mod_eq_sub_mod hl, Nat.mod_eq_of_lt (by omega)]
    rw [this] at h2; omega

/-- **C116, odd and even.** For every integer, as an unsigned and as a signed number. -/
theorem C116_even {w : Nat} (hw : 0 < w) (v : BitVec w) :
    (isEven v = true ↔ Even v.toNat) ∧ (isOdd v = true ↔ Odd v.toNat) ∧ (isEven v = true ↔ Even v.toInt) ∧
    (isOdd v = true ↔ Odd v.toInt) := by
  have h1 : (v &&& 1#w).toNat = v.toNat % 2 := by
    rw [BitVec.toNat_and, BitVec.toNat_ofNat, Nat.mod_eq_of_lt (Nat.one_lt_two_pow (by omega)), Nat.and_one_is_mod]
  have hz : (1#w).toNat = 1 := by rw [BitVec.toNat_ofNat, Nat.mod_eq_of_lt (Nat.one_lt_two_pow (by omega))]
  have e : isEven v = true ↔ v.toNat % 2 = 0 := by
    unfold isEven; rw [beq_iff_eq, ← BitVec.toNat_inj, h1]; simp
  have o : isOdd v = true ↔ v.toNat % 2 = 1 := by
    unfold isOdd; rw [beq_iff_eq, ← BitVec.toNat_inj, h1, hz]
  have hi : v.toInt % 2 = (v.toNat : Int) % 2 := by
    have hp : (2 : Int) ∣ ((2 ^ w : Nat) : Int) := by
      obtain ⟨u, rfl⟩ : ∃ u, w = u + 1 := ⟨w - 1, by omega⟩
      exact ⟨2 ^ u, by push_cast; ring⟩
    rw [BitVec.toInt_eq_toNat_cond]
    split
    · rfl
    · omega
  rw [Nat.even_iff, Nat.odd_iff, Int.even_iff, Int.odd_iff, hi]
  refine ⟨e, o, ?_, ?_⟩
  · rw [e]; omega
  · rw [o]; omega

/-- **C116, bytes.** Bit `i` of a byte is bit `start + i` of the value. -/
theorem C116_byte {w : Nat} (v : BitVec w) (s : Nat) (hs : s < w) :
    ∃ r, getByte v s = .ok r ∧ (∀ i, i < 8 → r.getLsbD i = v.getLsbD (s + i)) ∧ r.toNat = v.toNat / 2 ^ s % 256 := by
  have hn : (v >>> s &&& 255#w).toNat = v.toNat / 2 ^ s % 256 := by
    have hlt : v.toNat / 2 ^ s < 2 ^ w := lt_of_le_of_lt (Nat.div_le_self _ _) v.isLt
    rw [BitVec.toNat_and, BitVec.toNat_ushiftRight, BitVec.toNat_ofNat, Nat.shiftRight_eq_div_pow]
    apply Nat.eq_of_testBit_eq
    intro i
    rw [Nat.testBit_and, Nat.testBit_mod_two_pow, show (255 : Nat) = 2 ^ 8 - 1 from rfl, Nat.testBit_two_pow_sub_one,
      show (256 : Nat) = 2 ^ 8 from rfl, Nat.testBit_mod_two_pow]
    by_cases hi : i < w
    · simp [hi, Bool.and_comm]
    · have : (v.toNat / 2 ^ s).testBit i = false := Nat.testBit_lt_two_pow (lt_of_lt_of_le hlt (Nat.pow_le_pow_right (by omega) (by omega)))
      simp [this]
  refine ⟨v >>> s &&& 255#w, ?_, ?_, hn⟩
  · unfold getByte; rw [if_pos (by omega)]; rfl
  · intro i hi
    have h1 : (v >>> s &&& 255#w).getLsbD i = (v >>> s &&& 255#w).toNat.testBit i := rfl
    have h2 : v.getLsbD (s + i) = v.toNat.testBit (s + i) := rfl
    rw [h1, h2, hn, show (256 : Nat) = 2 ^ 8 from rfl, Nat.testBit_mod_two_pow, ← Nat.shiftRight_eq_div_pow, Nat.testBit_shiftRight]
    simp [hi]

/-- A byte can be asked for at every place inside the value and at no other. -/
theorem C116_byte_range {w : Nat} (v : BitVec w) (s : Int) :
    ((0 ≤ s ∧ s < w) → ∃ r, getByte v s = .ok r) ∧ (¬(0 ≤ s ∧ s < w) → getByte v s = .ub) := by
  constructor
  · intro h
    exact ⟨_, if_pos h⟩
  · intro h
    exact if_neg h

/-- A value is made of its four bytes. -/
theorem C116_bytes (v : BitVec 32) : ∃ a b c d, getByte v 0 = .ok a ∧ getByte v 8 = .ok b ∧ getByte v 16 = .ok c ∧
    getByte v 24 = .ok d ∧ v.toNat = a.toNat + 256 * b.toNat + 65536 * c.toNat + 16777216 * d.toNat := by
  obtain ⟨a, ha, _, na⟩ := C116_byte v 0 (by omega)
  obtain ⟨b, hb, _, nb⟩ := C116_byte v 8 (by omega)
  obtain ⟨c, hc, _, nc⟩ := C116_byte v 16 (by omega)
  obtain ⟨d, hd, _, nd⟩ := C116_byte v 24 (by omega)
  refine ⟨a, b, c, d, ha, hb, hc, hd, ?_⟩
  have := v.isLt
  rw [na, nb, nc, nd]
  omega

end Integers

section Reals

/-- **C116, inverse square root.** -/
theorem C116_invsqrt (v : ℝ) (h : 0 < v) : 0 < invSqrt v ∧ invSqrt v ^ 2 * v = 1 := by
  have hs := Real.sqrt_pos.2 h
  unfold invSqrt
  refine ⟨by positivity, ?_⟩
  rw [div_pow, one_pow, Real.sq_sqrt h.le]
  field_simp

/-- **C116, signed square root.** It is the inverse of `x * |x|`, on all numbers. -/
theorem C116_signed_sqrt (v y : ℝ) : signedSqrt v = y ↔ y * |y| = v := by
  constructor
  · rintro rfl
    unfold signedSqrt; split
    · rename_i h; rw [abs_of_nonneg (Real.sqrt_nonneg _), Real.mul_self_sqrt h]
    · rename_i h
      rw [abs_neg, abs_of_nonneg (Real.sqrt_nonneg _), neg_mul, Real.mul_self_sqrt (by linarith)]; ring
  · rintro rfl
    unfold signedSqrt
    rcases le_or_gt 0 y with h | h
    · rw [abs_of_nonneg h, if_pos (mul_self_nonneg y), Real.sqrt_mul_self h]
    · rw [abs_of_neg h, if_neg (by nlinarith), show -(y * -y) = (-y) * (-y) by ring, Real.sqrt_mul_self (by linarith)]; ring

/-- **C116, signed square root.** It is odd and strictly increasing. -/
theorem C116_signed_sqrt_mono : StrictMono signedSqrt ∧ ∀ v, signedSqrt (-v) = -signedSqrt v := by
  constructor
  · intro a b hab
    by_contra hn
    have h1 := (C116_signed_sqrt a _).1 rfl
    have h2 := (C116_signed_sqrt b _).1 rfl
    generalize signedSqrt a = x at *
    generalize signedSqrt b = y at *
    have hyx : y ≤ x := by linarith
    rcases le_or_gt 0 y with hy | hy
    · rw [abs_of_nonneg hy] at h2; rw [abs_of_nonneg (by linarith)] at h1; nlinarith
    · rw [abs_of_neg hy] at h2
      rcases le_or_gt 0 x with hx | hx
      · rw [abs_of_nonneg hx] at h1; nlinarith
      · rw [abs_of_neg hx] at h1; nlinarith
  · intro v
    rw [C116_signed_sqrt, abs_neg]
    have := (C116_signed_sqrt v _).1 rfl
    linarith

end Reals

/-- Non-vacuity. -/
example : midpointSigned 32 3 (-4) = .ok 0 := by decide
example : midpointSigned 32 (-2000000000) 2000000000 = .ub := by decide
example : midpointUnsigned 32 4 2 = 2147483651 := by decide
example : power (2 : Rat) (-3) = 1 / 8 ∧ power (2 : Rat) 5 = 32 := by constructor <;> (rw [C116_power]; norm_num)
example : getByte 0x12345678#32 8 = .ok 0x56#32 := by decide
example : isOdd (-3 : BitVec 8) = true := by decide
example : absSigned 32 (-2147483648) = .ub ∧ absSigned 32 (-2147483647) = .ok 2147483647 := by decide

end NumF
end Xo
