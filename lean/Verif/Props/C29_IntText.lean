import Verif.Lemmas.Num

/-!
C29: integers and their texts. `int` and `unsigned int` have 32 bits, `long`, `long long` and their unsigned forms 64.
`Spec.LeadingNumber s neg n` (Lemmas/Num.lean) says in terms of characters that `s` starts, behind whitespace and an
optional sign, with the decimal number `n`.
-/
namespace Xo
open Spec

/-- The integer with the given sign and size. -/
def Spec.signed (neg : Bool) (n : Nat) : Int := if neg then -(n : Int) else n

theorem readInt_text (v : Int) : readInt (intToStr v) = some (decide (v < 0), v.natAbs) := by
  have := readInt_intToStr v [] (by simp)
  simpa using this

/-- **C29.** Every `int` survives. -/
theorem C29_int (v : Int) (h : -2 ^ 31 ≤ v ∧ v < 2 ^ 31) : fromStrInt (intToStr v) = some v := by
  unfold fromStrInt strtol toInt32
  rw [readInt_text]
  simp only [Option.map_some, Option.some.injEq]
  by_cases hv : v < 0 <;> simp only [hv, decide_true, decide_false, if_true, Bool.false_eq_true, if_false] <;>
    split <;> omega

/-- **C29.** Every `long` and `long long` survives. -/
theorem C29_long (v : Int) (h : -2 ^ 63 ≤ v ∧ v < 2 ^ 63) : fromStrLong (intToStr v) = some v := by
  unfold fromStrLong strtol
  rw [readInt_text]
  simp only [Option.map_some, Option.some.injEq]
  by_cases hv : v < 0 <;> simp only [hv, decide_true, decide_false, if_true, Bool.false_eq_true, if_false] <;>
    split <;> omega

theorem readInt_nat (n : Nat) : readInt (natToStr n) = some (false, n) := by
  have := readInt_text (n : Int)
  simp only [intToStr] at this
  rw [if_neg (by omega), decide_eq_false (by omega)] at this
  simpa using this

/-- **C29.** Every `unsigned int` survives. -/
theorem C29_uint (n : Nat) (h : n < 2 ^ 32) : fromStrUInt (natToStr n) = some n := by
  unfold fromStrUInt strtoul
  rw [readInt_nat]
  simp only [Option.map_some, Option.some.injEq, Bool.false_eq_true, if_false]
  rw [if_neg (by omega)]
  omega

/-- **C29.** Every `unsigned long`, `unsigned long long` and `size_t` survives. -/
theorem C29_ulong (n : Nat) (h : n < 2 ^ 64) : fromStrULong (natToStr n) = some n := by
  unfold fromStrULong strtoul
  rw [readInt_nat]
  simp only [Option.map_some, Option.some.injEq, Bool.false_eq_true, if_false]
  rw [if_neg (by omega)]

/-- **C29.** Conversion fails exactly for texts without a leading number. -/
theorem C29_failure (s : Str) :
    (fromStrInt s = none ↔ ¬ ∃ neg n, LeadingNumber s neg n) ∧ (fromStrUInt s = none ↔ ¬ ∃ neg n, LeadingNumber s neg n) ∧
    (fromStrLong s = none ↔ ¬ ∃ neg n, LeadingNumber s neg n) ∧
    (fromStrULong s = none ↔ ¬ ∃ neg n, LeadingNumber s neg n) := by
  have h : readInt s = none ↔ ¬ ∃ neg n, LeadingNumber s neg n := by
    simp only [← readInt_iff]
    cases readInt s with
    | none => simp
    | some p => exact iff_of_false (by simp) (fun h => h ⟨p.1, p.2, rfl⟩)
  simp only [fromStrInt, fromStrUInt, fromStrLong, fromStrULong, strtol, strtoul, Option.map_eq_none_iff, h, and_self]

/-- **C29 (partial: the number fits the type).** The leading number is returned, whatever surrounds it. -/
theorem C29_fits_partial (s : Str) (neg : Bool) (n : Nat) (h : LeadingNumber s neg n) :
    (-2 ^ 31 ≤ signed neg n ∧ signed neg n < 2 ^ 31 → fromStrInt s = some (signed neg n)) ∧
    (-2 ^ 63 ≤ signed neg n ∧ signed neg n < 2 ^ 63 → fromStrLong s = some (signed neg n)) ∧
    (neg = false → n < 2 ^ 32 → fromStrUInt s = some n) ∧ (neg = false → n < 2 ^ 64 → fromStrULong s = some n) := by
  rw [← readInt_iff] at h
  unfold fromStrInt fromStrLong fromStrUInt fromStrULong strtol strtoul signed toInt32
  rw [h]
  simp only [Option.map_some, Option.some.injEq]
  refine ⟨?_, ?_, ?_, ?_⟩
  · cases neg <;> simp only [if_true, Bool.false_eq_true, if_false] <;> intro h <;> split <;> omega
  · cases neg <;> simp only [if_true, Bool.false_eq_true, if_false] <;> intro h <;> split <;> omega
  · rintro rfl hn
    simp only [Bool.false_eq_true, if_false]
    split <;> omega
  · rintro rfl hn
    simp only [Bool.false_eq_true, if_false]
    split <;> omega

/-- **C29 is violated for every number that does not fit**: the conversion reports success and gives another number. -/
theorem C29_out_of_range_violated (s : Str) (neg : Bool) (n : Nat) (h : LeadingNumber s neg n) :
    (¬ (-2 ^ 31 ≤ signed neg n ∧ signed neg n < 2 ^ 31) → ∃ w, fromStrInt s = some w ∧ w ≠ signed neg n) ∧
    (¬ (-2 ^ 63 ≤ signed neg n ∧ signed neg n < 2 ^ 63) → ∃ w, fromStrLong s = some w ∧ w ≠ signed neg n) ∧
    (¬ (0 ≤ signed neg n ∧ signed neg n < 2 ^ 32) → ∃ w, fromStrUInt s = some w ∧ (w : Int) ≠ signed neg n) ∧
    (¬ (0 ≤ signed neg n ∧ signed neg n < 2 ^ 64) → ∃ w, fromStrULong s = some w ∧ (w : Int) ≠ signed neg n) := by
  rw [← readInt_iff] at h
  unfold fromStrInt fromStrLong fromStrUInt fromStrULong strtol strtoul signed toInt32
  rw [h]
  simp only [Option.map_some, Option.some.injEq, exists_eq_left']
  refine ⟨?_, ?_, ?_, ?_⟩
  · cases neg <;> simp only [if_true, Bool.false_eq_true, if_false] <;> intro h <;> split <;> omega
  · cases neg <;> simp only [if_true, Bool.false_eq_true, if_false] <;> intro h <;> split <;> omega
  · cases neg <;> simp only [if_true, Bool.false_eq_true, if_false] <;> intro h <;> split <;> omega
  · cases neg <;> simp only [if_true, Bool.false_eq_true, if_false] <;> intro h <;> split <;> omega

/-- **C29, the number delivered instead.** `long` takes the nearest value it has; `int` the remainder of that modulo
2^32; the unsigned types the remainder of the signed number, unless its digits exceed 2^64. -/
theorem C29_out_of_range_value (s : Str) (neg : Bool) (n : Nat) (h : LeadingNumber s neg n) :
    (∃ l, fromStrLong s = some l ∧ l = max (-2 ^ 63) (min (2 ^ 63 - 1) (signed neg n)) ∧
      ∃ i, fromStrInt s = some i ∧ -2 ^ 31 ≤ i ∧ i < 2 ^ 31 ∧ i % 2 ^ 32 = l % 2 ^ 32) ∧
    (n < 2 ^ 64 → (∃ u, fromStrULong s = some u ∧ u < 2 ^ 64 ∧ (u : Int) = signed neg n % 2 ^ 64) ∧
      ∃ u, fromStrUInt s = some u ∧ u < 2 ^ 32 ∧ (u : Int) = signed neg n % 2 ^ 32) ∧
    (2 ^ 64 ≤ n → fromStrULong s = some (2 ^ 64 - 1) ∧ fromStrUInt s = some (2 ^ 32 - 1)) := by
  rw [← readInt_iff] at h
  unfold fromStrInt fromStrLong fromStrUInt fromStrULong strtol strtoul signed toInt32
  rw [h]
  simp only [Option.map_some, Option.some.injEq, exists_eq_left']
  refine ⟨⟨?_, ?_, ?_, ?_⟩, ?_, ?_⟩
  · cases neg <;> simp only [if_true, Bool.false_eq_true, if_false] <;> split <;> omega
  · omega
  · omega
  · omega
  · intro hn
    rw [if_neg (by omega)]
    cases neg <;> simp only [if_true, Bool.false_eq_true, if_false] <;> omega
  · intro hn
    rw [if_pos (by omega)]
    omega

/-- Concrete texts: with surroundings, without a number, and beyond the range. -/
example : fromStrInt " -12ab".toList = some (-12) ∧ fromStrInt "ab".toList = none ∧ fromStrInt "- 1".toList = none ∧
    fromStrInt "4294967296".toList = some 0 ∧ fromStrULong "-1".toList = some (2 ^ 64 - 1) ∧
    fromStrLong "9223372036854775808".toList = some (2 ^ 63 - 1) ∧
    intToStr (-2147483648) = "-2147483648".toList := by decide +kernel

example : LeadingNumber "-12ab".toList true 12 := by
  rw [← readInt_iff]; decide +kernel

end Xo
