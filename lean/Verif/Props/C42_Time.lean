import Verif.Model.Time
import Mathlib.Tactic.Ring
import Mathlib.Tactic.Linarith
import Mathlib.Tactic.NormNum
import Mathlib.Data.Rat.Floor

/-!
C42: arithmetic of times.
-/
namespace Xo
open Time

/-- **C42, addition, subtraction, negation.** Exact whenever the exact result is representable, and never wrong:
otherwise the behaviour is undefined. -/
theorem C42_add_sub_neg (a b : Int) :
    (InRange (a + b) → add a b = .ok (a + b)) ∧ (InRange (a - b) → sub a b = .ok (a - b)) ∧
    (InRange (-a) → neg a = .ok (-a)) ∧
    (∀ r, add a b = .ok r → r = a + b) ∧ (∀ r, sub a b = .ok r → r = a - b) ∧ (∀ r, neg a = .ok r → r = -a) := by
  refine ⟨fun h => if_pos h, fun h => if_pos h, fun h => if_pos h, ?_, ?_, ?_⟩
  all_goals
    intro r h
    simp only [add, sub, neg, i64] at h
    split at h <;> cases h
    rfl

/-- Adding and then subtracting the same time gives the time back. -/
theorem C42_add_then_sub (a b r : Int) (ha : InRange a) (h : add a b = .ok r) : sub r b = .ok a := by
  have := (C42_add_sub_neg a b).2.2.2.1 r h
  subst this
  simp only [sub, i64]
  rw [show a + b - b = a by ring, if_pos ha]

theorem divSize_nonneg (a : Int) (n : Nat) (h0 : 0 ≤ a) (ha : InRange a) (hn : 0 < n) :
    divSize a n = .ok (a / n) := by
  have h1 : a % 2 ^ 64 = a := Int.emod_eq_of_lt h0 (by have := ha.2; omega)
  unfold divSize
  rw [if_neg (by omega), h1]
  congr 1
  have h2 : a.toNat / n ≤ a.toNat := Nat.div_le_self _ _
  have h3 := ha.2
  unfold toSigned
  rw [if_pos (by omega)]
  obtain ⟨m, rfl⟩ := Int.eq_ofNat_of_zero_le h0
  simp

/-- **C42, division by a count (partial).** Exact truncated division for times that are not negative, and for any
time divided by one. Missing: negative times, where it fails. -/
theorem C42_div_partial (a : Int) (n : Nat) (ha : InRange a) (hn : 0 < n) (h : 0 ≤ a ∨ n = 1) :
    divSize a n = .ok (a.tdiv n) := by
  rcases h with h | rfl
  · rw [divSize_nonneg a n h ha hn, Int.tdiv_eq_ediv_of_nonneg h]
  · by_cases h : 0 ≤ a
    · rw [divSize_nonneg a 1 h ha hn, Int.tdiv_eq_ediv_of_nonneg h]
    · have h1 : a % 2 ^ 64 = a + 2 ^ 64 := by
        rw [← Int.add_emod_right]
        exact Int.emod_eq_of_lt (by have := ha.1; omega) (by omega)
      simp only [divSize, h1, Nat.div_one, toSigned]
      have := ha.1
      rw [if_neg (by omega), if_neg (by omega)]
      simp
      omega

/-- **C42 is violated for every negative time.** Dividing by two or more gives a positive time. -/
theorem C42_div_violated (a : Int) (n : Nat) (ha : InRange a) (h : a < 0) (h2 : 2 ≤ n) (hn : n ≤ 2 ^ 63) :
    ∃ r, divSize a n = .ok r ∧ 0 < r ∧ a.tdiv n ≤ 0 := by
  have h1 : a % 2 ^ 64 = a + 2 ^ 64 := by
    rw [← Int.add_emod_right]
    exact Int.emod_eq_of_lt (by have := ha.1; omega) (by omega)
  have hlo := ha.1
  have hm : (a + 2 ^ 64).toNat / n ≤ (a + 2 ^ 64).toNat / 2 := Nat.div_le_div_left h2 (by omega)
  have hpos : 0 < (a + 2 ^ 64).toNat / n := Nat.div_pos (by omega) (by omega)
  refine ⟨((a + 2 ^ 64).toNat / n : Nat), ?_, by exact_mod_cast hpos, ?_⟩
  · unfold divSize
    rw [if_neg (by omega), h1]
    congr 1
    unfold toSigned
    rw [if_pos (by omega)]
  · have := Int.neg_tdiv (a := -a) (b := n)
    rw [neg_neg] at this
    rw [this]
    have : 0 ≤ (-a).tdiv n := Int.tdiv_nonneg (by omega) (by omega)
    omega

/-- Minus one second divided by two is about 292 years. -/
example : divSize (-1000000000) 2 = .ok 9223372036354775808 := by decide +kernel

/-- Division and multiplication by a signed integer are exact whenever representable. -/
theorem C42_div_int (a v : Int) (hv : v ≠ 0) (h : InRange (a.tdiv v)) : divInt a v = .ok (a.tdiv v) := by
  simp [divInt, hv, i64, h]

/-- The only quotient that is not representable is the lowest time divided by minus one. -/
theorem C42_div_int_undefined (a v : Int) (ha : InRange a) : divInt a v = .ub ↔ v = 0 ∨ (a = -2 ^ 63 ∧ v = -1) := by
  unfold divInt i64
  by_cases hv : v = 0
  · simp [hv]
  · simp only [hv, if_false, false_or]
    constructor
    · intro h
      split at h
      · cases h
      · next hr =>
        by_contra hc
        apply hr
        have habs : (a.tdiv v).natAbs = a.natAbs / v.natAbs := Int.natAbs_tdiv a v
        obtain ⟨h1, h2⟩ := ha
        by_cases hv1 : v.natAbs = 1
        · rw [hv1, Nat.div_one] at habs
          rcases Int.natAbs_eq v with e | e <;> rw [hv1] at e
          · have : a.tdiv v = a := by rw [e]; simp
            rw [this]; exact ⟨h1, h2⟩
          · have : a.tdiv v = -a := by rw [e]; simp
            rw [this]
            refine ⟨by omega, ?_⟩
            by_contra hlt
            exact hc ⟨by omega, by simpa using e⟩
        · have : a.natAbs / v.natAbs ≤ a.natAbs / 2 := Nat.div_le_div_left (by omega) (by omega)
          constructor <;> omega
    · rintro ⟨rfl, rfl⟩
      decide +kernel

/-- `distance` is the absolute difference, whenever representable. -/
theorem C42_distance (a b : Int) (h : InRange |a - b|) : distance a b = .ok |a - b| := by
  unfold distance sub i64
  rcases lt_or_ge b a with hab | hab
  · rw [abs_of_pos (by omega)] at h ⊢
    rw [if_pos hab, if_pos h]
  · rw [abs_of_nonpos (by omega), neg_sub] at h ⊢
    rw [if_neg (by omega), if_pos h]

/-- Conversion from a count that is not negative rounds to the nearest nanosecond, halves up. -/
theorem C42_from_nanoseconds (x : Rat) (hx : 0 ≤ x) (r : Int) (h : fromNanoseconds x = .ok r) :
    (r : Rat) - 1 / 2 ≤ x ∧ x < r + 1 / 2 := by
  have e0 : 0 ≤ x + 1 / 2 := by linarith
  simp only [fromNanoseconds, i64, trunc, if_pos e0] at h
  split at h <;> cases h
  have e : (x + 1 / 2).floor = ⌊x + 1 / 2⌋ := rfl
  rw [e]
  constructor
  · linarith [Int.floor_le (x + 1 / 2)]
  · linarith [Int.lt_floor_add_one (x + 1 / 2)]

/-- Beyond C42: conversion from a negative whole count is off by one, always. -/
theorem C42_from_negative_nanoseconds (n : Int) (hn : n < 0) (hr : InRange n) :
    fromNanoseconds (n : Rat) = .ok (n + 1) := by
  unfold fromNanoseconds trunc
  have hn' : (n : Rat) ≤ -1 := by exact_mod_cast (by omega : n ≤ -1)
  rw [if_neg (by linarith)]
  have e : (-((n : Rat) + 1 / 2)).floor = ⌊-((n : Rat) + 1 / 2)⌋ := rfl
  have : ⌊-((n : Rat) + 1 / 2)⌋ = -n - 1 := by
    rw [Int.floor_eq_iff]
    constructor <;> push_cast <;> linarith
  rw [e, this, show -(-n - 1) = n + 1 by ring]
  exact if_pos ⟨by have := hr.1; omega, by have := hr.2; omega⟩

/-- Minus one second becomes -999999999 nanoseconds. -/
example : fromSeconds (-1) = .ok (-999999999) := by decide +kernel

/-- Literals are exact as long as the number of nanoseconds is representable. -/
theorem C42_literal (factor n : Nat) (h : n * factor < 2 ^ 63) : literal factor n = n * factor := by
  unfold literal toSigned
  rw [Nat.mod_eq_of_lt (by omega), if_pos h]
  push_cast
  rfl

/-- Non-vacuity. -/
example : InRange (-5) ∧ (-5 : Int) < 0 ∧ InRange ((-7 : Int) + 3) := by decide
example : divSize 7 2 = .ok 3 ∧ divInt (-7) 2 = .ok (-3) := by decide +kernel

/-- The times are exactly the values of 64-bit signed integers. -/
theorem C42_range (x : Int) : InRange x ↔ ∃ b : BitVec 64, b.toInt = x := by
  constructor
  · rintro ⟨h1, h2⟩
    refine ⟨BitVec.ofInt 64 x, ?_⟩
    rw [BitVec.toInt_ofInt, Int.bmod_eq_of_le] <;> simp at * <;> omega
  · rintro ⟨b, rfl⟩
    have h1 := b.le_toInt
    have h2 := b.toInt_lt
    exact ⟨by simpa using h1, by simpa using h2⟩

/-- Conversion from a count of milliseconds or seconds that is not negative rounds to the nearest nanosecond, halves up. -/
theorem C42_from_units (x : Rat) (hx : 0 ≤ x) (r : Int) :
    (fromMilliseconds x = .ok r → (r : Rat) - 1 / 2 ≤ x * 10 ^ 6 ∧ x * 10 ^ 6 < r + 1 / 2) ∧
    (fromSeconds x = .ok r → (r : Rat) - 1 / 2 ≤ x * 10 ^ 9 ∧ x * 10 ^ 9 < r + 1 / 2) := by
  have h1 : fromMilliseconds x = fromNanoseconds (x * 10 ^ 6) := by unfold fromMilliseconds fromNanoseconds; norm_num
  have h2 : fromSeconds x = fromNanoseconds (x * 10 ^ 9) := by unfold fromSeconds fromNanoseconds; norm_num
  rw [h1, h2]
  exact ⟨C42_from_nanoseconds _ (by positivity) r, C42_from_nanoseconds _ (by positivity) r⟩

example : fromMilliseconds (3 / 2) = .ok 1500000 ∧ fromSeconds (1 / 3) = .ok 333333333 := by decide +kernel

end Xo
