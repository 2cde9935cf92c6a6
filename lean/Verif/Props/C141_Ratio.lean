import Verif.Props.C141_TimeReal

/-!
C141: the ratio of two times.
-/
namespace Xo
namespace TimeReal
open Num (Fl Fmt binary64)
open Ieee
open Ieee.Spec (num OfType)

theorem quotient_pos {x y : Rat} (hx : 1 ≤ x) (hy : 1 ≤ y) (hy2 : y ≤ 2 ^ 63) :
    |rq binary64 (rq binary64 x / rq binary64 y) - x / y| ≤ x / y / 2 ^ 51 ∧ 0 < rq binary64 y := by
  have tiny : (2 : Rat) ^ (binary64.emin + binary64.prec - 1) ≤ 1 / 2 ^ 70 := by
    show (2 : Rat) ^ (-1074 + 53 - 1 : Int) ≤ 1 / 2 ^ 70
    rw [one_div, ← zpow_natCast, ← zpow_neg]
    exact zpow_le_zpow_right₀ (by norm_num) (by norm_num)
  have hp : (2 : Rat) ^ binary64.prec = 2 ^ 53 := rfl
  have hN := rq_err (f := binary64) (x := x) (tiny.trans (le_trans (by norm_num) hx))
  have hM := rq_err (f := binary64) (x := y) (tiny.trans (le_trans (by norm_num) hy))
  rw [hp] at hM hN
  generalize rq binary64 y = M at *
  generalize rq binary64 x = N at *
  obtain ⟨m1, m2⟩ := abs_le.1 hM
  obtain ⟨n1, n2⟩ := abs_le.1 hN
  have hM0 : y * (1 - 1 / 2 ^ 53) ≤ M := by linarith
  have hM1 : M ≤ y * (1 + 1 / 2 ^ 53) := by linarith
  have hMp : 0 < M := lt_of_lt_of_le (mul_pos (by linarith) (by norm_num)) hM0
  have hy0 : (0 : Rat) < y := by linarith
  have up : N / M ≤ x / y * (1 + 5 / 2 ^ 54) := by
    rw [div_le_iff₀ hMp]
    have h1 : x / y * (1 + 5 / 2 ^ 54) * (y * (1 - 1 / 2 ^ 53)) ≤ x / y * (1 + 5 / 2 ^ 54) * M :=
      mul_le_mul_of_nonneg_left hM0 (by positivity)
    have h2 : x / y * (1 + 5 / 2 ^ 54) * (y * (1 - 1 / 2 ^ 53)) = x * ((1 + 5 / 2 ^ 54) * (1 - 1 / 2 ^ 53)) := by field_simp
    rw [h2] at h1
    refine le_trans ?_ h1
    norm_num at *
    linarith
  have lo : x / y * (1 - 2 / 2 ^ 53) ≤ N / M := by
    rw [le_div_iff₀ hMp]
    have h1 : x / y * (1 - 2 / 2 ^ 53) * M ≤ x / y * (1 - 2 / 2 ^ 53) * (y * (1 + 1 / 2 ^ 53)) :=
      mul_le_mul_of_nonneg_left hM1 (mul_nonneg (by positivity) (by norm_num))
    have h2 : x / y * (1 - 2 / 2 ^ 53) * (y * (1 + 1 / 2 ^ 53)) = x * ((1 - 2 / 2 ^ 53) * (1 + 1 / 2 ^ 53)) := by field_simp
    rw [h2] at h1
    refine le_trans h1 ?_
    norm_num at *
    linarith
  have hxy : 1 / 2 ^ 63 ≤ x / y := div_le_div₀ (by linarith) hx hy0 hy2
  refine ⟨?_, hMp⟩
  generalize x / y = P at *
  have hq : 1 / 2 ^ 64 ≤ N / M := le_trans (by norm_num at *; linarith) lo
  have hr := rq_err (f := binary64) (x := N / M) (tiny.trans (le_trans (by norm_num) hq))
  rw [hp] at hr
  obtain ⟨r1, r2⟩ := abs_le.1 hr
  rw [abs_le]
  norm_num at *
  constructor <;> linarith

/-- **C141, ratio.** The ratio of two times is exact up to one part in 2^51, and the ratio of a time with itself is one. -/
theorem C141_ratio {a b : Int} (ha : Time.InRange a) (hb : Time.InRange b) (h0 : b ≠ 0) :
    ∃ s m, ratio a b = .fin s m ∧ |val (.fin s m) - a / b| ≤ |(a : Rat) / b| / 2 ^ 51 ∧ (a = b → val (.fin s m) = 1) := by
  have bound : ∀ n : Int, Time.InRange n → |(n : Rat)| ≤ 2 ^ 63 := fun n hn => by
    have h1 : (-2 ^ 63 : Rat) ≤ n := by exact_mod_cast hn.1
    have h2 : (n : Rat) ≤ 2 ^ 63 := by exact_mod_cast hn.2.le
    exact abs_le.2 ⟨h1, h2⟩
  obtain ⟨s1, m1, e1, v1, t1⟩ := round (z := false) ((bound a ha).trans (by norm_num) : |(a : Rat)| ≤ 2 ^ 100)
  obtain ⟨s2, m2, e2, v2, t2⟩ := round (z := false) ((bound b hb).trans (by norm_num) : |(b : Rat)| ≤ 2 ^ 100)
  -- the quotient of the rounded numbers
  have key : rq binary64 b ≠ 0 ∧ |rq binary64 (rq binary64 a / rq binary64 b) - a / b| ≤ |(a : Rat) / b| / 2 ^ 51 := by
    have pos : ∀ x y : Rat, 0 ≤ x → (x = 0 ∨ 1 ≤ x) → 1 ≤ y → y ≤ 2 ^ 63 → 0 < rq binary64 y ∧
        |rq binary64 (rq binary64 x / rq binary64 y) - x / y| ≤ x / y / 2 ^ 51 := by
      intro x y hx0 hx hy hy2
      rcases hx with rfl | hx
      · refine ⟨(quotient_pos (le_refl 1) hy hy2).2, ?_⟩
        simp [rq_zero]
      · exact ⟨(quotient_pos hx hy hy2).2, (quotient_pos hx hy hy2).1⟩
    have hbb : 1 ≤ |(b : Rat)| := by exact_mod_cast Int.one_le_abs h0
    have haa : |(a : Rat)| = 0 ∨ 1 ≤ |(a : Rat)| := by
      by_cases h : a = 0
      · left; simp [h]
      · right; exact_mod_cast Int.one_le_abs h
    obtain ⟨p1, p2⟩ := pos |(a : Rat)| |(b : Rat)| (abs_nonneg _) haa hbb (bound b hb)
    have sg : ∀ x : Rat, rq binary64 |x| = rq binary64 x ∧ |x| = x ∨ rq binary64 |x| = -rq binary64 x ∧ |x| = -x := fun x => by
      rcases abs_choice x with h | h
      · left; exact ⟨by rw [h], h⟩
      · right; exact ⟨by rw [h, rq_neg], h⟩
    have habs : |(a : Rat) / b| = |(a : Rat)| / |(b : Rat)| := abs_div _ _
    rw [habs]
    rcases sg a with ⟨ra, ea⟩ | ⟨ra, ea⟩ <;> rcases sg b with ⟨rb, eb⟩ | ⟨rb, eb⟩ <;> rw [rb] at p1 <;>
      refine ⟨fun h => by rw [h] at p1; norm_num at p1, ?_⟩ <;> refine le_trans (le_of_eq ?_) p2 <;> rw [ra, rb, ea, eb]
    · rw [div_neg, div_neg, rq_neg, ← abs_neg]; congr 1; ring
    · rw [neg_div, neg_div, rq_neg, ← abs_neg]; congr 1; ring
    · rw [neg_div_neg_eq, neg_div_neg_eq]
  have hm2 : m2 ≠ 0 := by
    intro h
    rw [h] at v2
    apply key.1
    rw [← v2]; cases s2 <;> simp [val]
  have ed : ratio a b = ofRat binary64 (s1 != s2) (rq binary64 a / rq binary64 b) := by
    unfold ratio ofInt
    rw [e1, e2, ← v1, ← v2]
    exact if_neg hm2
  have hq : |rq binary64 (rq binary64 a / rq binary64 b)| < 2 ^ binary64.emax := by
    have h1 : |(a : Rat) / b| ≤ 2 ^ 63 := by
      rw [abs_div]
      have hbb : 1 ≤ |(b : Rat)| := by exact_mod_cast Int.one_le_abs h0
      exact (div_le_self (abs_nonneg _) hbb).trans (bound a ha)
    have h2 := key.2
    have h3 : |rq binary64 (rq binary64 a / rq binary64 b)| ≤ |rq binary64 (rq binary64 a / rq binary64 b) - a / b| + |(a : Rat) / b| := by
      have := abs_add_le (rq binary64 (rq binary64 a / rq binary64 b) - a / b) ((a : Rat) / b)
      rwa [sub_add_cancel] at this
    have h4 : |(a : Rat) / b| / 2 ^ 51 ≤ |(a : Rat) / b| := div_le_self (abs_nonneg _) (by norm_num)
    refine lt_of_le_of_lt (show _ ≤ (2 : Rat) ^ 64 by linarith [show (2 : Rat) ^ 64 = 2 ^ 63 + 2 ^ 63 by norm_num]) ?_
    show (2 : Rat) ^ 64 < 2 ^ (1024 : Int)
    rw [← zpow_natCast]; exact zpow_lt_zpow_right₀ (by norm_num) (by norm_num)
  obtain ⟨s, m, e, v⟩ := ofRat_finite (z := s1 != s2) hq
  refine ⟨s, m, by rw [ed, e], by rw [v]; exact key.2, fun hab => ?_⟩
  rw [v, hab, div_self key.1]
  have := rq_int 1 (by norm_num)
  rwa [Int.cast_one] at this

example : ratio 3000000000 2000000000 = .fin false (3 / 2) := by decide +kernel

end TimeReal
end Xo
