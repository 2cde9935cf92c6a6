import Verif.Props.C141_TimeReal

/-!
C141: the whole seconds of a time, as they are shown in its text (C76), do not suffer from rounding.
-/
namespace Xo
namespace TimeReal
open Num (Fl Fmt binary32 binary64)
open Ieee
open Ieee.Spec (num OfType)

/-- The literal `1e-9` is rounded upwards, and so is `1e-6`. -/
theorem unit_up : (1 / 1000000000 : Rat) ≤ rq binary64 (1 / 1000000000) ∧ rq binary64 (1 / 1000000) ≤ (1 / 1000000 : Rat) := by
  constructor <;> decide +kernel

/-- **C141, whole seconds.** The number of seconds of a time of up to 2^49 nanoseconds, cut to a whole number, is the number of seconds that have
passed, neither more nor less, also for negative times. -/
theorem C141_whole_seconds {n : Int} (hn : |n| ≤ 2 ^ 49) : ∃ s m, seconds binary64 n = .fin s m ∧
    Time.trunc (val (.fin s m)) = n.tdiv 1000000000 := by
  have hr : Time.InRange n := by rw [abs_le] at hn; exact ⟨by omega, by omega⟩
  have key : ∀ k : Int, 0 ≤ k → k ≤ 2 ^ 49 → ((k / 1000000000 : Int) : Rat) ≤ rq binary64 (rq binary64 (1 / 1000000000) * k) ∧
      rq binary64 (rq binary64 (1 / 1000000000) * k) < ((k / 1000000000 : Int) : Rat) + 1 := by
    intro k h0 h1
    have hk0 : (0 : Rat) ≤ k := by exact_mod_cast h0
    have hk1 : (k : Rat) ≤ 2 ^ 49 := by exact_mod_cast h1
    have hd1 : ((k / 1000000000 : Int) : Rat) * 1000000000 ≤ k := by
      exact_mod_cast Int.ediv_mul_le k (by norm_num)
    have hd2 : (k : Rat) + 1 ≤ (((k / 1000000000 : Int) : Rat) + 1) * 1000000000 := by
      have : k + 1 ≤ (k / 1000000000 + 1) * 1000000000 := by omega
      exact_mod_cast this
    constructor
    · have e := rq_int (k / 1000000000) (by rw [abs_of_nonneg (by omega)]; omega)
      rw [← e]
      refine rq_mono ok64 ?_
      have := mul_le_mul_of_nonneg_right unit_up.1 hk0
      linarith
    · by_cases hz : k = 0
      · subst hz; norm_num [rq_zero]
      · have h1' : (1 : Rat) ≤ k := by exact_mod_cast (by omega : 1 ≤ k)
        have := close_pos (q := 1 / 1000000000) (by norm_num) h1'
        rw [rq_int k (by rw [abs_of_nonneg h0]; omega)] at this
        obtain ⟨-, h2⟩ := abs_le.1 this
        norm_num at *
        linarith
  obtain ⟨s, m, e, v⟩ := unit_val (q := 1 / 1000000000) (by norm_num) (by norm_num) hr
  rw [rq_int n (lt_of_le_of_lt hn (by norm_num))] at v
  have ht : OfType binary64 (.fin s m) := by rw [← e]; exact mul_ofType ok64 _ _
  obtain ⟨s1, m1, e1, v1⟩ := ofRat_finite (z := s) (x := val (.fin s m)) (f := binary64) (by rw [rq_val ht]; exact val_lt ht)
  rw [rq_val ht] at v1
  refine ⟨s1, m1, ?_, ?_⟩
  · unfold seconds toUnit; rw [e]; exact e1
  · rw [v1, v]
    rw [abs_le] at hn
    by_cases h0 : 0 ≤ n
    · obtain ⟨k1, k2⟩ := key n h0 hn.2
      rw [trunc_pos (by omega) k1 k2, Int.tdiv_eq_ediv_of_nonneg h0]
    · obtain ⟨k1, k2⟩ := key (-n) (by omega) (by omega)
      have e2 : rq binary64 (rq binary64 (1 / 1000000000) * n) = -rq binary64 (rq binary64 (1 / 1000000000) * (-n : Int)) := by
        push_cast; rw [mul_neg, rq_neg, neg_neg]
      rw [e2]
      generalize rq binary64 (rq binary64 (1 / 1000000000) * (-n : Int)) = x at *
      have e3 : n.tdiv 1000000000 = -(-n / 1000000000) := by
        rw [← Int.tdiv_eq_ediv_of_nonneg (by omega), Int.neg_tdiv, neg_neg]
      rw [e3]
      by_cases hx : x ≤ 0
      · have hk : (0 : Int) ≤ -n / 1000000000 := by omega
        have hkq : (0 : Rat) ≤ ((-n / 1000000000 : Int) : Rat) := by exact_mod_cast hk
        have hx0 : x = 0 := le_antisymm hx (hkq.trans k1)
        subst hx0
        have h00 : (-n / 1000000000 : Int) = 0 := by
          have : ((-n / 1000000000 : Int) : Rat) ≤ 0 := k1
          have : (-n / 1000000000 : Int) ≤ 0 := by exact_mod_cast this
          omega
        rw [h00]; decide
      · refine trunc_neg (by linarith) ?_ ?_
        · push_cast; push_cast at k2; linarith
        · push_cast; push_cast at k1; linarith

example : Time.trunc (val (seconds binary64 (-1999999999))) = -1 := by decide +kernel

end TimeReal
end Xo
