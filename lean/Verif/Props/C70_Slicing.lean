import Verif.Lemmas.Str

/-!
C70: slicing. The length of a string fits 63 bits and the requested length fits an `int`.
-/
namespace Xo

/-- **C70.** `left_str` is total: the first `n` characters, or all but the last `-n`. -/
theorem C70_left (s : Str) (n : Int) :
    leftStr s n = .ok (if 0 ≤ n then s.take n.toNat else s.take (s.length - n.natAbs)) := by
  unfold leftStr
  by_cases h : n ≥ 0
  · rw [if_pos h, if_pos h, substr_ok (by omega)]; simp
  · rw [if_neg h, if_neg h, substr_ok (by omega)]
    simp only [List.drop_zero]
    congr 2
    omega

/-- **C70 (partial: lengths within the string).** `right_str` gives the last `n` characters, or all but the first `-n`. -/
theorem C70_right_partial (s : Str) (n : Int) (hs : s.length < 2 ^ 63) (hn : n.natAbs ≤ s.length) :
    rightStr s n = .ok (if 0 ≤ n then s.drop (s.length - n.toNat) else s.drop n.natAbs) := by
  unfold rightStr
  by_cases h : n ≥ 0
  · have : (((s.length : Int) - n) % 2 ^ 64).toNat = s.length - n.toNat := by omega
    rw [if_pos h, if_pos h, this, substr_ok (by omega)]
  · have : (-n).toNat = n.natAbs := by omega
    rw [if_neg h, if_neg h, this, substr_ok (by omega)]

/-- **C70 is violated**: `right_str` throws for every length beyond the string, of either sign. -/
theorem C70_right_violated (s : Str) (n : Int) (hs : s.length < 2 ^ 63) (hi : -2 ^ 31 ≤ n ∧ n < 2 ^ 31)
    (hn : s.length < n.natAbs) : rightStr s n = .err := by
  unfold rightStr substr
  by_cases h : n ≥ 0
  · have : (((s.length : Int) - n) % 2 ^ 64).toNat > s.length := by omega
    rw [if_pos h, if_pos this]
  · rw [if_neg h, if_pos (by omega)]

/-- **C70.** `mid_str` gives `n` characters from `pos`, fewer at the end of the string; it throws exactly for a position
beyond the end. -/
theorem C70_mid (s : Str) (pos : Nat) (n : Option Nat) :
    midStr s pos n = if pos ≤ s.length then .ok (match n with | some n => (s.drop pos).take n | none => s.drop pos)
      else .err := by
  unfold midStr
  split
  · next h => exact substr_ok h
  · next h => unfold substr; rw [if_pos (by omega)]

/-- **C70.** Left and right parts of complementary lengths make up the string. -/
theorem C70_left_right (s : Str) (n : Nat) (hs : s.length < 2 ^ 63) (hn : n ≤ s.length) :
    ∃ a b, leftStr s n = .ok a ∧ rightStr s ((s.length : Int) - n) = .ok b ∧ a ++ b = s ∧ a.length = n := by
  refine ⟨s.take n, s.drop n, ?_, ?_, List.take_append_drop n s, by simp; omega⟩
  · rw [C70_left]; simp
  · rw [C70_right_partial s _ hs (by omega), if_pos (by omega)]
    congr 2
    omega

example : leftStr "hello".toList 2 = .ok "he".toList ∧ leftStr "hello".toList (-2) = .ok "hel".toList ∧
    rightStr "hello".toList 2 = .ok "lo".toList ∧ rightStr "hello".toList 6 = .err ∧
    midStr "hello".toList 1 (some 3) = .ok "ell".toList := by decide +kernel

end Xo
