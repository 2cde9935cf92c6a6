import Verif.Props.C91_StorageText
import Verif.Props.C129_Hsv

/-!
Small functions of C91 and C129 that were found by editing the model: an edit of each of them left the other theorems provable.
-/
namespace Xo

/-- **C91, blanks.** What is skipped in front of a label or a value are the six blank characters, no other ones. -/
theorem C91_blank (c : Char) : c ∈ StoText.blanks ↔ c.toNat = 32 ∨ (9 ≤ c.toNat ∧ c.toNat ≤ 13) := by
  have h : ∀ (n : Nat) (d : Char), d.toNat = n → (c = d ↔ c.toNat = n) := by
    intro n d hd
    rw [← hd]
    exact ⟨fun e => by rw [e], fun e => Char.ext (UInt32.toNat_inj.1 e)⟩
  simp only [StoText.blanks, List.mem_cons, List.not_mem_nil, or_false, h 32 ' ' rfl, h 9 '\t' rfl, h 13 '\r' rfl, h 10 '\n' rfl,
    h 12 (Char.ofNat 12) rfl, h 11 (Char.ofNat 11) rfl]
  omega

/-- **C129, rounding down.** The largest whole number that is not larger; zero keeps its sign. -/
theorem C129_floor (s : Bool) (m : Rat) : ∃ t k, ColNode.floorFl (.fin s m) = .fin t k ∧ 0 ≤ k ∧
    Ieee.val (.fin t k) = ⌊Ieee.val (.fin s m)⌋ ∧ (k = 0 → t = s) := by
  refine ⟨_, _, rfl, abs_nonneg _, ?_, ?_⟩
  · rcases lt_trichotomy ⌊Ieee.val (.fin s m)⌋ 0 with h | h | h
    · have k1 : ((⌊Ieee.val (.fin s m)⌋ : Int) : Rat) < 0 := by exact_mod_cast h
      rw [decide_eq_true h, Bool.true_or, abs_of_neg k1]
      simp [Ieee.val]
    · rw [h]; cases s <;> simp [Ieee.val]
    · have k1 : (0 : Rat) ≤ ((⌊Ieee.val (.fin s m)⌋ : Int) : Rat) := by exact_mod_cast h.le
      rw [decide_eq_false (not_lt.2 h.le), decide_eq_false h.ne', Bool.and_false, Bool.or_false, abs_of_nonneg k1]
      simp [Ieee.val]
  · intro h
    have : ⌊Ieee.val (.fin s m)⌋ = 0 := by
      have := abs_eq_zero.1 h
      exact_mod_cast this
    simp [this]

example : ColNode.floorFl (.fin true (1 / 2)) = .fin true 1 := by decide +kernel

end Xo
