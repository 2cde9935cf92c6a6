import Verif.Model.SignedRootFl
import Verif.Props.C161_Angles

/-!
C116: the signed root, with rounding.
-/
namespace Xo.RootFl
open Num (Fl Fmt binary32 binary64)
open Ieee Norm LongSum
open Ieee.Spec (OfType num IsNan)
open LongSum.Spec

/-- For numbers of the format the branch is chosen by the sign of the value. -/
theorem branch {s : Bool} {m : Rat} (h0 : 0 ≤ m) : le (ofNat 0) (.fin s m) = true ↔ (s = false ∨ m = 0) := by
  have e : le (ofNat 0) (.fin s m) = true ↔ 0 ≤ val (.fin s m) := by
    rw [le_iff (a := ofNat 0) (b := .fin s m) id id, show num (ofNat 0) = (((0 : Nat) : Rat) : WithTop Rat) from rfl, show num (.fin s m) = ((val (.fin s m) : Rat) : WithTop Rat) from rfl]
    norm_cast
  rw [e]
  cases s
  · exact ⟨fun _ => .inl rfl, fun _ => h0⟩
  · refine ⟨fun h => .inr ?_, fun h => ?_⟩
    · have h : 0 ≤ -m := h
      linarith
    · rcases h with h | h
      · cases h
      · show 0 ≤ -m
        linarith

/-- **C116, signed roots with rounding.** The signed root of a finite number is finite, and within one rounding of the number whose product with its own size is the argument. -/
theorem C116_signed_sqrt_rounded {f : Fmt} {v : Fl} (hv : Ieee.Spec.Finite v) (tv : OfType f v) :
    Ieee.Spec.Finite (signedSqrt f v) ∧ ∃ y : ℝ, y * |y| = (val v : ℝ) ∧ |(val (signedSqrt f v) : ℝ) - y| ≤ (roundoff f : ℝ) * |y| + (tiny f : ℝ) := by
  obtain ⟨s, m, rfl⟩ := finite_fin hv
  have m0 : 0 ≤ m := AngleFl.magnitude tv
  have t0 : (0 : ℝ) ≤ (tiny f : ℝ) := by exact_mod_cast (et_pos f).le
  unfold signedSqrt
  by_cases hm : m = 0
  · rw [if_pos ((branch m0).2 (.inr hm)), hm, show sqrt f (.fin s 0) = .fin s 0 by simp [sqrt], show val (.fin s 0) = 0 by cases s <;> simp [val]]
    exact ⟨trivial, 0, by simp, by simpa using t0⟩
  · have mp : 0 < m := lt_of_le_of_ne m0 (Ne.symm hm)
    have mp' : (0 : ℝ) < m := by exact_mod_cast mp
    have er : sqrt f (.fin false m) = .fin false (rootVal f m) := by simp [sqrt, hm]
    have ra := root_abs f mp
    have q : (roundoff f : ℝ) * Real.sqrt m + (tiny f : ℝ) = Real.sqrt m / 2 ^ f.prec + 2 ^ f.emin := by
      unfold roundoff tiny
      push_cast
      ring
    cases s
    · rw [if_pos ((branch m0).2 (.inl rfl)), er]
      refine ⟨trivial, Real.sqrt m, ?_, ?_⟩
      · rw [abs_of_nonneg (Real.sqrt_nonneg _), Real.mul_self_sqrt mp'.le]
        rfl
      · rw [abs_of_nonneg (Real.sqrt_nonneg (m : ℝ)), q]
        exact ra
    · rw [if_neg (fun h => by rcases (branch m0).1 h with h | h; cases h; exact hm h), show neg (.fin true m) = .fin false m from rfl, er]
      refine ⟨trivial, -Real.sqrt m, ?_, ?_⟩
      · rw [abs_neg, abs_of_nonneg (Real.sqrt_nonneg _), neg_mul, Real.mul_self_sqrt mp'.le, show val (.fin true m) = -m from rfl]
        push_cast
        rfl
      · rw [abs_neg, abs_of_nonneg (Real.sqrt_nonneg (m : ℝ)), q, show val (neg (.fin false (rootVal f m))) = -rootVal f m from rfl]
        push_cast
        rwa [neg_sub_neg, abs_sub_comm]

/-- **C116, signed roots are odd.** Numbers of opposite sign have roots of opposite sign and the same size. -/
theorem C116_signed_sqrt_odd {f : Fmt} {v : Fl} (hv : Ieee.Spec.Finite v) (tv : OfType f v) (h0 : val v ≠ 0) : signedSqrt f (neg v) = neg (signedSqrt f v) := by
  obtain ⟨s, m, rfl⟩ := finite_fin hv
  have m0 : 0 ≤ m := AngleFl.magnitude tv
  have hm : m ≠ 0 := fun h => h0 (by rw [h]; cases s <;> simp [val])
  unfold signedSqrt
  cases s
  · rw [if_pos ((branch m0).2 (.inl rfl)), show neg (.fin false m) = .fin true m from rfl, if_neg (fun h => by rcases (branch m0).1 h with h | h; cases h; exact hm h)]
    rfl
  · rw [show neg (.fin true m) = .fin false m from rfl, if_pos ((branch m0).2 (.inl rfl)), if_neg (fun h => by rcases (branch m0).1 h with h | h; cases h; exact hm h)]
    rw [show sqrt f (.fin false m) = .fin false (rootVal f m) by simp [sqrt, hm]]
    rfl

/-- The root of -2 as a `float`. -/
example : OfType binary32 (.fin true 2) ∧ signedSqrt binary32 (.fin true 2) = .fin true (11863283 / 2 ^ 23) ∧ signedSqrt binary32 (.fin true (9 / 4)) = .fin true (3 / 2) :=
  ⟨⟨2, 0, by decide +kernel, by decide +kernel, by decide +kernel, by norm_num⟩, by decide +kernel⟩

end Xo.RootFl
