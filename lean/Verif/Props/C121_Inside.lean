import Verif.Lemmas.IeeeLerp
import Verif.Props.C121_Rounding

/-!
# C121: interpolation with rounding never leaves the two values before the parameter one
-/
namespace Xo
namespace Ieee
open Num Spec

variable {f : Fmt}

namespace Spec
/-- A finite number between two others, in whichever order these are. -/
def Between (a b v : Fl) : Prop := Finite v ∧ ((num a ≤ num v ∧ num v ≤ num b) ∨ (num b ≤ num v ∧ num v ≤ num a))
end Spec

/-- The sum of a value and a part of a rounded difference. -/
theorem inside (hf : f.Ok) {s t : Bool} {x y : Rat} (ha : OfType f (.fin s x)) (hb : OfType f (.fin t y))
    {r : Bool} {m : Rat} (hs : sub f (.fin t y) (.fin s x) = .fin r m) {w : Rat} (hw : 0 ≤ w)
    (hw1 : w * 2 ^ f.prec ≤ 2 ^ f.prec - 1) (z : Bool) :
    Between (.fin s x) (.fin t y) (add f (.fin s x) (ofRat f z (w * val (.fin r m)))) := by
  have hfin : Finite (sub f (.fin t y) (.fin s x)) := by rw [hs]; trivial
  obtain ⟨r', m', e1, v1⟩ := sub_finite hfin
  rw [hs] at e1
  cases e1
  have hd : OfType f (.fin r m) := by rw [← hs]; exact add_ofType hf _ _
  have hp2 : (0 : Rat) < 2 ^ f.prec := by positivity
  have hw2 : w ≤ 1 := by
    by_contra hc
    rw [not_le] at hc
    have := mul_lt_mul_of_pos_right hc hp2
    linarith
  have hself := rq_val hd
  have hbig := val_lt hd
  have hsmall : |rq f (w * val (.fin r m))| < 2 ^ f.emax := by
    refine lt_of_le_of_lt ?_ hbig
    rcases le_total 0 (val (.fin r m)) with h | h
    · rw [abs_of_nonneg h, abs_of_nonneg (rq_nonneg (mul_nonneg hw h))]
      conv_rhs => rw [← hself]
      refine rq_mono hf ?_
      have := mul_le_mul_of_nonneg_right hw2 h
      linarith
    · have h' : 0 ≤ -val (.fin r m) := by linarith
      rw [show w * val (.fin r m) = -(w * -val (.fin r m)) by ring, rq_neg, abs_neg,
        abs_of_nonneg (rq_nonneg (mul_nonneg hw h')), abs_of_nonpos h]
      have e2 : -val (.fin r m) = rq f (-val (.fin r m)) := by rw [rq_neg, hself]
      conv_rhs => rw [e2]
      refine rq_mono hf ?_
      have := mul_le_mul_of_nonneg_right hw2 h'
      linarith
  obtain ⟨s2, m2, e2, v2⟩ := ofRat_finite (z := z) hsmall
  rw [e2]
  have hcore : (val (.fin s x) ≤ rq f (val (.fin s x) + val (.fin s2 m2)) ∧
        rq f (val (.fin s x) + val (.fin s2 m2)) ≤ val (.fin t y)) ∨
      (val (.fin t y) ≤ rq f (val (.fin s x) + val (.fin s2 m2)) ∧
        rq f (val (.fin s x) + val (.fin s2 m2)) ≤ val (.fin s x)) := by
    rw [v2, v1]
    rcases le_total (val (.fin s x)) (val (.fin t y)) with h | h
    · exact .inl (lerp_core hf ha hb h hw hw1)
    · exact .inr (lerp_core_down hf ha hb h hw hw1)
  have hx := abs_lt.1 (val_lt ha)
  have hy := abs_lt.1 (val_lt hb)
  have hm : |rq f (val (.fin s x) + val (.fin s2 m2))| < 2 ^ f.emax := by
    rw [abs_lt]
    rcases hcore with h | h <;> constructor <;> linarith
  obtain ⟨s3, m3, e3, v3⟩ := ofRat_finite (z := s && s2) hm
  have e4 : add f (.fin s x) (.fin s2 m2) = .fin s3 m3 := e3
  rw [e4]
  rw [← v3] at hcore
  refine ⟨trivial, ?_⟩
  simp only [num_fin, WithBot.coe_le_coe, WithTop.coe_le_coe]
  exact hcore

/-- **C121, interpolation below one.** If the difference of two finite numbers is not too big for the type, then every
parameter from zero to below one gives a finite number between them, although the difference is rounded. -/
theorem C121_lerp_inside (hf : f.Ok) {s t : Bool} {x y : Rat} (ha : OfType f (.fin s x)) (hb : OfType f (.fin t y))
    (hd : Finite (sub f (.fin t y) (.fin s x))) {p : Bool} {u : Rat} (hp : OfType f (.fin p u))
    (h0 : 0 ≤ val (.fin p u)) (h1 : val (.fin p u) < 1) :
    Between (.fin s x) (.fin t y) (lerp f (.fin s x) (.fin t y) (.fin p u)) := by
  obtain ⟨r, m, e1, -⟩ := sub_finite hd
  unfold lerp
  rw [e1]
  exact inside hf ha hb e1 h0 (below_one hf hp h1) _

/-- The hypotheses are met by the two values of `C121_lerp_violated`, and by the last parameter before one. -/
example : sub binary32 (.fin false 3) (.fin true 16777216) = .fin false 16777220 ∧
    lerp binary32 (.fin true 16777216) (.fin false 3) (.fin false (1 - 1 / 2 ^ 24)) = .fin false 2 ∧
    OfType binary32 (.fin false (1 - 1 / 2 ^ 24)) ∧ OfType binary32 (.fin true 16777216) := by
  refine ⟨by decide +kernel, by decide +kernel, ⟨2 ^ 24 - 1, -24, ?_, ?_, ?_, ?_⟩, ⟨1, 24, ?_, ?_, ?_, ?_⟩⟩ <;> norm_num [binary32]

end Ieee
end Xo
