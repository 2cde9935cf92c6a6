import Verif.Props.C24_Quoting
import Verif.Props.C50_Piecewise
import Verif.Props.C53_Median
import Verif.Props.C83_Listings

/-!
More small functions of several properties (C24, C50, C53, C83) that were found by editing the model.
-/
namespace Xo

/-- **C24, characters beyond 127.** The number of a character is that of a signed type of eight bits. -/
theorem C24_signed (c : Char) (h : c.toNat < 256) : schar c = (BitVec.ofNat 8 c.toNat).toInt := by
  unfold schar
  rw [BitVec.toInt_eq_toNat_cond, BitVec.toNat_ofNat, Nat.mod_eq_of_lt h]
  by_cases hc : c.toNat < 128
  · rw [if_pos hc, if_pos (by omega)]
  · rw [if_neg hc, if_neg (by omega)]; rfl

/-- **C53, whole numbers.** The middle of two 32-bit numbers is half their sum, cut towards zero, whenever the sum is a 32-bit number, and has
no defined value otherwise. -/
theorem C53_int_middle (a b : Int) :
    (-2 ^ 31 ≤ a + b → a + b < 2 ^ 31 → Stats.middleInt a b = .ok ((a + b).tdiv 2)) ∧
    (a + b < -2 ^ 31 → Stats.middleInt a b = .ub) := by
  unfold Stats.middleInt
  exact ⟨fun h1 h2 => if_neg (by omega), fun h => if_pos (Or.inl h)⟩

/-- **C50, `lerp_precise`.** At one it gives the second value; elsewhere it misses the interpolated value by twice the part of the first one. -/
theorem C50_lerp_precise {K : Type} [Field K] [LinearOrder K] [IsStrictOrderedRing K] [FloorRing K] (v1 v2 t : K) :
    Interp.lerpPrecise v1 v2 1 = v2 ∧ Interp.lerpPrecise v1 v2 t = Interp.lerp v1 v2 t - 2 * ((1 - t) * v1) := by
  constructor <;> (simp only [Interp.lerpPrecise, Interp.lerp]; ring)

example : Stats.middleInt (-2 ^ 31) 5 = .ok (-1073741821) := by decide

end Xo
