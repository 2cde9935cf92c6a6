import Mathlib.Data.Rat.Defs
import Mathlib.Algebra.Order.Field.Rat
import Mathlib.Algebra.Order.Group.Unbundled.Abs

/-! Decimal and binary numbers of limited precision, independent of the model. -/
namespace Xo
namespace Spec

/-- `d` can be written with at most `n` significant decimal digits. -/
def Decimal (n : Nat) (d : Rat) : Prop := ∃ m k : Int, |m| < 10 ^ n ∧ d = m * 10 ^ k

/-- `x` is the magnitude of a finite binary floating-point number with `prec` bits, whose last bit is worth at least
`2 ^ emin` and at most `2 ^ (emax - prec)`. -/
def Binary (prec : Nat) (emin emax : Int) (x : Rat) : Prop :=
  ∃ (m : Nat) (e : Int), m < 2 ^ prec ∧ emin ≤ e ∧ e ≤ emax - prec ∧ x = m * 2 ^ e

end Spec
end Xo
