import Verif.Model.Basic
import Mathlib.Algebra.Order.Floor.Ring
import Mathlib.Algebra.Order.Field.Basic
import Mathlib.Algebra.Order.Round

/-!
Model of /repo/xo/numerical/math.h. Floating-point values are elements of an ordered field with `floor`, without rounding;
`none` is NaN. `sqrt`, `tanh` and `pow` are in Model/NumFns.lean.
-/
namespace Xo
namespace Math

section Integers

/-- `is_power_of_two` of an unsigned `w`-bit integer (math.h:63-64). -/
def isPowerOfTwo {w : Nat} (v : BitVec w) : Bool := v != 0#w && (v &&& (v - 1#w)) == 0#w

/-- `is_power_of_two` of a signed `w`-bit integer (math.h:63-64); `v - 1` of the smallest one overflows. -/
def isPowerOfTwoSigned {w : Nat} (v : BitVec w) : Res Bool :=
  if v = 0#w then .ok false
  else if v = BitVec.intMin w then .ub
  else .ok ((v &&& (v - 1#w)) == 0#w)

/-- `count_digits` (math.h:73-75). With base 0 the loop does not end: `none`. -/
def countDigits (value base : Nat) : Option Nat :=
  if base = 0 then none
  else if _h : value ≥ base then (countDigits (value / 10) base).map (· + 1)
  else some 1
termination_by value
decreasing_by exact Nat.div_lt_self (by omega) (by omega)

/-- `greatest_common_divisor` of unsigned integers (math.h:161-165). -/
def gcdUnsigned (p q : Nat) : Nat :=
  if _h : q = 0 then p else gcdUnsigned q (p % q)
termination_by q
decreasing_by exact Nat.mod_lt _ (by omega)

/-- `greatest_common_divisor` of signed `w`-bit integers (math.h:161-165): `%` truncates; the smallest integer divided
by -1 overflows. -/
def gcdSigned (w : Nat) (p q : Int) : Res Int :=
  if _h : q = 0 then .ok p
  else if p = -(2 ^ (w - 1)) ∧ q = -1 then .ub
  else gcdSigned w q (p.tmod q)
termination_by q.natAbs
decreasing_by
  rw [Int.natAbs_tmod]
  exact Nat.mod_lt _ (by omega)

end Integers

section Reals
variable {K : Type} [Field K] [LinearOrder K] [FloorRing K]

/-- `clamp`, `clamped` (math.h:85-92). -/
def clamp (v lower upper : K) : K := if v < lower then lower else if v > upper then upper else v

/-- `limit_transform` (math.h:95-96). -/
def limitTransform (x limit : K) : K := limit - limit * limit / (x + limit)

/-- `soft_clamp` (math.h:98-104), for a boundary with which nothing is divided by zero. -/
def softClamp (v mn mx boundary : K) : K :=
  let r := boundary * (mx - mn)
  if v > mx - r then mx - r + limitTransform (v - mx + r) r
  else if v < mn + r then mn + r - limitTransform (mn + r - v) r
  else v

/-- Rounding towards zero. -/
def trunc (x : K) : ℤ := if 0 ≤ x then ⌊x⌋ else ⌈x⌉

/-- `std::fmod`, called in math.h:130, 131, 142, 152: the remainder has the sign of `x`; NaN when `y` is 0. -/
def fmod (x y : K) : Option K := if y = 0 then none else some (x - trunc (x / y) * y)

/-- `wrap`, `wrapped` (math.h:127-135). -/
def wrap (v lower upper : K) : Option K :=
  if v - lower ≥ 0 then (fmod (v - lower) (upper - lower)).map (· + lower)
  else (fmod (v - lower) (upper - lower)).map (· + upper)

/-- `pos_mod` (math.h:150-153). -/
def posMod (x y : K) : Option K := (fmod x y).map (· + (if x < 0 then 1 else 0) * y)

/-- `square_wave` (math.h:140-143). -/
def squareWave (v : K) : Option K := (fmod v 2).map fun m => if m < 1 then 1 else 0

/-- `triangle_wave( v )` (math.h:145-148). -/
def triangleWave (v : K) : K := 2 * |v / 2 - ⌊v / 2 + 1 / 2⌋|

/-- `triangle_wave( v, l, u )` (math.h:155-159). -/
def triangleWaveIn (v l u : K) : Option K := (posMod (v - u) (2 * (u - l))).map fun m => |m - (u - l)| + l

/-- `std::round` (math.h:79): halves away from zero. -/
def roundC (x : K) : ℤ := if 0 ≤ x then ⌊x + 1 / 2⌋ else ⌈x - 1 / 2⌉

/-- `float_to_byte` (math.h:119-121). -/
def floatToByte (v : K) : ℤ := roundC (clamp v 0 1 * 255)

end Reals
end Math
end Xo
