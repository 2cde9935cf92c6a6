import Verif.Model.Math
import Mathlib.Analysis.Complex.Trigonometric
import Mathlib.Analysis.Real.Sqrt

/-!
Model of the functions of numbers in /repo/xo/numerical/math.h that Model/Math.lean leaves out. Floating-point values are
elements of an ordered field, without rounding; integers have a width `w`.
-/
namespace Xo
namespace NumF

section Field
variable {K : Type} [Field K] [LinearOrder K]

/-- `min` (math.h:9). -/
def min2 (a b : K) : K := if a < b then a else b

/-- `min` of three (math.h:10). -/
def min3 (a b c : K) : K := min2 a (min2 b c)

/-- `max` (math.h:13). -/
def max2 (a b : K) : K := if a < b then b else a

/-- `max` of three (math.h:14). -/
def max3 (a b c : K) : K := max2 a (max2 b c)

/-- `abs` of a floating-point number (math.h:17). -/
def abs (v : K) : K := if v < 0 then -v else v

/-- `power< E >` for `E ≥ 0` (math.h:35-38). -/
def powerNat (base : K) : Nat → K
  | 0 => 1
  | 1 => base
  | n + 2 => base * powerNat base (n + 1)

/-- `power< E >` (math.h:34-40), for a floating-point type. -/
def power (base : K) : Int → K
  | .ofNat n => powerNat base n
  | .negSucc n => 1 / powerNat base (n + 1)

/-- `midpoint` (math.h:43), for a floating-point type. -/
def midpoint (v1 v2 : K) : K := v1 + (v2 - v1) / 2

/-- `sign` (math.h:46). -/
def sign (v : K) : K := if v ≥ 0 then 1 else -1

/-- `signum` (math.h:49): a difference of two Booleans. -/
def signum (v : K) : Int := (if 0 < v then 1 else 0) - (if v < 0 then 1 else 0)

/-- `same_sign` (math.h:52). -/
def sameSign (v1 v2 : K) : Bool := signum v1 == signum v2

/-- `set_if_different` (math.h:61): the new value, and what is returned. -/
def setIfDifferent (value other : K) : K × Bool := if other = value then (value, false) else (other, true)

/-- `is_between` (math.h:138). -/
def isBetween (v mn mx : K) : Bool := decide (v ≥ mn) && decide (v ≤ mx)

/-- `is_whole` (math.h:71). -/
def isWhole [FloorRing K] (v : K) : Bool := decide ((⌊v⌋ : K) = v)

/-- `round_decimals` (math.h:82-83). -/
def roundDecimals [FloorRing K] (value : K) (decimals : Int) : K :=
  let f := (10 : K) ^ decimals
  (Math.roundC (value * f) : K) / f

/-- `intersect_y` (polynomial.h:39) of a line. -/
def intersectY (offset slope y : K) : K := (y - offset) / slope

end Field

section Integers

/-- The values of a signed `w`-bit integer. -/
def InRange (w : Nat) (v : Int) : Prop := -2 ^ (w - 1) ≤ v ∧ v < 2 ^ (w - 1)

instance (w : Nat) (v : Int) : Decidable (InRange w v) := inferInstanceAs (Decidable (_ ∧ _))

/-- `abs` of a signed integer (math.h:17); overflow is undefined. -/
def absSigned (w : Nat) (v : Int) : Res Int :=
  if v < 0 then (if InRange w (-v) then .ok (-v) else .ub) else .ok v

/-- `midpoint` of signed integers (math.h:43), of a type that is not promoted. -/
def midpointSigned (w : Nat) (v1 v2 : Int) : Res Int :=
  if InRange w (v2 - v1) then
    (if InRange w (v1 + (v2 - v1).tdiv 2) then .ok (v1 + (v2 - v1).tdiv 2) else .ub)
  else .ub

/-- `midpoint` of unsigned integers (math.h:43), of a type that is not promoted: the difference wraps. -/
def midpointUnsigned (w : Nat) (v1 v2 : Nat) : Nat := (v1 + ((v2 + 2 ^ w - v1) % 2 ^ w) / 2) % 2 ^ w

/-- `is_even` (math.h:67). -/
def isEven {w : Nat} (v : BitVec w) : Bool := (v &&& 1#w) == 0#w

/-- `is_odd` (math.h:68). -/
def isOdd {w : Nat} (v : BitVec w) : Bool := (v &&& 1#w) == 1#w

/-- `get_byte` of an unsigned integer (math.h:124-125); a shift by at least the width is undefined. -/
def getByte {w : Nat} (value : BitVec w) (start : Int) : Res (BitVec w) :=
  if 0 ≤ start ∧ start < w then .ok ((value >>> start.toNat) &&& 255#w) else .ub

end Integers

section Reals

/-- `invsqrt` (math.h:23). -/
noncomputable def invSqrt (v : ℝ) : ℝ := 1 / Real.sqrt v

/-- `signed_sqrt` (math.h:26). -/
noncomputable def signedSqrt (v : ℝ) : ℝ := if v ≥ 0 then Real.sqrt v else -Real.sqrt (-v)

/-- `smooth_clamped` (math.h:110-117). With `lb = min` the code divides by zero: `tanh` of minus infinity is -1, times
zero; here `tanh 0` times zero, with the same result. -/
noncomputable def smoothClamped (v mn mx lb ub : ℝ) : ℝ :=
  if v < lb then (lb - mn) * Real.tanh ((v - lb) / (lb - mn)) + lb
  else if v > ub then (mx - ub) * Real.tanh ((v - ub) / (mx - ub)) + ub
  else v

end Reals
end NumF
end Xo
