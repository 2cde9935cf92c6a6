import Verif.Model.GeomReal
import Verif.Model.Range

/-!
Model of /repo/xo/numerical/functions.h, /repo/xo/numerical/function_tools.h, /repo/xo/geometry/angle_type.h,
/repo/xo/geometry/angle.h and /repo/xo/utility/arithmetic.h. Floating-point numbers are exact real (or rational) numbers;
the decimal constants of the code are kept as they are written.
-/
namespace Xo.Curves
open Real

/-- `fast_acos( x )` (functions.h:9-21), statement by statement; `half_pi` is exact. Dividing by zero gives an infinity:
`none`. -/
noncomputable def fastAcos (x : ℝ) : Option ℝ :=
  let a : ℝ := -0.939115566365855
  let b : ℝ := 0.9217841528914573
  let c : ℝ := -1.2845906244690837
  let d : ℝ := 0.295624144969963174
  let num := a * x
  let x2 := x * x
  let den := 1 + c * x2
  let x3 := x2 * x
  let num := num + b * x3
  let den := den + d * x3 * x
  if den = 0 then none else some (π / 2 + num / den)

/-- `minimum_jerk( x )` (functions.h:24-29). -/
def minimumJerk {K : Type} [Field K] (x : K) : K :=
  let x3 := x * x * x
  let x4 := x3 * x
  let x5 := x4 * x
  6 * x5 - 15 * x4 + 10 * x3

/-- `evaluate_function( f, range )` (function_tools.h:10-17): reserving room for a negative number of values is
undefined; the values of the range are those of C60. -/
def evaluate (f : Option Rat → Option Rat) (r : Range.FRange) (fuel : Nat) : Option (Res (List (Option Rat))) :=
  match r.size with
  | .ok _ => (r.visit fuel).map fun x => x.bind fun l => .ok (l.map f)
  | _ => some .ub

/-- `evaluate_function( f, begin, end, interval )` (function_tools.h:19-22). -/
def evaluateStep (f : Option Rat → Option Rat) (b e interval : Rat) (fuel : Nat) :
    Option (Res (List (Option Rat))) :=
  evaluate f (Range.FRange.ofIncrement b e interval) fuel

/-- `angle_unit` (angle_type.h:12-13). -/
inductive AUnit | degrees | radians
  deriving DecidableEq

/-- `angle_<U, T>` (angle_type.h:13-68) with the member `value` of `arithmetic` (arithmetic.h:43). -/
structure Angle (u : AUnit) where
  value : ℝ

namespace Angle
variable {u : AUnit}

/-- `deg_value()` (angle_type.h:34, 60). -/
noncomputable def degValue : {u : AUnit} → Angle u → ℝ
  | .degrees, a => a.value
  | .radians, a => 57.295779513082320877 * a.value
/-- `rad_value()` (angle_type.h:35, 61). -/
noncomputable def radValue : {u : AUnit} → Angle u → ℝ
  | .degrees, a => 0.017453292519943295769 * a.value
  | .radians, a => a.value
/-- The converting constructor (angle_type.h:23-24, 49-50). -/
noncomputable def conv (w : AUnit) (a : Angle u) : Angle w :=
  match w with
  | .degrees => ⟨a.degValue⟩
  | .radians => ⟨a.radValue⟩

/-- `operator+`, `operator+=` (arithmetic.h:20, 22). -/
noncomputable def add (a b : Angle u) : Angle u := ⟨a.value + b.value⟩
/-- `operator-`, `operator-=` (arithmetic.h:21, 23). -/
noncomputable def sub (a b : Angle u) : Angle u := ⟨a.value - b.value⟩
/-- Unary `operator-` (arithmetic.h:26). -/
noncomputable def neg (a : Angle u) : Angle u := ⟨-a.value⟩
/-- `operator*`, `operator*=` by a number (arithmetic.h:13, 16, 47-48). -/
noncomputable def smul (s : ℝ) (a : Angle u) : Angle u := ⟨s * a.value⟩
/-- `operator*` of two angles (arithmetic.h:15): an angle whose value is the product. -/
noncomputable def mul (a b : Angle u) : Angle u := ⟨a.value * b.value⟩
/-- `operator/`, `operator/=` by a number (arithmetic.h:14, 17); dividing by zero gives an infinity or NaN. -/
noncomputable def divS (a : Angle u) (s : ℝ) : Option (Angle u) :=
  open Classical in if s = 0 then none else some ⟨a.value / s⟩
/-- `abs` (arithmetic.h:55-56). -/
noncomputable def abs (a : Angle u) : Angle u :=
  open Classical in ⟨if a.value < 0 then -a.value else a.value⟩
/-- `operator<` (arithmetic.h:30). -/
def lt (a b : Angle u) : Prop := a.value < b.value
/-- `operator<=` (arithmetic.h:32). -/
def le (a b : Angle u) : Prop := a.value ≤ b.value

/-- `sin`, `cos`, `tan` of an angle (angle.h:11-13). -/
noncomputable def sin (a : Angle u) : ℝ := Real.sin a.radValue
/-- `cos` (angle.h:12). -/
noncomputable def cos (a : Angle u) : ℝ := Real.cos a.radValue
/-- `tan` (angle.h:13). -/
noncomputable def tan (a : Angle u) : ℝ := Real.tan a.radValue
/-- `acos` of an angle (angle.h:15): the arc cosine of the angle's measure in radians, not of a ratio. -/
noncomputable def acos (a : Angle u) : ℝ := Real.arccos a.radValue

end Angle
end Xo.Curves
