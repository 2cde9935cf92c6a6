import Verif.Model.NumText
import Mathlib.Order.WithBot
import Mathlib.Data.Rat.Floor

/-!
Functions of /repo/xo/numerical/math.h, bounds.h, compare.h and interpolation.h, for floating-point numbers as they are: with
rounding, infinities, zeros with a sign, and NaN. The operations are those of IEEE 754, rounding to nearest, ties to even;
they belong to the platform, not to xo. The sign of a NaN is not observed.
(Model/Math.lean and Model/NumFns.lean have the same functions in exact arithmetic.)
-/
namespace Xo
namespace Ieee
open Num (Fl Fmt)

/-! ## The operations of the platform -/

/-- The value of a finite number. -/
def val : Fl → Rat
  | .fin s m => if s then -m else m
  | _ => 0

/-- `-v`. -/
def neg : Fl → Fl
  | .nan s => .nan (!s)
  | .inf s => .inf (!s)
  | .fin s m => .fin (!s) m

/-- A number rounded to the format; `z` is the sign of a zero. -/
def ofRat (f : Fmt) (z : Bool) (x : Rat) : Fl := if x = 0 then .fin z 0 else Num.roundFl f (decide (x < 0)) |x|

/-- `a + b`. -/
def add (f : Fmt) : Fl → Fl → Fl
  | .nan s, _ => .nan s
  | _, .nan s => .nan s
  | .inf s, .inf t => if s = t then .inf s else .nan false
  | .inf s, .fin _ _ => .inf s
  | .fin _ _, .inf t => .inf t
  | .fin s x, .fin t y => ofRat f (s && t) (val (.fin s x) + val (.fin t y))

/-- `a - b`. -/
def sub (f : Fmt) (a b : Fl) : Fl := add f a (neg b)

/-- `a * b`. -/
def mul (f : Fmt) : Fl → Fl → Fl
  | .nan s, _ => .nan s
  | _, .nan s => .nan s
  | .inf s, .inf t => .inf (s != t)
  | .inf s, .fin t y => if y = 0 then .nan false else .inf (s != t)
  | .fin s x, .inf t => if x = 0 then .nan false else .inf (s != t)
  | .fin s x, .fin t y => ofRat f (s != t) (val (.fin s x) * val (.fin t y))

/-- `a / b`. -/
def div (f : Fmt) : Fl → Fl → Fl
  | .nan s, _ => .nan s
  | _, .nan s => .nan s
  | .inf _, .inf _ => .nan false
  | .inf s, .fin t _ => .inf (s != t)
  | .fin s _, .inf t => .fin (s != t) 0
  | .fin s x, .fin t y =>
    if y = 0 then (if x = 0 then .nan false else .inf (s != t)) else ofRat f (s != t) (val (.fin s x) / val (.fin t y))

/-- `a < b`. -/
def lt : Fl → Fl → Bool
  | .nan _, _ => false
  | _, .nan _ => false
  | .inf s, .inf t => s && !t
  | .inf s, .fin _ _ => s
  | .fin _ _, .inf t => !t
  | .fin s x, .fin t y => decide (val (.fin s x) < val (.fin t y))

/-- `a == b`. -/
def eq : Fl → Fl → Bool
  | .inf s, .inf t => s == t
  | .fin s x, .fin t y => decide (val (.fin s x) = val (.fin t y))
  | _, _ => false

/-- `a <= b`. -/
def le (a b : Fl) : Bool := lt a b || eq a b

/-- The numbers 0, 1, 2, ... of a format. -/
def ofNat (n : Nat) : Fl := .fin false n

/-- The largest finite number of a format, `numeric_limits< T >::max()`. -/
def maxVal (f : Fmt) : Rat := (2 ^ f.prec - 1) * 2 ^ (f.emax - f.prec)

/-- `std::fmod`: exact, with the sign of `a`. -/
def fmod : Fl → Fl → Fl
  | .nan s, _ => .nan s
  | _, .nan s => .nan s
  | .inf _, _ => .nan false
  | .fin s x, .inf _ => .fin s x
  | .fin s x, .fin _ y => if y = 0 then .nan false else .fin s (x - ⌊x / y⌋ * y)

/-! ## Functions of xo -/

/-- `min` (math.h:9). -/
def min2 (a b : Fl) : Fl := if lt a b then a else b

/-- `max` (math.h:13). -/
def max2 (a b : Fl) : Fl := if lt a b then b else a

/-- `abs` (math.h:17). -/
def abs (v : Fl) : Fl := if lt v (ofNat 0) then neg v else v

/-- `sign` (math.h:46): 1 or -1. -/
def sign (v : Fl) : Int := if le (ofNat 0) v then 1 else -1

/-- `signum` (math.h:49). -/
def signum (v : Fl) : Int := (if lt (ofNat 0) v then 1 else 0) - (if lt v (ofNat 0) then 1 else 0)

/-- `same_sign` (math.h:52). -/
def sameSign (a b : Fl) : Bool := signum a == signum b

/-- `set_if_smaller` (math.h:55): the new value. -/
def setIfSmaller (value other : Fl) : Fl := if lt other value then other else value

/-- `set_if_bigger` (math.h:58): the new value. -/
def setIfBigger (value other : Fl) : Fl := if lt value other then other else value

/-- `set_if_different` (math.h:61). -/
def setIfDifferent (value other : Fl) : Fl × Bool := if eq other value then (value, false) else (other, true)

/-- `clamp`, `clamped` (math.h:86-93). -/
def clamp (v lower upper : Fl) : Fl := if lt v lower then lower else if lt upper v then upper else v

/-- `is_between` (math.h:138). -/
def isBetween (v mn mx : Fl) : Bool := le mn v && le v mx

/-- `bounds` (bounds.h:12-17). -/
structure Bounds where
  lower : Fl
  upper : Fl
  deriving DecidableEq

/-- `bounds::is_within` (bounds.h:19). -/
def Bounds.isWithin (b : Bounds) (v : Fl) : Bool := le b.lower v && le v b.upper

/-- `bounds::extend` (bounds.h:36). -/
def Bounds.extend (b : Bounds) (v : Fl) : Bounds := ⟨min2 b.lower v, max2 b.upper v⟩

/-- `bounds::center` (bounds.h:21). -/
def Bounds.center (f : Fmt) (b : Bounds) : Fl := mul f (.fin false (1 / 2)) (add f b.lower b.upper)

/-- `equal` (compare.h:10-11). -/
def equal (f : Fmt) (a b e : Fl) : Bool := le (abs (sub f a b)) (mul f (abs a) e)

/-- `midpoint` (math.h:43). -/
def midpoint (f : Fmt) (a b : Fl) : Fl := add f a (div f (sub f b a) (ofNat 2))

/-- `lerp` (interpolation.h:9-11). -/
def lerp (f : Fmt) (a b t : Fl) : Fl := add f a (mul f t (sub f b a))

/-- The mean of the two values in the middle (container_algorithms.h:123). -/
def middle (f : Fmt) (a b : Fl) : Fl := div f (add f a b) (ofNat 2)

/-- `wrap`, `wrapped` (math.h:128-135). -/
def wrap (f : Fmt) (v lower upper : Fl) : Fl :=
  if le (ofNat 0) (sub f v lower) then add f (fmod (sub f v lower) (sub f upper lower)) lower
  else add f (fmod (sub f v lower) (sub f upper lower)) upper

/-- `pos_mod` (math.h:151-153): `T( x < 0 )` is 1 or 0. -/
def posMod (f : Fmt) (x y : Fl) : Fl := add f (fmod x y) (mul f (ofNat (if lt x (ofNat 0) then 1 else 0)) y)

/-- `accumulate` (container_algorithms.h:13-18). -/
def accumulate (f : Fmt) (vs : List Fl) (init : Fl) : Fl := vs.foldl (add f) init

/-- `average` of a container (container_algorithms.h:38-42, 50-53), of at most 2^prec values: `e - b` becomes a
floating-point number. -/
def average (f : Fmt) (vs : List Fl) : Res Fl :=
  if vs = [] then .err else .ok (div f (accumulate f vs (ofNat 0)) (ofNat vs.length))

end Ieee
end Xo
