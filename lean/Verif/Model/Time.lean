import Verif.Model.Basic

/-!
Model of /repo/xo/time/time.h and /repo/xo/time/interval_checker.h. A `time` is its `internal_`: a whole number of
nanoseconds in a 64-bit `long long`. Signed overflow is undefined.
-/
namespace Xo
namespace Time

/-- The values of `long long`. -/
def InRange (x : Int) : Prop := -2 ^ 63 ≤ x ∧ x < 2 ^ 63

instance (x : Int) : Decidable (InRange x) := inferInstanceAs (Decidable (_ ∧ _))

/-- The result of a signed operation. -/
def i64 (x : Int) : Res Int := if InRange x then .ok x else .ub

/-- `operator-()` (time.h:30). -/
def neg (a : Int) : Res Int := i64 (-a)

/-- `operator-( time )` and `-=` (time.h:31, 34). -/
def sub (a b : Int) : Res Int := i64 (a - b)

/-- `operator+( time )` and `+=` (time.h:32, 35). -/
def add (a b : Int) : Res Int := i64 (a + b)

/-- Conversion of `unsigned long long` to `long long` (modulo 2^64). -/
def toSigned (u : Nat) : Int := if u < 2 ^ 63 then u else (u : Int) - 2 ^ 64

/-- `operator/( size_t )` and `/=` (time.h:33, 36). `internal_ / n` converts `internal_` to `size_t` (modulo 2^64),
divides there, and converts the quotient back. Dividing by zero is undefined. -/
def divSize (a : Int) (n : Nat) : Res Int := if n = 0 then .ub else .ok (toSigned ((a % 2 ^ 64).toNat / n))

/-- `operator/( T )` with a signed integer `T` (time.h:42). -/
def divInt (a v : Int) : Res Int := if v = 0 then .ub else i64 (a.tdiv v)

/-- `operator*( T )` with a signed integer `T` (time.h:43). -/
def mulInt (a v : Int) : Res Int := i64 (a * v)

/-- `distance` (time.h:56). -/
def distance (a b : Int) : Res Int := if a > b then sub a b else sub b a

/-- Truncation towards zero of a floating-point number (`storage_t( x )`). Floating-point numbers are exact. -/
def trunc (x : Rat) : Int := if 0 ≤ x then x.floor else -((-x).floor)

/-- `time_from_nanoseconds` (time.h:54). -/
def fromNanoseconds (s : Rat) : Res Int := i64 (trunc (s + 1 / 2))

/-- `time_from_milliseconds` (time.h:53). -/
def fromMilliseconds (s : Rat) : Res Int := i64 (trunc (s * 1000000 + 1 / 2))

/-- `time_from_seconds` (time.h:52). -/
def fromSeconds (s : Rat) : Res Int := i64 (trunc (s * 1000000000 + 1 / 2))

/-- A literal with a factor (time.h:59-65): the product is taken modulo 2^64. -/
def literal (factor n : Nat) : Int := toSigned (n * factor % 2 ^ 64)

/-- `interval_checker` (interval_checker.h:9, 18-19). -/
structure Checker where
  interval : Int
  previous : Int
  deriving DecidableEq

/-- `interval_checker( interval )` (interval_checker.h:9). -/
def Checker.new (interval : Int) : Checker := ⟨interval, 0⟩

/-- `check( t )` (interval_checker.h:10-16). -/
def Checker.check (c : Checker) (t : Int) : Res (Checker × Bool) :=
  (sub t c.previous).bind fun d =>
    if d ≥ c.interval then .ok ({ c with previous := t }, true) else .ok (c, false)

/-- A sequence of checks: the answers. -/
def Checker.run (c : Checker) : List Int → Res (List Bool)
  | [] => .ok []
  | t :: ts => (c.check t).bind fun r => (r.1.run ts).bind fun l => .ok (r.2 :: l)

end Time
end Xo
