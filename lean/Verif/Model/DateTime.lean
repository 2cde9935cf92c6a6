import Verif.Model.Bounded

/-!
`date_time` (/repo/xo/time/deprecated/date_time.h, /repo/xo/time/deprecated/date_time.cpp). The day of the week is left out: nothing reads it.
-/
namespace Xo.DateTime

/-- The fields (date_time.h:10-17). The months start with zero. The bounded fields are whole numbers; `Bnd` has their setters. -/
structure Stamp where
  year : Int
  month : Int
  day : Int
  hour : Int
  minute : Int
  second : Int
  millisecond : Int
  deriving DecidableEq

/-- `uint64( x )` of an `int`. -/
def u64 (x : Int) : Nat := (x % 2 ^ 64).toNat

/-- `timestamp()` (date_time.cpp:5-15), modulo 2^64; `uint64( day ) - 1` wraps for zero. -/
def timestamp (d : Stamp) : Nat :=
  (u64 d.year * 12 * 31 * 24 * 60 * 60 * 1000 + u64 d.month * 31 * 24 * 60 * 60 * 1000 + ((u64 d.day + (2 ^ 64 - 1)) % 2 ^ 64) * 24 * 60 * 60 * 1000 +
    u64 d.hour * 60 * 60 * 1000 + u64 d.minute * 60 * 1000 + u64 d.second * 1000 + u64 d.millisecond) % 2 ^ 64

/-- `a < b` (date_time.h:22-24). -/
def less (a b : Stamp) : Bool := timestamp a < timestamp b

end Xo.DateTime
