import Verif.Model.Ieee
import Verif.Model.Time

/-!
Times and floating-point numbers (/repo/xo/time/time.h), with rounding. A `time` is a whole number of nanoseconds. (Model/Time.lean has the
conversions in exact arithmetic.)
-/
namespace Xo
namespace TimeReal
open Num (Fl Fmt binary32 binary64)
open Ieee

/-- A whole number as a floating-point number. -/
def ofInt (f : Fmt) (n : Int) : Fl := ofRat f false n

/-- A number of one format in another one (`static_cast<T>`). -/
def conv (f : Fmt) : Fl → Fl
  | .fin s m => ofRat f s (val (.fin s m))
  | v => v

/-- `storage_t( v )`: towards zero; a number out of the range of `long long` has no defined result. -/
def toStorage : Fl → Res Int
  | .fin s m => Time.i64 (Time.trunc (val (.fin s m)))
  | _ => .ub

/-- `seconds<T>()`, `milliseconds<T>()` (time.h:14-19) : `unit` is 1e-9 or 1e-6. -/
def toUnit (f : Fmt) (unit : Rat) (n : Int) : Fl := conv f (mul binary64 (ofRat binary64 false unit) (ofInt binary64 n))

/-- `seconds<T>()` (time.h:14-16). -/
def seconds (f : Fmt) (n : Int) : Fl := toUnit f (1 / 1000000000) n

/-- `milliseconds<T>()` (time.h:17-19). -/
def milliseconds (f : Fmt) (n : Int) : Fl := toUnit f (1 / 1000000) n

/-- `nanosecondsd()` (time.h:21). -/
def nanosecondsd (n : Int) : Fl := ofInt binary64 n

/-- `time_from_seconds`, `time_from_milliseconds` (time.h:52-53) : `k` is 1e9 or 1e6. -/
def fromUnit (k : Rat) (s : Fl) : Res Int :=
  toStorage (add binary64 (mul binary64 (conv binary64 s) (ofRat binary64 false k)) (ofRat binary64 false (1 / 2)))

/-- `time_from_seconds` (time.h:52). -/
def fromSeconds (s : Fl) : Res Int := fromUnit 1000000000 s

/-- `time_from_milliseconds` (time.h:53). -/
def fromMilliseconds (s : Fl) : Res Int := fromUnit 1000000 s

/-- `time_from_nanoseconds` (time.h:54). -/
def fromNanoseconds (s : Fl) : Res Int := toStorage (add binary64 (conv binary64 s) (ofRat binary64 false (1 / 2)))

/-- `operator*( T )` with a floating-point type (time.h:43) : the time is converted to that type. -/
def times (f : Fmt) (n : Int) (v : Fl) : Res Int := toStorage (mul f (ofInt f n) v)

/-- `operator/( T )` with a floating-point type (time.h:42). -/
def over (f : Fmt) (n : Int) (v : Fl) : Res Int := toStorage (div f (ofInt f n) v)

/-- `operator/( time )` (time.h:39). -/
def ratio (a b : Int) : Fl := div binary64 (ofInt binary64 a) (ofInt binary64 b)

end TimeReal
end Xo
