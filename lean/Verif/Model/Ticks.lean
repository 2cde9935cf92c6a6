import Verif.Model.Timer
import Verif.Model.Math

/-!
The clocks of the Windows platform (/repo/xo/time/timer.cpp:29-60, 79-119 and the deprecated /repo/xo/time/deprecated/timer_v1.{h,cpp}): ticks of a counter with
some frequency, given by the system, are converted into nanoseconds with numbers of 64 bits, whose overflow is undefined. The frequency and the readings of the
counter are parameters.
-/
namespace Xo.Tick

/-- Is a `long long`. -/
def ok64 (x : Int) : Prop := -2 ^ 63 ≤ x ∧ x < 2 ^ 63

instance (x : Int) : Decidable (ok64 x) := inferInstanceAs (Decidable (_ ∧ _))

/-- A product of two numbers of type `long long`. -/
def mul (a b : Int) : Res Int := if ok64 (a * b) then .ok (a * b) else .ub

/-- A difference. -/
def sub (a b : Int) : Res Int := if ok64 (a - b) then .ok (a - b) else .ub

/-- `get_time_from_ticks_factor` (timer.cpp:37-42, math.h:162-165), for a frequency that is not zero. -/
def factor (freq : Nat) : Int × Int :=
  (((1000000000 / Math.gcdUnsigned 1000000000 freq : Nat) : Int), ((freq / Math.gcdUnsigned 1000000000 freq : Nat) : Int))

/-- `get_time_from_ticks` (timer.cpp:53-56): nanoseconds. -/
def timeFromTicks (freq : Nat) (ticks : Int) : Res Int := (mul ticks (factor freq).1).bind fun x => .ok (x.tdiv (factor freq).2)

/-- `get_ticks_from_time` (timer.cpp:57-60). -/
def ticksFromTime (freq : Nat) (ns : Int) : Res Int := (mul ns (factor freq).2).bind fun x => .ok (x.tdiv (factor freq).1)

/-- `timer::operator()` (timer.cpp:83-87), with the reading of the counter. -/
def shown (freq : Nat) (epoch now : Int) : Res Int :=
  (if epoch > 0 then sub now epoch else sub 0 epoch).bind fun t => timeFromTicks freq t

/-- `timer::set` (timer.cpp:96-102): the new `epoch_`. -/
def set (freq : Nat) (epoch now ns : Int) : Res Int :=
  (ticksFromTime freq ns).bind fun t => if epoch > 0 then sub now t else sub 0 t

/-- `timer::pause` (timer.cpp:109-114): the new `epoch_` and the result. -/
def pause (freq : Nat) (epoch now : Int) : Res (Int × Int) :=
  (sub now epoch).bind fun d => (sub 0 d).bind fun e => (timeFromTicks freq d).bind fun t => .ok (e, t)

/-- `timer::tick_count` (timer.cpp:104-107). -/
def tickCount (epoch now : Int) : Res Int := sub now epoch

/-- The clock of `timer_v1` (timer_v1.cpp:29-33): nanoseconds since the start of the program. -/
def nowV1 (freq : Nat) (start now : Int) : Res Int := (sub now start).bind fun c => (mul c 1000000000).bind fun x => .ok (x.tdiv freq)

/-- `timer_v1::nanoseconds` (timer_v1.h:39, 44), for the reading at its creation and the one now. -/
def nanosV1 (freq : Nat) (start created now : Int) : Res Int :=
  (nowV1 freq start now).bind fun b => (nowV1 freq start created).bind fun a => sub b a

end Xo.Tick
