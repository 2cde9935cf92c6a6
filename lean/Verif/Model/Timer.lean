import Verif.Model.Basic

/-!
Model of /repo/xo/time/timer.cpp and /repo/xo/time/stopwatch.{h,cpp}. A tick is a nanosecond (`high_resolution_clock`
of the platform modelled, timer.cpp:62-76), so converting between ticks and times changes nothing. Every operation is
given the clock reading it makes. Overflow (after about 292 years) is not modelled;
clocks with other ticks are in Model/Ticks.lean.
-/
namespace Xo
namespace Timer

/-- `timer( start )` (timer.cpp:79-81): the value of `epoch_`. -/
def new (start : Bool) (now : Int) : Int := if start then now else 0

/-- `operator()` (timer.cpp:83-87). -/
def elapsed (epoch now : Int) : Int := if epoch > 0 then now - epoch else -epoch

/-- `is_running` (timer.h:18). -/
def isRunning (epoch : Int) : Bool := epoch > 0

/-- `restart` (timer.cpp:89-94): the new `epoch_` and the result. -/
def restart (epoch now : Int) : Int × Int := (now, now - epoch)

/-- `set` (timer.cpp:96-102). -/
def set (epoch now t : Int) : Int := if isRunning epoch then now - t else -t

/-- `pause` (timer.cpp:109-114). -/
def pause (epoch now : Int) : Int × Int := (-(now - epoch), -(-(now - epoch)))

/-- `resume` (timer.cpp:116-119). -/
def resume (epoch now : Int) : Int := now + epoch

/-- The operations of a timer. -/
inductive Op where
  | pause
  | resume
  | restart
  | set (t : Int)
  deriving DecidableEq

/-- One operation, with the clock reading: the new `epoch_`, and the result if there is one. -/
def step (epoch now : Int) : Op → Int × Option Int
  | .pause => ((pause epoch now).1, some (pause epoch now).2)
  | .resume => (resume epoch now, none)
  | .restart => ((restart epoch now).1, some (restart epoch now).2)
  | .set t => (set epoch now t, none)

/-- A history: the final `epoch_` and the results. -/
def run (epoch : Int) : List (Int × Op) → Int × List (Option Int)
  | [] => (epoch, [])
  | (now, o) :: h => ((run (step epoch now o).1 h).1, (step epoch now o).2 :: (run (step epoch now o).1 h).2)

end Timer

namespace Stopwatch

/-- `stopwatch` (stopwatch.h:49-52). -/
structure State where
  epoch : Int
  current : Nat
  times : List Int
  names : List String
  deriving DecidableEq

/-- `stopwatch()` (stopwatch.h:13); its timer is started. -/
def new (now : Int) : State := ⟨Timer.new true now, 0, [], []⟩

/-- `restart` (stopwatch.h:16). -/
def restart (s : State) (now : Int) : State := { s with current := 0, epoch := (Timer.restart s.epoch now).1 }

/-- `split` (stopwatch.h:19-26). -/
def split (s : State) (now : Int) (name : String) : State :=
  let r := Timer.restart s.epoch now
  if s.current ≥ s.times.length then
    ⟨r.1, s.current + 1, s.times ++ [r.2], s.names ++ [name]⟩
  else { s with epoch := r.1, current := s.current + 1, times := s.times.modify s.current (· + r.2) }

/-- `clear` (stopwatch.h:38-43). -/
def clear (s : State) (now : Int) : State := ⟨(Timer.restart s.epoch now).1, 0, [], []⟩

/-- The operations of a stopwatch. -/
inductive Op where
  | split (name : String)
  | restart
  | clear
  deriving DecidableEq

def step (s : State) (now : Int) : Op → State
  | .split name => split s now name
  | .restart => restart s now
  | .clear => clear s now

def run (s : State) (h : List (Int × Op)) : State := h.foldl (fun s x => step s x.1 x.2) s

/-- `pn[ key ] = value` on a list of keys and values: the first child with the key, or a new one. -/
def setOrAdd (l : List (String × Int)) (key : String) (v : Int) : List (String × Int) :=
  match l.findIdx? (fun x => x.1 == key) with
  | some i => l.set i (key, v)
  | none => l ++ [(key, v)]

/-- `get_report` (stopwatch.cpp:8-22): keys and times; the formatting of the times is not modelled. -/
def report (s : State) : List (String × Int) := setOrAdd (s.names.zip s.times) "TOTAL" s.times.sum

end Stopwatch
end Xo
