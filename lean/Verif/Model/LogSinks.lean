import Verif.Model.Log
import Verif.Model.StrTools

/-!
What the sinks of a log write: `stream_sink`, `console_sink` and `file_sink` (/repo/xo/system/log_sink.cpp:68-149), the prefix
(/repo/xo/system/log_format.h:18-25), and the text of a message (/repo/xo/system/log.h:36-48, /repo/xo/system/log.cpp:27-35). The time in a prefix is
given with each message. The colours of Windows consoles are not modelled.
-/
namespace Xo.LogOut
open Xo Log

/-- `level_names_short` (/repo/xo/system/log_level.h:18-20). -/
def levelName (l : Level) : Str := match l.val with
  | 1 => "TRC".toList
  | 2 => "DBG".toList
  | 3 => "INF".toList
  | 4 => "WRN".toList
  | 5 => "ERR".toList
  | 6 => "CRT".toList
  | _ => []

/-- `format_flags` (log_format.h:12-16). -/
structure Format where
  showTime : Bool
  showLevel : Bool

/-- `get_log_prefix` (log_format.h:18-25). `time` is the text that `get_date_time_str` gives. -/
def pre (f : Format) (time : Str) (l : Level) : Str :=
  (if f.showTime then time else []) ++ (if f.showLevel then levelName l ++ [' '] else [])

/-- `log_string( l, s, args... )` (log.h:36-39): the texts of all arguments. -/
def messageText : List Str → Str
  | [] => []
  | a :: as => a ++ messageText as

/-- `log_vstring` (log.cpp:27-35): what `vsnprintf` puts into a buffer of 1024 characters. -/
def formatted (text : Str) : Str := text.take 1023

/-- What is given to the stream, with one `<<` for each: `stream_sink::hande_log_message` (log_sink.cpp:73-78). -/
def streamParts (time msg : Str) : List Str := [time, msg, ['\n']]

/-- `console_sink::hande_log_message` (log_sink.cpp:89-135). -/
def consoleParts (f : Format) (time : Str) (l : Level) (msg : Str) : List Str :=
  (splitStr msg "\r\n".toList).flatMap fun line => [pre f time l, line, ['\n']]

/-! ### The console, used by several threads

All messages are written while `g_console_mutex` is held (log_sink.cpp:21, 94). -/

/-- The text on the console, who holds the mutex with what is still to be written, and the messages (as parts) that each thread is going to
write. -/
structure Con where
  out : Str
  holder : Option (Nat × List Str)
  todo : Nat → List (List Str)

/-- Thread `t` runs until the next point where another one may run: it takes the mutex, writes one part, or gives the mutex back; or it has to wait. -/
def Con.step (c : Con) (t : Nat) : Con :=
  match c.holder with
  | none => match c.todo t with
    | [] => c
    | m :: ms => { c with holder := some (t, m), todo := fun u => if u = t then ms else c.todo u }
  | some (u, ps) =>
    if u = t then match ps with
      | [] => { c with holder := none }
      | p :: ps => { c with out := c.out ++ p, holder := some (t, ps) }
    else c

def Con.run (c : Con) : List Nat → Con
  | [] => c
  | t :: ts => (c.step t).run ts

/-! ### Another stream, used by several threads

`stream_sink` and `file_sink` take no mutex, and the lock of `log_string` (log.cpp:22) is shared. Two calls of `<<` at the same time on a stream other than
`std::cout` are undefined. -/

/-- The text of the stream, which threads are inside a call of `<<` with which text, and the parts that each thread is going to write. -/
structure Raw where
  out : Str
  inside : Nat → Option Str
  todo : Nat → List Str

/-- Thread `t` begins or ends a call of `<<`. `others` tells whether another thread is inside one. -/
def Raw.step (r : Raw) (others : Bool) (t : Nat) : Res Raw :=
  match r.inside t with
  | some p => .ok { r with out := r.out ++ p, inside := fun u => if u = t then none else r.inside u }
  | none => match r.todo t with
    | [] => .ok r
    | p :: ps => if others then .ub else .ok { r with inside := (fun u => if u = t then some p else r.inside u), todo := fun u => if u = t then ps else r.todo u }

/-- Some threads numbered below `n`. -/
def Raw.busy (r : Raw) (n t : Nat) : Bool := (List.range n).any fun u => u ≠ t && (r.inside u).isSome

def Raw.run (r : Raw) (n : Nat) : List Nat → Res Raw
  | [] => .ok r
  | t :: ts => (r.step (r.busy n t) t).bind fun r => r.run n ts

/-! ### Files -/

/-- `file_sink` (log_sink.cpp:137-149): the stream is good, and what was written. -/
structure FileSink where
  good : Bool
  out : Str

/-- The constructor (log_sink.cpp:137-143). `opens` : the file can be opened. -/
def FileSink.make (opens : Bool) : FileSink := ⟨opens, []⟩

/-- `file_sink::hande_log_message` (log_sink.cpp:145-149). `room` : how many characters the disk takes; then the stream is no longer good. -/
def FileSink.handle (s : FileSink) (room : Nat) (time msg : Str) : FileSink :=
  if s.good then
    let text := (streamParts time msg).flatten
    ⟨decide (text.length ≤ room), s.out ++ text.take room⟩
  else s

/-! ### The life of a sink

The base class enters the sink into the list of all sinks before the rest of the object exists (log_sink.cpp:23-30, 68-71, 137-143), and takes it away
after the rest was destroyed (log_sink.cpp:32-35). -/

/-- Which parts of the object exist. -/
inductive Life where
  | none
  /-- only the base class, which is in the list of sinks -/
  | base
  | whole
  deriving DecidableEq

/-- What happens to a sink: its constructors, its destructors, and a message of another thread that it accepts. -/
inductive LifeOp where
  | makeBase
  | makeRest
  | endRest
  | endBase
  | message (text : Str)

/-- A message is a call of a virtual function that the base class does not have. -/
def lifeStep (s : Life × Str) : LifeOp → Res (Life × Str)
  | .makeBase => if s.1 = .none then .ok (.base, []) else .ub
  | .makeRest => if s.1 = .base then .ok (.whole, s.2) else .ub
  | .endRest => if s.1 = .whole then .ok (.base, s.2) else .ub
  | .endBase => if s.1 = .base then .ok (.none, s.2) else .ub
  | .message text => match s.1 with
    | .none => .ok s
    | .base => .ub
    | .whole => .ok (.whole, s.2 ++ text)

def lifeRun (s : Life × Str) : List LifeOp → Res (Life × Str)
  | [] => .ok s
  | o :: os => (lifeStep s o).bind fun s => lifeRun s os

end Xo.LogOut
