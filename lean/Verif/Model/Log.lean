import Verif.Model.Basic

/-!
Model of /repo/xo/system/log.{h,cpp} and of class `sink` of /repo/xo/system/log_sink.{h,cpp}: which sinks a message
reaches. Sinks and threads are numbered. Not modelled: what the sinks do with a message, sinks that override
`test_log_level` or `get_log_level`, the compile-time level `XO_STATIC_LOG_LEVEL`.
-/
namespace Xo
namespace Log

/-- `level` (/repo/xo/system/log_level.h:7-16): 0 is `always`, 7 is `never`. -/
abbrev Level := Fin 8

/-- `level::never`. -/
def never : Level := 7

/-- The members of `sink` that decide what it accepts (log_sink.h:42-45). `thread` is `none` in mode `all_threads`. -/
structure Sink where
  level : Level
  thread : Option Nat
  deriving DecidableEq

/-- The sinks that exist, `global_sinks` and `global_lowest_log_level` (log.cpp:15-17). -/
structure State where
  objs : Nat → Option Sink
  sinks : List Nat
  lowest : Level

/-- At program start. -/
def init : State := ⟨fun _ => none, [], never⟩

/-- `sink::test_log_level` (log_sink.cpp:37-42), called on thread `t`. -/
def Sink.test (s : Sink) (t : Nat) (l : Level) : Bool :=
  match s.thread with
  | none => l ≥ s.level
  | some t' => l ≥ s.level && t == t'

/-- `update_global_log_level_thread_unsafe` (log.cpp:44-49). -/
def update (s : State) : State :=
  { s with lowest := s.sinks.foldl (fun v i => match s.objs i with
      | some o => if o.level < v then o.level else v
      | none => v) never }

/-- `add_sink` (log.cpp:51-58). -/
def addSink (s : State) (i : Nat) : State :=
  update (if i ∈ s.sinks then s else { s with sinks := s.sinks ++ [i] })

/-- `remove_sink` (log.cpp:60-67). -/
def removeSink (s : State) (i : Nat) : State := update { s with sinks := s.sinks.erase i }

/-- The first statement of `set_log_level` (log_sink.cpp:52). -/
def assignLevel (s : State) (i : Nat) (l : Level) : State :=
  { s with objs := fun j => if j = i then (s.objs i).map fun o => { o with level := l } else s.objs j }

/-- What a program can do with sinks. -/
inductive Op where
  /-- construction of sink `i` (log_sink.cpp:23-30) -/
  | create (i : Nat) (o : Sink)
  /-- destruction of sink `i` (log_sink.cpp:32-35) -/
  | destroy (i : Nat)
  /-- `add_sink` of an existing sink -/
  | add (i : Nat)
  /-- `remove_sink` of an existing sink -/
  | remove (i : Nat)
  /-- `set_log_level` (log_sink.cpp:50-55) -/
  | setLevel (i : Nat) (l : Level)
  /-- `set_sink_mode` (log_sink.cpp:62-66): all threads, or the calling thread -/
  | setMode (i : Nat) (t : Option Nat)
  deriving DecidableEq

/-- One operation. Using a sink that does not exist is undefined; so is (in this model) creating one twice. -/
def step (s : State) : Op → Res State
  | .create i o => match s.objs i with
    | some _ => .ub
    | none => .ok (addSink { s with objs := fun j => if j = i then some o else s.objs j } i)
  | .destroy i => match s.objs i with
    | some _ =>
      let r := removeSink s i
      .ok { r with objs := fun j => if j = i then none else r.objs j }
    | none => .ub
  | .add i => match s.objs i with
    | some _ => .ok (addSink s i)
    | none => .ub
  | .remove i => match s.objs i with
    | some _ => .ok (removeSink s i)
    | none => .ub
  | .setLevel i l => match s.objs i with
    | some _ => .ok (addSink (removeSink (assignLevel s i l) i) i)
    | none => .ub
  | .setMode i t => match s.objs i with
    | some o => .ok { s with objs := fun j => if j = i then some { o with thread := t } else s.objs j }
    | none => .ub

def run (s : State) : List Op → Res State
  | [] => .ok s
  | o :: ops => (step s o).bind fun s' => run s' ops

/-- `log::test_log_level` (log.cpp:69-79) on thread `t`. -/
def testLogLevel (s : State) (t : Nat) (l : Level) : Bool :=
  if l < s.lowest then false
  else s.sinks.any fun i => match s.objs i with
    | some o => o.test t l
    | none => false

/-- `log_string( l, str )` (log.cpp:19-25, log_sink.cpp:44-48): the sinks that handle the message, in order. -/
def logString (s : State) (t : Nat) (l : Level) : List Nat :=
  s.sinks.filter fun i => match s.objs i with
    | some o => o.test t l
    | none => false

/-- `message( l, ... )` (log.h:42-48): the sinks that handle it. -/
def message (s : State) (t : Nat) (l : Level) : List Nat := if testLogLevel s t l then logString s t l else []

/-- `log_vstring( l, ... )` (log.cpp:27-35) takes the same decision. -/
def vmessage (s : State) (t : Nat) (l : Level) : List Nat := if testLogLevel s t l then logString s t l else []

end Log
end Xo
