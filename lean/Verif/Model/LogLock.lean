/-!
Threads that log while others change the sinks: the locks of /repo/xo/system/log.cpp and /repo/xo/system/log_sink.cpp. Each thread runs a list of
instructions; the scheduler chooses which thread makes the next step. A thread whose next instruction would block can not make a step.
-/
namespace Xo.LogLock

/-- What `hande_log_message` of a sink does: write; write to the console under the mutex of the console (log_sink.cpp:90-136); or, for classes that programs
derive from `sink`, call `log_string`, or change its own level. -/
inductive Kind where
  | plain | console | logging | changing
  deriving DecidableEq

/-- A sink (log_sink.h). The filter for one thread is left out. -/
structure Sink where
  id : Nat
  level : Nat
  kind : Kind
  deriving DecidableEq

/-- The steps of a thread. -/
inductive Instr where
  /-- `std::shared_lock lock{ global_sink_mutex }` -/
  | lockS
  /-- its end -/
  | unlockS
  /-- `std::unique_lock lock{ global_sink_mutex }` -/
  | lockX
  /-- its end -/
  | unlockX
  /-- `std::scoped_lock lock( g_console_mutex )` -/
  | lockC
  /-- its end -/
  | unlockC
  /-- The loop over the sinks in `log_string`, at an index. -/
  | next (l i : Nat)
  /-- Writing to a sink. -/
  | write (id l : Nat)
  /-- The loop in `flush`. -/
  | flushAll
  /-- `find` and `push_back` (log.cpp:54-55). -/
  | put (s : Sink)
  /-- `find` and `erase` (log.cpp:62-64). -/
  | drop (id : Nat)
  /-- The loop in `test_log_level` (log.cpp:74-77). -/
  | scan (l : Nat)
  /-- `if ( test_log_level( l ) )` in `log_vstring` (log.cpp:29). -/
  | guarded (l : Nat)
  deriving DecidableEq

/-- `log_string` (log.cpp:18-24). -/
def logString (l : Nat) : List Instr := [.lockS, .next l 0, .unlockS]

/-- `remove_sink` (log.cpp:59-66). -/
def removeSink (id : Nat) : List Instr := [.lockX, .drop id, .unlockX]

/-- `add_sink` (log.cpp:50-57). -/
def addSink (s : Sink) : List Instr := [.lockX, .put s, .unlockX]

/-- What programs call. -/
inductive Call where
  /-- `log_string` -/
  | string (l : Nat)
  /-- `messagef`, `tracef`, `debugf`, `infof`, `warningf` -/
  | messagef (l : Nat)
  /-- `errorf`, `criticalf` -/
  | errorf (l : Nat)
  /-- `flush` -/
  | flush
  /-- The constructor of a sink, `add_sink`. -/
  | add (s : Sink)
  /-- The destructor of a sink, `remove_sink`. -/
  | remove (id : Nat)
  /-- `set_log_level` of a sink; `s` has the new level. -/
  | setLevel (s : Sink)
  deriving DecidableEq

/-- The instructions of a call (log.cpp:18-125, log_sink.cpp:24-60). The write of the level in `set_log_level`, which no lock protects, is part of `put`. The return from `test_log_level` before its lock (log.cpp:70-71) is left out: it does what no sink does that wants nothing. -/
def Call.code : Call → List Instr
  | .string l => logString l
  | .messagef l => [.lockS, .scan l, .unlockS, .guarded l]
  | .errorf l => [.lockS, .scan l, .unlockS, .guarded l, .lockS, .flushAll, .unlockS]
  | .flush => [.lockS, .flushAll, .unlockS]
  | .add s => addSink s
  | .remove id => removeSink id
  | .setLevel s => removeSink s.id ++ addSink s

/-- `submit_log_message` (log_sink.cpp:42-46) for a message that the sink wants. -/
def Sink.handler (s : Sink) (l : Nat) : List Instr :=
  match s.kind with
  | .plain => [.write s.id l]
  | .console => [.lockC, .write s.id l, .unlockC]
  | .logging => .write s.id l :: logString 0
  | .changing => .write s.id l :: (removeSink s.id ++ addSink s)

/-- A thread: what it has still to do, the last answer of `test_log_level`, what it has written to which sink, and how often it has released the shared lock. -/
structure Thread where
  code : List Instr
  found : Bool := false
  wrote : List (Nat × Nat) := []
  released : Nat := 0

/-- The state of the program. -/
structure St where
  threads : List Thread
  sinks : List Sink
  readers : List Nat := []
  writer : Option Nat := none
  console : Option Nat := none

/-- Some thread waits for the exclusive lock. -/
def St.waiting (st : St) : Bool := st.threads.any fun h => h.code.head? = some .lockX

/-- One step of thread `t`. With `prefer`, a shared lock is not given while a thread waits for the exclusive one; the standard leaves that open.
(A thread that asks for a lock of `global_sink_mutex` that it holds already has undefined behaviour according to the standard; here it waits, as it does in practice.) -/
def step (prefer : Bool) (st : St) (t : Nat) : Option St :=
  match st.threads[t]? with
  | none => none
  | some h =>
    match h.code with
    | [] => none
    | .lockS :: c =>
      if st.writer = none ∧ ¬ (prefer = true ∧ st.waiting = true) then some { st with threads := st.threads.set t { h with code := c }, readers := t :: st.readers } else none
    | .unlockS :: c => some { st with threads := st.threads.set t { h with code := c, released := h.released + 1 }, readers := st.readers.erase t }
    | .lockX :: c => if st.writer = none ∧ st.readers = [] then some { st with threads := st.threads.set t { h with code := c }, writer := some t } else none
    | .unlockX :: c => some { st with threads := st.threads.set t { h with code := c }, writer := none }
    | .lockC :: c => if st.console = none then some { st with threads := st.threads.set t { h with code := c }, console := some t } else none
    | .unlockC :: c => some { st with threads := st.threads.set t { h with code := c }, console := none }
    | .next l i :: c =>
      match st.sinks[i]? with
      | none => some { st with threads := st.threads.set t { h with code := c } }
      | some s => some { st with threads := st.threads.set t { h with code := (if s.level ≤ l then s.handler l else []) ++ .next l (i + 1) :: c } }
    | .write id l :: c => some { st with threads := st.threads.set t { h with code := c, wrote := h.wrote ++ [(id, l)] } }
    | .flushAll :: c => some { st with threads := st.threads.set t { h with code := c } }
    | .put s :: c =>
      some { st with threads := st.threads.set t { h with code := c }, sinks := if st.sinks.any (·.id = s.id) then st.sinks else st.sinks ++ [s] }
    | .drop id :: c => some { st with threads := st.threads.set t { h with code := c }, sinks := st.sinks.eraseP (·.id = id) }
    | .scan l :: c => some { st with threads := st.threads.set t { h with code := c, found := st.sinks.any (·.level ≤ l) } }
    | .guarded l :: c => some { st with threads := st.threads.set t { h with code := (if h.found then logString l else []) ++ c } }

/-- The steps of a schedule. -/
def run (prefer : Bool) (st : St) : List Nat → Option St
  | [] => some st
  | t :: ts => (step prefer st t).bind fun st' => run prefer st' ts

/-- Threads that make the given calls, with the given sinks registered. -/
def start (calls : List (List Call)) (sinks : List Sink) : St := ⟨calls.map fun cs => ⟨cs.flatMap Call.code, false, [], 0⟩, sinks, [], none, none⟩

end Xo.LogLock
