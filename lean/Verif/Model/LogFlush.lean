import Verif.Model.Log
import Verif.Model.LogSinks

/-!
When the text of a log message leaves the program: the functions of /repo/xo/system/log.h:31-90 and /repo/xo/system/log.cpp:19-125, and `flush` of sinks
(/repo/xo/system/log_sink.h:30, 54, log_sink.cpp:73-83). A sink has a buffer that is lost when the program stops, and texts that are not lost. Calls of
several threads do not overlap here, and the sinks stay the same.
-/
namespace Xo.LogFlush
open Xo Log

/-- What a sink does with a text: `endl`, it hands its buffer over after each message, as `stream_sink` does with `std::endl` (log_sink.cpp:77); `flushes`, its
`flush` hands the buffer over, as that of `stream_sink` does (log_sink.cpp:80-83), while that of `sink` does nothing (log_sink.h:30). -/
structure Kind where
  endl : Nat → Bool
  flushes : Nat → Bool

/-- The texts that a sink has handed over, and those that it has not. -/
structure Buf where
  disk : List Str
  buf : List Str

/-- What happens at once: a sink puts a text into its buffer, or hands its buffer over. -/
inductive Act where
  | write (i : Nat) (text : Str)
  | force (i : Nat)

def act (b : Nat → Buf) : Act → Nat → Buf
  | .write i text, j => if j = i then ⟨(b j).disk, (b j).buf ++ [text]⟩ else b j
  | .force i, j => if j = i then ⟨(b j).disk ++ (b j).buf, []⟩ else b j

def acts (b : Nat → Buf) (as : List Act) : Nat → Buf := as.foldl act b

/-- `hande_log_message` of one sink (log_sink.cpp:73-78, or of a sink of the user). -/
def handle (k : Kind) (text : Str) (i : Nat) : List Act := .write i text :: if k.endl i then [.force i] else []

/-- `message` (log.h:42-48). -/
def message (s : State) (k : Kind) (t : Nat) (l : Level) (text : Str) : List Act := (Log.message s t l).flatMap (handle k text)

/-- `log_vstring` (log.cpp:27-35), with the text that the format describes; `messagef` (log.cpp:81-84). -/
def messagef (s : State) (k : Kind) (t : Nat) (l : Level) (text : Str) : List Act := (Log.vmessage s t l).flatMap (handle k (LogOut.formatted text))

/-- `log::flush` (log.cpp:37-42). -/
def flush (s : State) (k : Kind) : List Act := s.sinks.flatMap fun i => if k.flushes i then [.force i] else []

/-- `level::error` and `level::critical` (/repo/xo/system/log_level.h:13-14). -/
def error : Level := 5
def critical : Level := 6

/-- `trace`, `debug`, `info`, `warning`, `error` and `critical` (log.h:51-90), and the ones with a format (log.cpp:86-125), by their level. `static` is
`XO_STATIC_LOG_LEVEL`. -/
def named (s : State) (k : Kind) (static : Level) (printf : Bool) (t : Nat) (l : Level) (text : Str) : List Act :=
  if static ≤ l then
    (if printf then messagef s k t l text else message s k t l text) ++ (if l = error ∨ l = critical then flush s k else [])
  else []

/-- A call of the log. -/
inductive Call where
  /-- `message` or `messagef` -/
  | message (printf : Bool) (t : Nat) (l : Level) (text : Str)
  /-- `trace`, ..., `critical`, or `tracef`, ..., `criticalf` -/
  | named (printf : Bool) (t : Nat) (l : Level) (text : Str)
  | flush

def call (s : State) (k : Kind) (static : Level) : Call → List Act
  | .message printf t l text => if printf then messagef s k t l text else message s k t l text
  | .named printf t l text => named s k static printf t l text
  | .flush => flush s k

def calls (s : State) (k : Kind) (static : Level) (cs : List Call) : List Act := cs.flatMap (call s k static)

/-- Nothing was written yet. -/
def start : Nat → Buf := fun _ => ⟨[], []⟩

/-- What is not lost if the program stops after `n` steps. -/
def crash (s : State) (k : Kind) (static : Level) (cs : List Call) (n i : Nat) : List Str := (acts start ((calls s k static cs).take n) i).disk

end Xo.LogFlush
