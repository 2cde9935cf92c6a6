import Verif.Model.TestCase

/-!
Running test cases, one after the other or in parallel, and what is written to the log meanwhile (/repo/xo/system/test_case.{h,cpp}). A test function is what
it does in one run. A thread is a test case that runs; a step of a thread ends where another thread can notice something. Writing a line takes two steps, so
that two threads can be at it at the same time. Not modelled: tests that share data with each other, the time in the last line of a parallel run, sinks
(`debug` says whether one of them takes lines of level debug, all take the other levels), counters over 2^31.
-/
namespace Xo.TRun
open Test (Result Action)

/-- What a test function can do: `XO_CHECK` of an expression with this result, with the text of the expression, or of one that throws (test_case.h:17-23);
or it throws a `std::exception`, or something else. -/
inductive Act where
  | check (result : Bool) (message : String)
  | checkThrows (what : String)
  | throws (what : String)
  | throwsOther
  deriving DecidableEq

/-- Without the messages. -/
def Act.plain : Act → Action
  | .check b _ => .check b
  | .checkThrows _ => .checkThrows
  | .throws w => .throws w
  | .throwsOther => .throwsOther

inductive Level where
  | debug | info | warning | error | critical
  deriving DecidableEq

/-- A line of the log. -/
structure Line where
  level : Level
  text : String
  deriving DecidableEq

/-- test_case.cpp:66. -/
def starting (name : String) : Line := ⟨.debug, "STARTING: " ++ name⟩

/-- test_case.cpp:45. -/
def failedCheck (name message : String) : Line := ⟨.error, "FAILED: " ++ name ++ " (" ++ message ++ ")"⟩

/-- The last line of a run that did not throw, if there is one (test_case.cpp:70-81). -/
def lastLine (name : String) (r : Result) : List Line :=
  if r.success then
    if 0 < r.passed then [⟨.info, "PASSED: " ++ name ++ " (" ++ toString r.passed ++ (if r.passed = 1 then " check)" else " checks)")⟩]
    else [⟨.warning, name ++ ":  empty test case"⟩]
  else if 1 < r.checks then [⟨.error, "FAILED: " ++ name ++ " (" ++ toString r.failed ++ " of " ++ toString r.checks ++ " checks)"⟩]
  else []

/-- The last line of a run that threw (test_case.cpp:86). -/
def exceptionLine (name : String) (r : Result) : Line := ⟨.critical, name ++ ": EXCEPTION: " ++ r.error⟩

/-- Where a thread is in `run` (test_case.cpp:64-90). -/
inductive Phase where
  /-- before the first line -/
  | start
  /-- writes it -/
  | startWrite
  /-- in the test function -/
  | body
  /-- in `check`, waits for the mutex (test_case.cpp:43) -/
  | failWait (message : String)
  /-- has it, writes the line -/
  | failWrite (message : String)
  /-- behind `try_run_func`, which returned this; waits for the mutex (test_case.cpp:69, 85) -/
  | endWait (ok : Bool)
  /-- has it, writes the last line -/
  | endWrite (ok : Bool)
  | done
  /-- left by something that is no `std::exception` -/
  | thrown
  deriving DecidableEq

/-- A test case that runs (test_case.h:45-58). -/
structure Thread where
  name : String
  todo : List Act
  res : Result
  ph : Phase
  deriving DecidableEq

/-- The threads, who has the mutex (test_case.cpp:15), and the log, every line with the number of the thread. -/
structure State where
  threads : List Thread
  mutex : Option Nat
  log : List (Nat × Line)

/-- One action of the test function (test_case.cpp:34-62, test_case.h:17-23). -/
def act (t : Thread) : Act → Thread
  | .check true _ => { t with res := t.res.check true }
  | .check false m => { t with ph := .failWait m }
  | .checkThrows w => { t with ph := .failWait w }
  | .throws w => { t with res := { t.res with error := w }, ph := .endWait false }
  | .throwsOther => { t with ph := .thrown }

/-- The line that is written at the end. -/
def endLines (t : Thread) (ok : Bool) : List Line := if ok then lastLine t.name t.res else [exceptionLine t.name t.res]

/-- One step of a thread (test_case.cpp:34-90). In `check` the counter `checks_` is raised before the wait, here with `failed_`; only this thread looks at it.
`none`: the thread cannot go on now. -/
def stepThread (debug : Bool) (i : Nat) (t : Thread) (mutex : Option Nat) : Option (Thread × Option Nat × List Line) :=
  match t.ph with
  | .start => some ({ t with ph := .startWrite }, mutex, [])
  | .startWrite => some ({ t with ph := .body }, mutex, if debug then [starting t.name] else [])
  | .body => match t.todo with
    | [] => some ({ t with ph := .endWait true }, mutex, [])
    | a :: as => some (act { t with todo := as } a, mutex, [])
  | .failWait m => if mutex = none then some ({ t with res := t.res.check false, ph := .failWrite m }, some i, []) else none
  | .failWrite m => some ({ t with ph := .body }, none, [failedCheck t.name m])
  | .endWait ok => if mutex = none then some ({ t with ph := .endWrite ok }, some i, []) else none
  | .endWrite ok => some ({ t with ph := .done }, none, endLines t ok)
  | .done => none
  | .thrown => none

/-- A step of thread `i`. -/
def step (debug : Bool) (s : State) (i : Nat) : Option State :=
  match s.threads[i]? with
  | none => none
  | some t => (stepThread debug i t s.mutex).map fun r => ⟨s.threads.set i r.1, r.2.1, s.log ++ r.2.2.map fun l => (i, l)⟩

/-- The steps of a schedule. -/
def steps (debug : Bool) (s : State) : List Nat → Option State
  | [] => some s
  | i :: is => (step debug s i).bind fun s' => steps debug s' is

/-- A registered test case: its name, its results so far, and what it does in this run. -/
structure Case where
  name : String
  res : Result := {}
  acts : List Act
  deriving DecidableEq

/-- `run_tests_async` starts all test cases (test_case.cpp:118-119). -/
def launch (cs : List Case) : State := ⟨cs.map fun c => ⟨c.name, c.acts, c.res, .start⟩, none, []⟩

/-- The results of the futures, in their order (test_case.cpp:121-127): the total and the number of failed tests; `none` if one throws. -/
def collect : List Thread → Result → Nat → Option (Result × Nat)
  | [], total, failed => some (total, failed)
  | t :: ts, total, failed => if t.ph = .done then collect ts (total.add t.res) (failed + if !t.res.success then 1 else 0) else none

/-- `run_tests_async` once no thread can go on: what it returns and the last line, without the time (test_case.cpp:129-135). -/
def finishAsync (ts : List Thread) : Option (Nat × Line) :=
  (collect ts {} 0).map fun r => (r.2,
    if r.2 = 0 then ⟨.info, "Successfully performed " ++ toString ts.length ++ " tests with " ++ toString r.1.passed ++ " checks"⟩
    else ⟨.error, "WARNING: " ++ toString r.2 ++ " of " ++ toString ts.length ++ " tests FAILED!"⟩)

/-- `try_run_func` in one go (test_case.cpp:34-62): the lines, and the results with what it returns; `none` if something else than a `std::exception` is thrown. -/
def runBody (name : String) : Result → List Act → List Line × Option (Result × Bool)
  | r, [] => ([], some (r, true))
  | r, .check true _ :: as => runBody name (r.check true) as
  | r, .check false m :: as => let q := runBody name (r.check false) as; (failedCheck name m :: q.1, q.2)
  | r, .checkThrows w :: as => let q := runBody name (r.check false) as; (failedCheck name w :: q.1, q.2)
  | r, .throws w :: _ => ([], some ({ r with error := w }, false))
  | _, .throwsOther :: _ => ([], none)

/-- Behind `try_run_func` (test_case.cpp:67-89). -/
def ending (name : String) : List Line × Option (Result × Bool) → List Line × Option Result
  | (ls, none) => (ls, none)
  | (ls, some (r, true)) => (ls ++ lastLine name r, some r)
  | (ls, some (r, false)) => (ls ++ [exceptionLine name r], some r)

/-- `run` in one go (test_case.cpp:64-90). -/
def run (debug : Bool) (c : Case) : List Line × Option Result :=
  let q := ending c.name (runBody c.name c.res c.acts)
  ((if debug then [starting c.name] else []) ++ q.1, q.2)

/-- The loop of `run_tests` (test_case.cpp:96-102): the lines, the total and the number of failed tests; `none` if something is thrown. -/
def runAll (debug : Bool) : List Case → List Line → Result → Nat → List Line × Option (Result × Nat)
  | [], out, total, failed => (out, some (total, failed))
  | c :: cs, out, total, failed =>
    let out := out ++ ⟨.info, "TRYING: " ++ c.name⟩ :: (run debug c).1
    match (run debug c).2 with
    | some r => runAll debug cs out (total.add r) (failed + if !r.success then 1 else 0)
    | none => (out, none)

/-- `run_tests` (test_case.cpp:92-110): the lines and what it returns. -/
def runTests (debug : Bool) (cs : List Case) : List Line × Option Nat :=
  match runAll debug cs [] {} 0 with
  | (out, none) => (out, none)
  | (out, some (total, failed)) =>
    (out ++ [if failed = 0 then
        ⟨.info, "Successfully Performed " ++ toString cs.length ++ " tests with " ++ toString total.passed ++ " checks; ALL CLEAR :-)"⟩
      else ⟨.error, "WARNING: " ++ toString failed ++ " of " ++ toString cs.length ++ " tests FAILED!"⟩], some failed)

end Xo.TRun
