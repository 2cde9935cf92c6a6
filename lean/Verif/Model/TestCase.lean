import Verif.Model.Basic

/-!
Model of /repo/xo/system/test_case.{h,cpp}. A test function is what it does in one run: a list of actions. Log
messages and tests in parallel are in Model/TestRun.lean; counters are unbounded.
-/
namespace Xo
namespace Test

/-- `test_result` (test_case.h:29-42). -/
structure Result where
  error : String := ""
  checks : Nat := 0
  passed : Nat := 0
  failed : Nat := 0
  deriving DecidableEq

/-- `success()` (test_case.h:34). -/
def Result.success (r : Result) : Bool := r.failed == 0 && r.error.isEmpty

/-- `operator+=` (test_case.h:35-41). -/
def Result.add (r o : Result) : Result :=
  ⟨r.error ++ (if r.error.isEmpty then o.error else "; " ++ o.error), r.checks + o.checks, r.passed + o.passed,
    r.failed + o.failed⟩

/-- What a test function can do. -/
inductive Action where
  /-- `XO_CHECK` of an expression with this result -/
  | check (result : Bool)
  /-- `XO_CHECK` of an expression that throws a `std::exception` (test_case.h:17-19) -/
  | checkThrows
  /-- throws a `std::exception` with this `what()` -/
  | throws (what : String)
  /-- throws something else -/
  | throwsOther
  deriving DecidableEq

/-- `check` (test_case.cpp:34-48). -/
def Result.check (r : Result) (result : Bool) : Result :=
  if result then { r with checks := r.checks + 1, passed := r.passed + 1 }
  else { r with checks := r.checks + 1, failed := r.failed + 1 }

/-- `try_run_func` (test_case.cpp:50-62): `none` if something else than a `std::exception` is thrown. -/
def tryRun (r : Result) : List Action → Option Result
  | [] => some r
  | .check b :: as => tryRun (r.check b) as
  | .checkThrows :: as => tryRun (r.check false) as
  | .throws what :: _ => some { r with error := what }
  | .throwsOther :: _ => none

/-- `run_tests` (test_case.cpp:92-110): every registered test with its result so far and what it does in this run; the
new results, the total, and the number of failed tests. `none` if an exception leaves it. -/
def runTests : List (Result × List Action) → Option (List Result × Result × Nat)
  | ts => go ts [] {} 0
where
  go : List (Result × List Action) → List Result → Result → Nat → Option (List Result × Result × Nat)
    | [], done, total, failed => some (done, total, failed)
    | (r, as) :: ts, done, total, failed =>
      match tryRun r as with
      | some r' => go ts (done ++ [r']) (total.add r') (failed + if !r'.success then 1 else 0)
      | none => none

end Test
end Xo
