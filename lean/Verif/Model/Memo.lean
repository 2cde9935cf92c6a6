import Verif.Model.Basic
import Verif.Model.StdMap
import Verif.Model.SharedMutex

/-!
Model of /repo/xo/utility/memoize.h. The wrapped function is `f : K → Res R` where `K` is the type of argument
tuples; `err` is an exception. `mem_[tup] = func_( args... )` evaluates the right operand first (C++17), so a
function that throws leaves no entry.
-/
namespace Xo
variable {K R : Type}

/-- `memoize::mem_` (memoize.h:32), and the ghost list of the calls made to the wrapped function, newest first. -/
structure Memo (K R : Type) where
  mem : StdMap K R
  calls : List K
  deriving Repr, DecidableEq

namespace Memo
variable (lt : K → K → Bool) (f : K → Res R)

def empty : Memo K R := ⟨StdMap.empty, []⟩

/-- `operator()` (memoize.h:18-26) for a function that does not call the memoizer itself. -/
def call (m : Memo K R) (a : K) : Res R × Memo K R :=
  match m.mem.find lt a with
  | some r => (.ok r, m)
  | none =>
    match f a with
    | .ok r => (.ok r, ⟨m.mem.put lt a r, a :: m.calls⟩)
    | e => (e, ⟨m.mem, a :: m.calls⟩)

/-- `size()` (memoize.h:28). -/
def size (m : Memo K R) : Nat := m.mem.size

/-- A history of calls: the results in order, and the memoizer afterwards. -/
def run (m : Memo K R) : List K → List (Res R) × Memo K R
  | [] => ([], m)
  | a :: as =>
    let (r, m1) := m.call lt f a
    let (rs, m2) := run m1 as
    (r :: rs, m2)

end Memo

/-- The body of a wrapped function that may call the memoizer: it returns, throws, or calls the memoizer and goes
on with the result. An exception of an inner call passes through. -/
inductive MemoProg (K R : Type) where
  | ret (r : R)
  | throw
  | call (a : K) (next : R → MemoProg K R)

/-- `operator()` (memoize.h:18-26) for a wrapped function `body` that calls the memoizer: running the program `p`
with the entries `m` makes the calls `log` to the wrapped function (in order), ends with the entries `m'` and the
outcome. No derivation means no termination. -/
inductive MemoEval (lt : K → K → Bool) (body : K → MemoProg K R) :
    StdMap K R → MemoProg K R → StdMap K R → List K → Res R → Prop
  | ret {m r} : MemoEval lt body m (.ret r) m [] (.ok r)
  | throw {m} : MemoEval lt body m .throw m [] .err
  | hit {m a next v m' log o} : m.find lt a = some v → MemoEval lt body m (next v) m' log o →
      MemoEval lt body m (.call a next) m' log o
  | missOk {m a next v m1 log1 m' log2 o} : m.find lt a = none → MemoEval lt body m (body a) m1 log1 (.ok v) →
      MemoEval lt body (m1.put lt a v) (next v) m' log2 o →
      MemoEval lt body m (.call a next) m' (a :: (log1 ++ log2)) o
  | missErr {m a next m1 log1} : m.find lt a = none → MemoEval lt body m (body a) m1 log1 .err →
      MemoEval lt body m (.call a next) m1 (a :: log1) .err

/-- Where a thread is inside `memoize_thread_safe::operator()` (memoize.h:44-63). -/
inductive MemoPc (K : Type) where
  /-- not in a call -/
  | idle
  /-- before line 46 takes the shared lock -/
  | wantShared (a : K)
  /-- holding the shared lock, lines 47-48 and 62 -/
  | shared (a : K)
  /-- before line 50 takes the exclusive lock -/
  | wantUnique (a : K)
  /-- holding the exclusive lock, line 52 -/
  | unique (a : K)
  /-- holding the exclusive lock, inside `func_`, line 55 -/
  | running (a : K)
  deriving Repr, DecidableEq

/-- `memoize_thread_safe` with its threads; `calls` and `results` are ghost logs, newest first. -/
structure MemoTs (K R : Type) where
  mem : StdMap K R
  mtx : SharedMutex
  pc : Nat → MemoPc K
  calls : List K
  results : List (Nat × K × Res R)

namespace MemoTs
variable (lt : K → K → Bool) (f : K → Res R)

def init : MemoTs K R := ⟨StdMap.empty, SharedMutex.free, fun _ => .idle, [], []⟩

/-- The next atomic step of thread `t` (memoize.h:44-63); an idle thread starts a call with argument `arg`.
`none` if the thread is blocked. The locks are released by the destructors of the lock objects. -/
def step (s : MemoTs K R) (t : Nat) (arg : K) : Option (MemoTs K R) :=
  match s.pc t with
  | .idle => some { s with pc := setPc s.pc t (.wantShared arg) }
  | .wantShared a =>
    match s.mtx.lockShared t with
    | some m => some { s with mtx := m, pc := setPc s.pc t (.shared a) }
    | none => none
  | .shared a =>
    match s.mem.find lt a with
    | some r => some { s with mtx := s.mtx.unlockShared t, pc := setPc s.pc t .idle,
                              results := (t, a, .ok r) :: s.results }
    | none => some { s with mtx := s.mtx.unlockShared t, pc := setPc s.pc t (.wantUnique a) }
  | .wantUnique a =>
    match s.mtx.lock t with
    | some m => some { s with mtx := m, pc := setPc s.pc t (.unique a) }
    | none => none
  | .unique a =>
    match s.mem.find lt a with
    | some r => some { s with mtx := s.mtx.unlock, pc := setPc s.pc t .idle,
                              results := (t, a, .ok r) :: s.results }
    | none => some { s with pc := setPc s.pc t (.running a), calls := a :: s.calls }
  | .running a =>
    match f a with
    | .ok r => some { s with mem := s.mem.put lt a r, mtx := s.mtx.unlock, pc := setPc s.pc t .idle,
                             results := (t, a, .ok r) :: s.results }
    | e => some { s with mtx := s.mtx.unlock, pc := setPc s.pc t .idle, results := (t, a, e) :: s.results }

/-- A schedule: which thread moves next (and the argument if it starts a call). A blocked thread stays. -/
def run (s : MemoTs K R) : List (Nat × K) → MemoTs K R
  | [] => s
  | (t, a) :: sched => run ((s.step lt f t a).getD s) sched

end MemoTs
end Xo
