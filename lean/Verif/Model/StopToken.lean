import Verif.Model.Basic

/-!
Model of /repo/xo/thread/stop_token.h. Every load and store of the shared flag is atomic (sequentially consistent),
so an execution of any number of threads is a sequence of the operations below. A pointer is the number of a flag in
the heap or null; objects are numbered in the order of their creation, sources and tokens apart.
-/
namespace Xo
namespace Stop

/-- The flags, and the `stop_state_` of every source and every token (stop_token.h:22, 37). -/
structure State where
  heap : List Bool
  sources : List (Option Nat)
  tokens : List (Option Nat)
  deriving DecidableEq

def init : State := ⟨[], [], []⟩

/-- What a program can do. Operations on objects that do not exist have no effect. -/
inductive Op where
  /-- `stop_source()` (stop_token.h:28) -/
  | newSource
  /-- copy construction of source `i` -/
  | copySource (i : Nat)
  /-- move construction from source `i`, which keeps a null pointer -/
  | moveSource (i : Nat)
  /-- source `i` = source `j` -/
  | assignSource (i j : Nat)
  /-- `stop_token()` (stop_token.h:14) -/
  | newToken
  /-- `get_token()` of source `i` (stop_token.h:32) -/
  | getToken (i : Nat)
  /-- copy construction of token `i` -/
  | copyToken (i : Nat)
  /-- move construction from token `i` -/
  | moveToken (i : Nat)
  /-- token `i` = token `j` -/
  | assignToken (i j : Nat)
  /-- `request_stop()` of source `i` (stop_token.h:30) -/
  | request (i : Nat)
  deriving DecidableEq

/-- One operation. Storing through a null pointer is undefined. -/
def step (s : State) : Op → Res State
  | .newSource => .ok { s with heap := s.heap ++ [false], sources := s.sources ++ [some s.heap.length] }
  | .copySource i => match s.sources[i]? with
    | some p => .ok { s with sources := s.sources ++ [p] }
    | none => .ok s
  | .moveSource i => match s.sources[i]? with
    | some p => .ok { s with sources := s.sources.set i none ++ [p] }
    | none => .ok s
  | .assignSource i j => match s.sources[j]? with
    | some p => .ok { s with sources := s.sources.set i p }
    | none => .ok s
  | .newToken => .ok { s with tokens := s.tokens ++ [none] }
  | .getToken i => match s.sources[i]? with
    | some p => .ok { s with tokens := s.tokens ++ [p] }
    | none => .ok s
  | .copyToken i => match s.tokens[i]? with
    | some p => .ok { s with tokens := s.tokens ++ [p] }
    | none => .ok s
  | .moveToken i => match s.tokens[i]? with
    | some p => .ok { s with tokens := s.tokens.set i none ++ [p] }
    | none => .ok s
  | .assignToken i j => match s.tokens[j]? with
    | some p => .ok { s with tokens := s.tokens.set i p }
    | none => .ok s
  | .request i => match s.sources[i]? with
    | some (some p) => .ok { s with heap := s.heap.set p true }
    | some none => .ub
    | none => .ok s

def run (s : State) : List Op → Res State
  | [] => .ok s
  | o :: ops => (step s o).bind fun s' => run s' ops

/-- `stop_requested()` through a pointer (stop_token.h:16, 33). -/
def requested (s : State) : Option Nat → Bool
  | some p => s.heap[p]?.getD false
  | none => false

/-- `stop_requested()` of token `i`. -/
def tokenRequested (s : State) (i : Nat) : Bool := requested s (s.tokens[i]?.getD none)

/-- `stop_possible()` of token `i` (stop_token.h:17). -/
def tokenPossible (s : State) (i : Nat) : Bool := (s.tokens[i]?.getD none).isSome

/-- `stop_requested()` of source `i`. -/
def sourceRequested (s : State) (i : Nat) : Bool := requested s (s.sources[i]?.getD none)

end Stop
end Xo
