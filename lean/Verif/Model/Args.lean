import Verif.Model.PropNode
import Verif.Model.StrTools

/-!
Model of command lines: `arg_parser` (/repo/xo/utility/arg_parser.h) and `prop_node_from_arg`
(/repo/xo/container/prop_node_tools.cpp:110-134).
-/
namespace Xo.Args

/-- `count_dashes` (arg_parser.h:61-67). -/
def countDashes : Str → Nat
  | [] => 0
  | c :: cs => if c = '-' then countDashes cs + 1 else 0

/-- The constructor (arg_parser.h:14-17): the arguments without the program. `argc = 0` gives no arguments. -/
def make (argv : List Str) : List Str := argv.drop 1

/-- The loop of `find_flag` (arg_parser.h:19-26). -/
def findFlagFrom (f : Str) : Nat → List Str → Option Nat
  | _, [] => none
  | i, a :: as => if countDashes a > 0 ∧ a.drop (countDashes a) = f then some i else findFlagFrom f (i + 1) as

/-- `find_flag` (arg_parser.h:19-26). -/
def findFlag (args : List Str) (f : Str) : Option Nat := findFlagFrom f 0 args

/-- `has_flag` (arg_parser.h:28-30). -/
def hasFlag (args : List Str) (f : Str) : Bool := (findFlag args f).isSome

/-- `arg( idx )` (arg_parser.h:49-52). -/
def arg (args : List Str) (i : Nat) : Res Str := if i < args.length then Res.ofOptionUb args[i]? else .err

/-- `get( flag, default )` (arg_parser.h:32-37). `assign s v` is the variable `v` after `from_str( s, v )`, whose answer is not used.
The subtraction is unsigned with 64 bits. -/
def getFlag {T : Type} (assign : Str → T → T) (args : List Str) (f : Str) (dflt : T) : Res T :=
  match findFlag args f with
  | none => .ok dflt
  | some i => if i < (args.length + (2 ^ 64 - 1)) % 2 ^ 64 then
      (arg args (i + 1)).bind fun a => .ok (if strBeginsWith a ['-'] then dflt else assign a dflt)
    else .ok dflt

/-- The loop of `get( idx, default )` (arg_parser.h:40-46). -/
def getPosFrom {T : Type} (assign : Str → T → T) (idx : Nat) (dflt : T) : Nat → List Str → T
  | _, [] => dflt
  | i, a :: as => if countDashes a > 0 then dflt else if i = idx then assign a dflt else getPosFrom assign idx dflt (i + 1) as

/-- `get( idx, default )` (arg_parser.h:39-47). -/
def getPos {T : Type} (assign : Str → T → T) (args : List Str) (idx : Nat) (dflt : T) : T := getPosFrom assign idx dflt 0 args

/-- `from_str` of texts (string_cast.h:41). -/
def assignStr (s : Str) (_ : Str) : Str := s

/-- `from_str` of an `int` (string_cast.cpp:34-39): the variable is set even when nothing could be read. -/
def assignInt (s : Str) (_ : Int) : Int := (fromStrInt s).getD 0

open PropNode

/-- The state of the loop of `prop_node_from_arg`: the node, and whether `value_pn` is set; then it points to the last child. -/
structure State where
  pn : PropNode
  pending : Bool

/-- Sets the value of the last child. -/
def setLast (v : Str) : Kids → Kids
  | [] => []
  | [(k, c)] => [(k, .mk v c.kids c.flag)]
  | p :: q :: cs => p :: setLast v (q :: cs)

/-- One round of the loop (prop_node_tools.cpp:119-130). -/
def step (s : State) (a : Str) : Res State :=
  if strBeginsWith a ['-'] then (midStr a 1 none).bind fun k => .ok ⟨s.pn.addChild k .empty, true⟩
  else if s.pending then .ok ⟨s.pn.withKids (setLast a s.pn.kids), false⟩
  else .ok ⟨s.pn.updOrAdd [] (fun c => .mk a c.kids c.flag), false⟩

/-- The loop (prop_node_tools.cpp:117-131). -/
def run : State → List Str → Res State
  | s, [] => .ok s
  | s, a :: as => (step s a).bind fun t => run t as

/-- `prop_node_from_arg( argc, argv )` (prop_node_tools.cpp:110-134). -/
def fromArg : List Str → Res PropNode
  | [] => .err
  | p :: as => (run ⟨.leaf p, false⟩ as).bind fun s => .ok s.pn

end Xo.Args
