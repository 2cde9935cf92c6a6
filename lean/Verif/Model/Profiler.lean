import Verif.Model.Basic

/-!
Model of the accounting of /repo/xo/system/profiler.{h,cpp} (without `XO_PROFILER_MEASURE_OVERHEAD`). Times are whole
nanoseconds without overflow; every operation is given its clock reading. A name is a pointer to a text; pointers are
what `find_section` compares. `current_section_` is modelled by the position of the section, which is its `id`. Not
modelled here: the report (`Verif.Model.ProfReport`), the estimate of the overhead (`start` clears the sections it makes), threads.
-/
namespace Xo
namespace Profiler

/-- A `const char*`: where it points to, and the text there. -/
structure CStr where
  address : Nat
  text : String
  deriving DecidableEq

/-- `section` (profiler.h:28-41); `parent` is `none` for `no_index`. -/
structure Section where
  name : CStr
  parent : Option Nat
  total : Int
  epoch : Int
  count : Nat
  deriving DecidableEq

/-- `sections_`, `current_section_`, `enabled_` (profiler.h:58-61). -/
structure State where
  sections : List Section
  current : Option Nat
  enabled : Bool
  deriving DecidableEq

/-- `profiler( false )` (profiler.cpp:13-21). -/
def init : State := ⟨[], none, false⟩

/-- `start` (profiler.cpp:32-43). -/
def start (s : State) (label : CStr) (now : Int) : Res State :=
  if s.enabled || s.current.isSome then .err
  else .ok ⟨[⟨label, none, 0, now, 0⟩], some 0, true⟩

/-- `stop` (profiler.cpp:45-59). -/
def stop (s : State) (now : Int) : Res State :=
  if !s.enabled || s.current != some 0 then .err
  else .ok ⟨s.sections.modify 0 fun r => { r with total := now - r.epoch, count := r.count + 1 }, none, false⟩

/-- `find_section( name, parent_id )` (profiler.cpp:99-103): addresses are compared, from `parent_id + 1` on. -/
def findSection (secs : List Section) (name : CStr) (parent : Nat) : Option Nat :=
  ((secs.drop (parent + 1)).findIdx? fun s => s.name.address == name.address && s.parent == some parent).map
    (· + (parent + 1))

/-- `start_section` (profiler.cpp:61-71, 105-116). -/
def startSection (s : State) (name : CStr) (now : Int) : Res State :=
  match s.current with
  | none => .ub
  | some c =>
    match findSection s.sections name c with
    | some i => .ok { s with sections := s.sections.modify i fun x => { x with epoch := now }, current := some i }
    | none => .ok { s with sections := s.sections ++ [⟨name, some c, 0, now, 0⟩], current := some s.sections.length }

/-- `end_section` (profiler.cpp:73-91). -/
def endSection (s : State) (now : Int) : Res State :=
  match s.current with
  | none => .ub
  | some c => match s.sections[c]? with
    | none => .ub
    | some x => match x.parent with
      | none => .ub
      | some p => .ok { s with
          sections := s.sections.modify c fun x => { x with total := x.total + (now - x.epoch), count := x.count + 1 },
          current := some p }

/-- `exclusive_time` (profiler.cpp:172-179). -/
def exclusive (secs : List Section) (i : Nat) : Int :=
  secs.foldl (fun t c => if c.parent = some i then t - c.total else t) ((secs[i]?.map (·.total)).getD 0)

/-- Begin and end of a `scoped_profiler_section` (profiler.h:66-78) of an enabled profiler. -/
inductive Event where
  | enter (name : CStr)
  | leave
  deriving DecidableEq

def step (s : State) (now : Int) : Event → Res State
  | .enter n => startSection s n now
  | .leave => endSection s now

def run (s : State) : List (Int × Event) → Res State
  | [] => .ok s
  | (now, e) :: h => (step s now e).bind fun s' => run s' h

end Profiler
end Xo
