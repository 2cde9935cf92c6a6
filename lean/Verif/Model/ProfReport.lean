import Verif.Model.Profiler
import Verif.Model.PropNode
import Mathlib.Data.Rat.Defs

/-!
The report of the profiler (/repo/xo/system/profiler.cpp:118-193, without `XO_PROFILER_MEASURE_OVERHEAD`). The figures of a section are
exact numbers; the text that `stringf` makes of them is a parameter.
-/
namespace Xo.ProfRep
open Xo Profiler

/-- `get_children( id )` (profiler.cpp:118-124), as positions. -/
def children (secs : List Section) (i : Nat) : List Nat := (List.range secs.length).filter fun j => (secs[j]?).any (·.parent = some i)

/-- The tree that is reported: the position of a section and what is reported below it. -/
inductive Rep where
  | mk (id : Nat) (kids : List Rep)

/-- The children one after the other. -/
def allOf (f : Nat → Option Rep) : List Nat → Option (List Rep)
  | [] => some []
  | j :: js => match f j, allOf f js with
    | some t, some ts => some (t :: ts)
    | _, _ => none

/-- The recursion of `report_section` (profiler.cpp:159-166). `sort` is `std::sort` by falling total time, which may leave equal ones in any order.
`none` : no end within `n` levels. -/
def build (secs : List Section) (expand : Nat → Bool) (sort : List Nat → List Nat) : Nat → Nat → Option Rep
  | 0, _ => none
  | n + 1, i => if expand i then (allOf (build secs expand sort n) (sort (children secs i))).map (.mk i) else some (.mk i [])

/-- `total_overhead` (profiler.cpp:181-193). -/
def overhead (secs : List Section) (est : Int) : Nat → Nat → Option Int
  | 0, _ => none
  | n + 1, i => (children secs i).foldl (fun t j => match t, overhead secs est n j with
    | some t, some u => some (t + u)
    | _, _ => none) (some (est * ((secs[i]?).map (·.count)).getD 0))

/-- The total of a section. -/
def total (secs : List Section) (i : Nat) : Int := ((secs[i]?).map (·.total)).getD 0

/-- `100.0 * x / root < m` (profiler.cpp:139-150), where a total of zero gives no number or an infinite one. -/
def percBelow (x root : Int) (m : Rat) : Bool := if root = 0 then decide (x < 0) else decide (100 * (x : Rat) / root < m)

/-- `total_perc >= minimum_expand_percentage` (profiler.cpp:159). -/
def expanded (secs : List Section) (m : Rat) (i : Nat) : Bool :=
  if total secs 0 = 0 then decide (0 < total secs i) else decide (m ≤ 100 * (total secs i : Rat) / total secs 0)

/-- The tag for the level of the log (profiler.cpp:147-154). -/
def tag (excl root : Int) : Str :=
  if percBelow excl root 1 then "@2".toList
  else if percBelow excl root 5 then "@3".toList
  else if percBelow excl root 15 then "@4".toList
  else "@5".toList

/-- The figures in a line of the report (profiler.cpp:137-144, 156): the times from which they are computed, and the count, which is printed with `%d` as
a signed number of 32 bits. -/
structure Figures where
  total : Int
  excl : Int
  root : Int
  over : Int
  count : Int
  deriving DecidableEq

def int32 (n : Nat) : Int := if n % 2 ^ 32 < 2 ^ 31 then (n % 2 ^ 32 : Nat) else (n % 2 ^ 32 : Nat) - 2 ^ 32

/-- The figures of one section. -/
def figures (secs : List Section) (est : Int) (i : Nat) : Figures :=
  ⟨total secs i, exclusive secs i, total secs 0, (overhead secs est secs.length i).getD 0, int32 (((secs[i]?).map (·.count)).getD 0)⟩

mutual
/-- The nodes of the report (profiler.cpp:147-166). -/
def Rep.node (secs : List Section) (est : Int) (fmt : Figures → Str) (tags : Bool) : Rep → Str × PropNode
  | .mk i ks =>
    ((if tags then tag (exclusive secs i) (total secs 0) else []) ++ ((secs[i]?).map (·.name.text.toList)).getD [],
      .mk (fmt (figures secs est i)) (Rep.nodes secs est fmt tags ks) false)
def Rep.nodes (secs : List Section) (est : Int) (fmt : Figures → Str) (tags : Bool) : List Rep → List (Str × PropNode)
  | [] => []
  | t :: ts => t.node secs est fmt tags :: Rep.nodes secs est fmt tags ts
end

/-- `report( minimum_expand_percentage, add_log_level_tag )` (profiler.cpp:126-134). The root of a profiler without sections is undefined
(profiler.h:50). -/
def report (s : State) (now est : Int) (fmt : Figures → Str) (sort : List Nat → List Nat) (m : Rat) (tags : Bool) : Res (State × PropNode) :=
  (if s.enabled then stop s now else .ok s).bind fun s =>
    if s.sections = [] then .ub
    else match build s.sections (expanded s.sections m) sort s.sections.length 0 with
      | some t => .ok (s, .mk [] [t.node s.sections est fmt tags] false)
      | none => .ub

end Xo.ProfRep
