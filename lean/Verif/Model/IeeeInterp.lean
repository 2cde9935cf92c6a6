import Verif.Model.Ieee

/-!
Piecewise linear functions and `lerp_map` with the rounding of the floating-point type (/repo/xo/numerical/interpolation.h,
/repo/xo/numerical/piecewise_linear_function.h, /repo/xo/container/flat_map.h).
-/
namespace Xo.Ieee
open Num

/-- The points of a `flat_map`, by increasing key. -/
abbrev Pts := List (Fl × Fl)

/-- `flat_map::lower_bound` (flat_map.h:62-67): the number of keys smaller than `x`. For a NaN among the keys the order of
`std::lower_bound` does not exist; such maps are not modelled. -/
def lowerBound (m : Pts) (x : Fl) : Nat := (m.takeWhile fun p => lt p.1 x).length

/-- `flat_map::upper_bound` (flat_map.h:69-74): the number of keys that `x` is not smaller than. -/
def upperBound (m : Pts) (x : Fl) : Nat := (m.takeWhile fun p => !lt x p.1).length

/-- `insert_point` (piecewise_linear_function.h:17), `flat_map::operator[]` (flat_map.h:106-111). -/
def insertPoint (m : Pts) (p : Fl × Fl) : Pts :=
  let i := lowerBound m p.1
  match m[i]? with
  | some q => if eq q.1 p.1 then m.set i (q.1, p.2) else m.insertIdx i p
  | none => m.insertIdx i p

/-- A function after a sequence of calls of `insert_point`. -/
def ofPoints (ps : List (Fl × Fl)) : Pts := ps.foldl insertPoint []

/-- The interpolation between two points (interpolation.h:29-30, piecewise_linear_function.h:28-29). -/
def lerpAt (f : Fmt) (p0 p1 : Fl × Fl) (x : Fl) : Fl := lerp f p0.2 p1.2 (div f (sub f x p0.1) (sub f p1.1 p0.1))

/-- `piecewise_linear_function::operator()` (piecewise_linear_function.h:19-31). -/
def linear (f : Fmt) (m : Pts) (x : Fl) : Res Fl :=
  if 2 ≤ m.length then
    let it := lowerBound m x
    let it1 := if it = m.length then it - 1 else if it = 0 then it + 1 else it
    match m[it1 - 1]?, m[it1]? with
    | some p0, some p1 => .ok (lerpAt f p0 p1 x)
    | _, _ => .ub
  else .err

/-- `lerp_map` (interpolation.h:18-35) on a `flat_map`. -/
def lerpMap (f : Fmt) (m : Pts) (x : Fl) : Res Fl :=
  if m.length ≠ 0 then
    let ub := upperBound m x
    if ub = m.length then (Res.ofOptionUb m[ub - 1]?).map (·.2)
    else if ub = 0 then (Res.ofOptionUb m[ub]?).map (·.2)
    else
      match m[ub - 1]?, m[ub]? with
      | some p0, some p1 => .ok (lerpAt f p0 p1 x)
      | _, _ => .ub
  else .err

end Xo.Ieee
