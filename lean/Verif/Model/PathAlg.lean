import Verif.Model.Basic
import Mathlib.Analysis.Normed.Module.Basic

/-!
Model of /repo/xo/numerical/compare.h and /repo/xo/geometry/path_alg.h over real numbers (no rounding). Points are vectors of a normed
space, which covers `vec2_` and `vec3_` with `length`.
-/
namespace Xo.PathAlg

section
variable {K : Type} [Field K] [LinearOrder K]

/-- `equal( v1, v2, e )` (compare.h:10-11). -/
def equal (e v1 v2 : K) : Bool := decide (|v1 - v2| ≤ |v1| * e)
/-- `less_than_or_equal` (compare.h:14-15). -/
def lessOrEqual (e v1 v2 : K) : Bool := decide (v1 < v2) || equal e v1 v2
/-- `less_than_not_equal` (compare.h:18-19). -/
def lessNotEqual (e v1 v2 : K) : Bool := decide (v1 < v2) && !equal e v1 v2
/-- `greater_than_or_equal` (compare.h:22-23). -/
def greaterOrEqual (e v1 v2 : K) : Bool := decide (v1 > v2) || equal e v1 v2
/-- `greater_than_not_equal` (compare.h:26-27). -/
def greaterNotEqual (e v1 v2 : K) : Bool := decide (v1 > v2) && !equal e v1 v2
end

variable {V : Type} [NormedAddCommGroup V] [NormedSpace ℝ V]

/-- The loop of `path_length` (path_alg.h:14-15), with `b` the point before. -/
def lengthLoop : V → List V → ℝ → ℝ
  | _, [], len => len
  | b, b2 :: r, len => lengthLoop b2 r (len + ‖b2 - b‖)

/-- `path_length` (path_alg.h:7-17). -/
def pathLength : List V → Res ℝ
  | [] => .err
  | b :: r => .ok (lengthLoop b r 0)

open Classical in
/-- The loop of `insert_path_point` (path_alg.h:29-46): `done` are the points up to `path[idx - 1]`, which is `p`; the result is the index
and the path. -/
noncomputable def insertLoop (e : ℝ) (done : List V) (p : V) : List V → ℝ → Nat × List V
  | [], _ => (done.length - 1, done)
  | q :: r, len =>
    let svec := q - p
    let slen := ‖svec‖
    if equal e len slen then (done.length, done ++ q :: r)
    else if len < slen then (done.length, done ++ (p + (len / slen) • svec) :: q :: r)
    else insertLoop e (done ++ [q]) q r (len - slen)

/-- `insert_path_point` (path_alg.h:19-49). -/
noncomputable def insertPathPoint (e : ℝ) (path : List V) (len : ℝ) : Res (Nat × List V) :=
  match path with
  | p :: q :: r => if lessOrEqual e len 0 then .ok (0, p :: q :: r) else .ok (insertLoop e [p] p (q :: r) len)
  | _ => .err

end Xo.PathAlg
