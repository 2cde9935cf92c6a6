import Verif.Model.Basic
import Mathlib.Algebra.Module.Basic
import Mathlib.Algebra.Order.Field.Basic

/-!
Model of /repo/xo/geometry/catmull_rom.h: splines. Points are elements of any vector space over a field (the template
parameter `P`), the arithmetic is exact. A division by zero (infinity or NaN) is `none`.
-/
namespace Xo.Spline

variable {K P : Type}

/-- `catmull_rom_segment` (catmull_rom.h:8-22): the coefficients. -/
structure Segment (P : Type) where
  a : P
  b : P
  c : P
  d : P

variable [Field K] [AddCommGroup P] [Module K P]

/-- Constructor of `catmull_rom_segment` (catmull_rom.h:11-16). -/
def Segment.make (K : Type) {P : Type} [Field K] [AddCommGroup P] [Module K P] (p0 p1 p2 p3 : P) : Segment P :=
  { a := (2 : K) • p1
    b := -p0 + p2
    c := (2 : K) • p0 - (5 : K) • p1 + (4 : K) • p2 - p3
    d := -p0 + (3 : K) • p1 - (3 : K) • p2 + p3 }

/-- `operator()` of `catmull_rom_segment` (catmull_rom.h:18). -/
def Segment.eval (s : Segment P) (t : K) : P :=
  (1 / 2 : K) • (s.a + t • s.b + t • t • s.c + t • t • t • s.d)

/-- `catmull_rom` (catmull_rom.h:63-93): the fields (88-90). -/
structure Curve (K P : Type) where
  segments : List (Segment P)
  times : List K

/-- Constructor of `catmull_rom` (catmull_rom.h:67-74); the parameter `alpha` is not used there. -/
def Curve.make (points : List P) (times : List K) : Res (Curve K P) :=
  if 4 ≤ points.length ∧ times.length = points.length - 2 then
    .ok { times := times
          segments := (List.range (points.length - 4 + 1)).map fun i =>
            Segment.make K (points.getD i 0) (points.getD (i + 1) 0) (points.getD (i + 2) 0) (points.getD (i + 3) 0) }
  else .err

/-- `operator()` of `catmull_rom` (catmull_rom.h:76-86). `std::lower_bound` is the halving loop of `Basic.lean`. Reading
outside a vector is `ub`. -/
def Curve.eval [LinearOrder K] (s : Curve K P) (t : K) : Res (Option P) :=
  let it := bound s.times fun x => decide (x < t)
  let it := if it = s.times.length then s.times.length - 1 else it
  let it := if it = 0 then 1 else it
  match s.segments[it - 1]?, s.times[it - 1]?, s.times[it]? with
  | some seg, some t0, some t1 => .ok (if t1 - t0 = 0 then none else some (seg.eval ((t - t0) / (t1 - t0))))
  | _, _, _ => .ub

/-- `catmull_rom_segment_alpha` (catmull_rom.h:24-50): the fields (48-49). -/
structure SegmentAlpha (K P : Type) where
  t0 : K
  t1 : K
  t2 : K
  t3 : K
  p0 : P
  p1 : P
  p2 : P
  p3 : P

/-- Constructor of `catmull_rom_segment_alpha` (catmull_rom.h:27-33). `knot` stands for the distance to the power alpha. -/
def SegmentAlpha.make (knot : P → P → K) (p0 p1 p2 p3 : P) : SegmentAlpha K P :=
  let t1 := knot p0 p1
  let t2 := t1 + knot p1 p2
  { t0 := 0, t1 := t1, t2 := t2, t3 := t2 + knot p2 p3, p0 := p0, p1 := p1, p2 := p2, p3 := p3 }

/-- `operator()` of `catmull_rom_segment_alpha` (catmull_rom.h:35-45). -/
def SegmentAlpha.eval [DecidableEq K] (s : SegmentAlpha K P) (t : K) : Option P :=
  let t := s.t1 + t * (s.t2 - s.t1)
  if s.t1 - s.t0 = 0 ∨ s.t2 - s.t1 = 0 ∨ s.t3 - s.t2 = 0 ∨ s.t2 - s.t0 = 0 ∨ s.t3 - s.t1 = 0 then none else
  let A1 := ((s.t1 - t) / (s.t1 - s.t0)) • s.p0 + ((t - s.t0) / (s.t1 - s.t0)) • s.p1
  let A2 := ((s.t2 - t) / (s.t2 - s.t1)) • s.p1 + ((t - s.t1) / (s.t2 - s.t1)) • s.p2
  let A3 := ((s.t3 - t) / (s.t3 - s.t2)) • s.p2 + ((t - s.t2) / (s.t3 - s.t2)) • s.p3
  let B1 := ((s.t2 - t) / (s.t2 - s.t0)) • A1 + ((t - s.t0) / (s.t2 - s.t0)) • A2
  let B2 := ((s.t3 - t) / (s.t3 - s.t1)) • A2 + ((t - s.t1) / (s.t3 - s.t1)) • A3
  some (((s.t2 - t) / (s.t2 - s.t1)) • B1 + ((t - s.t1) / (s.t2 - s.t1)) • B2)

/-- `compute_spline_length` (catmull_rom.h:52-61): the sum of the distances of `steps` chords. The loop state is the last
position and the sum. -/
def computeLength (dist : P → P → K) (spline : K → P) (t0 t1 : K) (steps : Nat) : K :=
  ((List.range steps).foldl (fun (st : P × K) i =>
    let new := spline (t0 + (t1 - t0) * ((i + 1 : Nat) : K) / (steps : K))
    (new, st.2 + dist st.1 new)) (spline t0, 0)).2

end Xo.Spline
