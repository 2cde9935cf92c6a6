import Verif.Model.FlatMap
import Verif.Model.Math

/-!
Model of /repo/xo/numerical/interpolation.h, piecewise_linear_function.h, piecewise_constant_function.h and
regular_piecewise_linear_function.h, over an ordered field with `floor` (no rounding). A division by zero, whose result is
not a number, is `ub`.
-/
namespace Xo
namespace Interp
variable {K : Type} [Field K] [LinearOrder K] [FloorRing K]

/-- `lerp` (interpolation.h:8-11). -/
def lerp (v1 v2 t : K) : K := v1 + t * (v2 - v1)

/-- `lerp_precise` (interpolation.h:13-16). -/
def lerpPrecise (v1 v2 t : K) : K := (t - 1) * v1 + t * v2

/-- The interpolation between two samples (interpolation.h:29-30, piecewise_linear_function.h:28-29). -/
def lerpAt (p0 p1 : K × K) (x : K) : Res K :=
  if p1.1 - p0.1 = 0 then .ub else .ok (lerp p0.2 p1.2 ((x - p0.1) / (p1.1 - p0.1)))

/-- Dereferencing an iterator. -/
def deref (m : FlatMap K K) (it : Nat) : Res (K × K) := Res.ofOptionUb m.data[it]?

/-- `lerp_map` (interpolation.h:18-35) on a `flat_map`. -/
def lerpMap (m : FlatMap K K) (key : K) : Res K :=
  if m.size ≠ 0 then
    let ub := m.upperBound key
    if ub = m.size then (deref m (ub - 1)).map (·.2)
    else if ub = 0 then (deref m ub).map (·.2)
    else do
      let p0 ← deref m (ub - 1)
      let p1 ← deref m ub
      lerpAt p0 p1 key
  else .err

/-- `lerp_span`, `lerp_vec` (interpolation.h:37-59) on a sequence: converting an index outside the range of `int`, and
`index_lb + 1` of the largest `int`, are undefined. -/
def lerpSpan (l : List K) (index : K) : Res K :=
  if 0 < l.length then
    if index ≤ 0 then Res.ofOptionUb l[0]?
    else
      let lb := ⌊index⌋
      if 2 ^ 31 ≤ lb then .ub
      else if lb + 1 = 2 ^ 31 then .ub
      else if lb + 1 ≥ l.length then Res.ofOptionUb l[l.length - 1]?
      else do
        let a ← Res.ofOptionUb l[lb.toNat]?
        let b ← Res.ofOptionUb l[lb.toNat + 1]?
        pure (lerp a b (index - lb))
  else .err

/-- `insert_point` (piecewise_linear_function.h:17, piecewise_constant_function.h:17). -/
def insertPoint (m : FlatMap K K) (p : K × K) : FlatMap K K := m.assign p.1 p.2

/-- A function after a sequence of calls of `insert_point`. -/
def ofPoints (pts : List (K × K)) : FlatMap K K := pts.foldl insertPoint FlatMap.empty

/-- `piecewise_linear_function::operator()` (piecewise_linear_function.h:19-31). -/
def linear (m : FlatMap K K) (x : K) : Res K :=
  if m.size ≥ 2 then
    let it := m.lowerBound x
    let it1 := if it = m.size then it - 1 else if it = 0 then it + 1 else it
    do
      let p0 ← deref m (it1 - 1)
      let p1 ← deref m it1
      lerpAt p0 p1 x
  else .err

/-- `piecewise_constant_function::operator()` (piecewise_constant_function.h:19-30). -/
def constant (m : FlatMap K K) (x : K) : Res K :=
  if m.size ≠ 0 then
    let it := m.upperBound x
    if it = m.size then (deref m (m.size - 1)).map (·.2)
    else if it = 0 then (deref m 0).map (·.2)
    else (deref m (it - 1)).map (·.2)
  else .err

/-- `regular_piecewise_linear_function` (regular_piecewise_linear_function.h:10-36). -/
structure Regular (K : Type) where
  base : K
  step : K
  data : List K

/-- The constructor (regular_piecewise_linear_function.h:13-20); `n ≥ 2` is a static assertion. -/
def Regular.make (n : Nat) (xmin xmax : K) (fn : K → K) : Regular K :=
  let step := (xmax - xmin) / ((n - 1 : Nat) : K)
  ⟨xmin, step, (List.range n).map fun i : Nat => fn (xmin + i * step)⟩

/-- `operator()` (regular_piecewise_linear_function.h:22-29): a step of zero gives a value that is not a number, and
converting it or an index outside the range of `int` is undefined. -/
def Regular.eval (f : Regular K) (x : K) : Res K :=
  if f.step = 0 then .ub
  else
    let idx := (x - f.base) / f.step
    let fl := ⌊idx⌋
    if fl < -2 ^ 31 ∨ 2 ^ 31 ≤ fl then .ub
    else
      let lb : Int := if fl < 0 then 0 else if fl > (f.data.length : Int) - 2 then (f.data.length : Int) - 2 else fl
      let w := idx - lb
      do
        let a ← Res.ofOptionUb f.data[lb.toNat]?
        let b ← Res.ofOptionUb f.data[lb.toNat + 1]?
        pure ((1 - w) * a + w * b)

end Interp
end Xo
