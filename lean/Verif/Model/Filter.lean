import Verif.Model.Basic
import Mathlib.Algebra.Order.Field.Basic
import Mathlib.Analysis.SpecialFunctions.Trigonometric.Basic

/-!
Model of /repo/xo/numerical/average.h, delta.h, filter.h and filter_1st_order.h. Numbers are elements of a field or real numbers (no
rounding).
-/
namespace Xo.Filt

/-! ## `average_` -/

/-- `average_` (average.h:8-21). -/
structure Average (K : Type) where
  totV : K
  totW : K

section
variable {K : Type} [Field K] [LinearOrder K]

/-- The constructor (average.h:10). -/
def Average.make : Average K := ⟨0, 0⟩
/-- `add` (average.h:13). -/
def Average.add (a : Average K) (value w : K) : Average K := ⟨a.totV + w * value, a.totW + w⟩
/-- `get` (average.h:14). -/
def Average.get (a : Average K) : K := if a.totW > 0 then a.totV / a.totW else 0
/-- `empty` (average.h:15). -/
def Average.empty (a : Average K) : Bool := decide (a.totW = 0)
/-- `reset` (average.h:16). -/
def Average.reset (_ : Average K) : Average K := ⟨0, 0⟩

/-- Calls of an average. -/
inductive AvgOp (K : Type) where
  | add (value w : K)
  | reset

/-- The effect of one call. -/
def Average.step (a : Average K) : AvgOp K → Average K
  | .add v w => a.add v w
  | .reset => a.reset

/-- A history of calls. -/
def Average.run : Average K → List (AvgOp K) → Average K
  | a, [] => a
  | a, o :: os => (a.step o).run os

/-! ## `delta` -/

/-- `operator()` of `delta` (delta.h:10-14): the result and the new `previous_`. -/
def delta (previous new : K) : K × K := (new - previous, new)

/-- A sequence of calls. -/
def deltas : K → List K → List K
  | _, [] => []
  | p, x :: xs => (delta p x).1 :: deltas (delta p x).2 xs

/-! ## `iir_filter` -/

/-- `iir_filter` (filter.h:9-36); the four arrays have the length `N`. -/
structure Iir (K : Type) where
  b0 : K
  x : List K
  y : List K
  b : List K
  a : List K

/-- The first loop (filter.h:15-16). -/
def Iir.accumulate (f : Iir K) : Nat → K → K
  | 0, acc => acc
  | i + 1, acc => f.accumulate i acc + (f.b.getD i 0 * f.x.getD i 0 + f.a.getD i 0 * f.y.getD i 0)

/-- The second loop (filter.h:19-22) on one of the arrays, from the index `i` down to 1. -/
def shift : Nat → List K → List K
  | 0, l => l
  | i + 1, l => shift i (l.set (i + 1) (l.getD i 0))

/-- `operator()( x )` (filter.h:13-27): the result and the new state. For `N = 0` it writes behind the arrays. -/
def Iir.step (f : Iir K) (x : K) : Res (K × Iir K) :=
  let y := f.accumulate f.x.length (f.b0 * x)
  if f.x.length = 0 then .ub
  else .ok (y, { f with x := (shift (f.x.length - 1) f.x).set 0 x, y := (shift (f.x.length - 1) f.y).set 0 y })

/-- A sequence of calls. -/
def Iir.run : Iir K → List K → Res (List K)
  | _, [] => .ok []
  | f, x :: xs => do
    let r ← f.step x
    let ys ← r.2.run xs
    pure (r.1 :: ys)

/-- The constructor (filter.h:12), with coefficients set afterwards. -/
def Iir.make (b0 : K) (b a : List K) : Iir K := ⟨b0, List.replicate b.length 0, List.replicate b.length 0, b, a⟩

/-- `velocity` (filter.h:29). -/
def Iir.velocity (f : Iir K) : Res K := do
  let a ← Res.ofOptionUb f.y[0]?
  let b ← Res.ofOptionUb f.y[1]?
  pure (a - b)
end

open Real

/-- `make_lowpass_butterworth_2nd_order` (filter.h:38-50). -/
noncomputable def butterworth (cutoff : ℝ) : Iir ℝ :=
  let ita := 1 / tan (π * cutoff)
  let q := √2
  let b0 := 1 / (1 + q * ita + ita * ita)
  Iir.make b0 [2 * b0, b0] [2 * (ita * ita - 1) * b0, -(1 - q * ita + ita * ita) * b0]

/-! ## `filter_1st_order` -/

/-- `update_accurate` (filter_1st_order.h:14-16). -/
noncomputable def accurate (rate current value dt : ℝ) : ℝ := value + (current - value) * exp (-rate * dt)

/-- `update_fast` (filter_1st_order.h:18-20). -/
def fast (rate current value dt : ℝ) : ℝ := current + dt * rate * (value - current)

/-- A sequence of calls of `update_accurate` (`operator()`, filter_1st_order.h:12), each with a value and a time step. -/
noncomputable def accurateRun (rate : ℝ) : ℝ → List (ℝ × ℝ) → ℝ
  | c, [] => c
  | c, (v, dt) :: r => accurateRun rate (accurate rate c v dt) r

end Xo.Filt
