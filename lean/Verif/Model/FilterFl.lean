import Verif.Model.Ieee

/-!
`iir_filter` (/repo/xo/numerical/filter.h) with rounded numbers. Products and sums are rounded one by one (no contraction to fused operations).
-/
namespace Xo.FiltFl
open Num (Fl Fmt)
open Ieee

/-- `iir_filter` (filter.h:9-36); the four arrays have the length `N`. -/
structure Iir where
  b0 : Fl
  x : List Fl
  y : List Fl
  b : List Fl
  a : List Fl
  deriving DecidableEq

/-- The first loop (filter.h:15-16). -/
def Iir.accumulate (f : Fmt) (s : Iir) : Nat → Fl → Fl
  | 0, acc => acc
  | i + 1, acc => add f (s.accumulate f i acc) (add f (mul f (s.b.getD i (ofNat 0)) (s.x.getD i (ofNat 0))) (mul f (s.a.getD i (ofNat 0)) (s.y.getD i (ofNat 0))))

/-- The second loop (filter.h:19-22) on one of the arrays, from the index `i` down to 1. -/
def shift : Nat → List Fl → List Fl
  | 0, l => l
  | i + 1, l => shift i (l.set (i + 1) (l.getD i (ofNat 0)))

/-- `operator()( x )` (filter.h:13-27): the result and the new state. For `N = 0` it writes behind the arrays. -/
def Iir.step (f : Fmt) (s : Iir) (x : Fl) : Res (Fl × Iir) :=
  let y := s.accumulate f s.x.length (mul f s.b0 x)
  if s.x.length = 0 then .ub
  else .ok (y, { s with x := (shift (s.x.length - 1) s.x).set 0 x, y := (shift (s.x.length - 1) s.y).set 0 y })

/-- A sequence of calls. -/
def Iir.run (f : Fmt) : Iir → List Fl → Res (List Fl)
  | _, [] => .ok []
  | s, x :: xs => do
    let r ← s.step f x
    let ys ← r.2.run f xs
    pure (r.1 :: ys)

/-- The constructor (filter.h:12), with coefficients set afterwards. -/
def Iir.make (b0 : Fl) (b a : List Fl) : Iir := ⟨b0, List.replicate b.length (ofNat 0), List.replicate b.length (ofNat 0), b, a⟩

end Xo.FiltFl
