import Verif.Model.IeeeStats
import Verif.Model.Norm

/-!
Loops that add products, with rounding: `dynvec` (/repo/xo/geometry/dynvec.h), `polynomial` (/repo/xo/numerical/polynomial.h) and `average_` with weights
(/repo/xo/numerical/average.h). Products and sums are rounded one by one (no contraction to fused operations). The sums of /repo/xo/container/container_algorithms.h are
`Ieee.accumulate` and `Ieee.average`.
-/
namespace Xo.LongSum
open Num (Fl Fmt)
open Ieee

/-- `dynvec::squared_length()` (dynvec.h:43). -/
def squaredLength (f : Fmt) (v : List Fl) : Fl := v.foldl (fun sum e => add f sum (mul f e e)) (ofNat 0)

/-- `dynvec::length()` (dynvec.h:42). -/
def length (f : Fmt) (v : List Fl) : Fl := Norm.sqrt f (squaredLength f v)

/-- `dot_product( v1, v2 )` of two `dynvec` (dynvec.h:132-139); the loop goes over the index. -/
def dotProduct (f : Fmt) (v1 v2 : List Fl) : Res Fl :=
  if v1.length = v2.length then .ok ((List.zip v1 v2).foldl (fun r p => add f r (mul f p.1 p.2)) (ofNat 0)) else .err

/-- `distance( v1, v2 )` of two `dynvec` (dynvec.h:117-124, /repo/xo/numerical/math.h:29). -/
def distance (f : Fmt) (v1 v2 : List Fl) : Res Fl :=
  if v1.length = v2.length then
    .ok (Norm.sqrt f ((List.zip v1 v2).foldl (fun sum p => add f sum (mul f (sub f p.1 p.2) (sub f p.1 p.2))) (ofNat 0)))
  else .err

/-- The loop of `polynomial::operator()` (polynomial.h:20): the coefficients that are left, `result` and `factor`. -/
def polyLoop (f : Fmt) (v : Fl) : List Fl → Fl → Fl → Fl
  | [], result, _ => result
  | c :: cs, result, factor => polyLoop f v cs (add f result (mul f factor c)) (mul f factor v)

/-- `polynomial::operator()` (polynomial.h:17-22): `c0` is the first coefficient, `cs` has the others. -/
def poly (f : Fmt) (c0 : Fl) (cs : List Fl) (v : Fl) : Fl := polyLoop f v cs c0 v

/-- Values with weights added one after the other (average.h:13): pairs of a value and a weight. -/
def addWeighted (f : Fmt) (a : Avg) (vs : List (Fl × Fl)) : Avg := vs.foldl (fun a p => a.add f p.1 p.2) a

/-- `mean_std( b, e, v )` with the start value zero (/repo/xo/container/container_algorithms.h:73-85). -/
def meanStd (f : Fmt) (vs : List Fl) : Res (Fl × Fl) :=
  Res.bind (average f vs) fun mean => .ok (mean, Norm.sqrt f (div f (squares f mean vs (ofNat 0)) (ofNat vs.length)))

end Xo.LongSum
