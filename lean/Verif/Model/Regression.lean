import Verif.Model.Stats

/-!
Model of /repo/xo/numerical/polynomial.h and regression.h over an ordered field (no rounding). A division by zero, whose
result is not a number, is `ub`.
-/
namespace Xo
namespace Regression
open Stats
variable {K : Type} [Field K] [LinearOrder K]

/-- `polynomial::operator()` (polynomial.h:17-22): the list is `coeff`, of size `D + 1` with `D > 0`. -/
def polyEval : List K → K → K
  | [], _ => 0
  | c :: cs, v => (cs.foldl (fun (s : K × K) a => (s.1 + s.2 * a, s.2 * v)) (c, v)).1

/-- `linear_function` (polynomial.h:38): offset and slope. -/
structure Line (K : Type) where
  offset : K
  slope : K
  deriving DecidableEq

/-- The coefficients of a `linear_function`. -/
def Line.coeff (f : Line K) : List K := [f.offset, f.slope]

/-- A quotient; not a number if the divisor is zero. -/
def quot (a b : K) : Res K := if b = 0 then .ub else .ok (a / b)

/-- `intersect_y` (polynomial.h:42). -/
def intersectY (f : Line K) (y : K) : Res K := quot (y - f.offset) f.slope

/-- `linear_regression( x, y )` (regression.h:11-30, 49-51). -/
def linear (xs ys : List K) : Res (Line K) :=
  if xs.length = ys.length then do
    let avgx ← average xs 0
    let avgy ← average ys 0
    let nd := (xs.zip ys).foldl
      (fun (s : K × K) (p : K × K) => (s.1 + (p.1 - avgx) * (p.2 - avgy), s.2 + (p.1 - avgx) * (p.1 - avgx))) (0, 0)
    let slope ← quot nd.1 nd.2
    pure ⟨avgy - slope * avgx, slope⟩
  else .err

/-- `linear_regression( y, x_begin, x_step )` (regression.h:32-47). `n - 1` of an empty container wraps around, but then
`average` reports an error. -/
def linearSteps (ys : List K) (x0 h : K) : Res (Line K) := do
  let n := ys.length
  let avgx := x0 + (((n - 1 : Nat) : K) * h) / 2
  let avgy ← average ys 0
  let num := (ys.foldl (fun (s : K × K) y => (s.1 + (s.2 - avgx) * (y - avgy), s.2 + h)) (0, x0)).1
  let hs := ((n - 1 : Nat) : K) * h / 2
  let den ← quot (hs * (hs + h) * (2 * hs + h)) (3 * h)
  let slope ← quot num den
  pure ⟨avgy - slope * avgx, slope⟩

/-- The differences `cy[i + 1] - cy[i]` (regression.h:58-61). -/
def differences : List K → List K
  | a :: b :: l => (b - a) :: differences (b :: l)
  | _ => []

/-- `linear_median_regression` (regression.h:53-66). -/
def linearMedian (ys : List K) (x0 h : K) : Res (Line K) :=
  if ys.length ≥ 2 then do
    let ms ← median (differences ys)
    let slope ← quot ms h
    let medy ← median ys
    let medx := x0 + h * ((ys.length - 1 : Nat) : K) / 2
    pure ⟨medy - slope * medx, slope⟩
  else .err

/-- The slopes from point `i` to the points before and after it (regression.h:83-87). -/
def slopesFrom (pts : List (K × K)) (i : Nat) (p : K × K) : Res (List K) :=
  (pts.take i ++ pts.drop (i + 1)).mapM fun q => quot (q.2 - p.2) (q.1 - p.1)

/-- `repeated_median_regression` (regression.h:68-98). A slope that is not a number is undefined behaviour of
`std::nth_element`. -/
def repeatedMedian (xs ys : List K) : Res (Line K) :=
  if xs.length > 1 ∧ xs.length = ys.length then do
    let pts := xs.zip ys
    let sl2 ← pts.zipIdx.mapM fun (p, i) => do
      let sl1 ← slopesFrom pts i p
      median sl1
    let slope ← median sl2
    let offset ← median (pts.map fun p => p.2 - slope * p.1)
    pure ⟨offset, slope⟩
  else .err

end Regression
end Xo
