import Verif.Model.Ieee

/-!
Values between samples, with the rounding of the floating-point type: `lerp_span`, `lerp_vec` (/repo/xo/numerical/interpolation.h) and
`regular_piecewise_linear_function` (/repo/xo/numerical/regular_piecewise_linear_function.h).
-/
namespace Xo.SampFl
open Num (Fl Fmt)
open Ieee

/-- A 32-bit integer as a floating-point number. -/
def ofInt (f : Fmt) (k : Int) : Fl := ofRat f false k

/-- `lerp_span`, `lerp_vec` (interpolation.h:37-59) for samples and an index of the same type. Converting to `int` what is not in its range,
and `index_lb + 1` of the largest `int`, are undefined. -/
def lerpSpan (f : Fmt) (l : List Fl) (index : Fl) : Res Fl :=
  if 0 < l.length then
    if le index (ofNat 0) then Res.ofOptionUb l[0]?
    else match index with
      | .fin s m =>
        let lb := ⌊val (.fin s m)⌋
        if 2 ^ 31 ≤ lb then .ub
        else if lb + 1 = 2 ^ 31 then .ub
        else if lb + 1 ≥ l.length then Res.ofOptionUb l[l.length - 1]?
        else match l[lb.toNat]?, l[lb.toNat + 1]? with
          | some a, some b => .ok (lerp f a b (sub f (.fin s m) (ofInt f lb)))
          | _, _ => .ub
      | _ => .ub
  else .err

/-- `regular_piecewise_linear_function` (regular_piecewise_linear_function.h:32-34). -/
structure Regular where
  base : Fl
  step : Fl
  data : List Fl

/-- The constructor (regular_piecewise_linear_function.h:12-20); `n ≥ 2` is a static assertion. -/
def Regular.make (f : Fmt) (n : Nat) (xmin xmax : Fl) (fn : Fl → Fl) : Regular :=
  let step := div f (sub f xmax xmin) (ofInt f ((n : Int) - 1))
  ⟨xmin, step, (List.range n).map fun i : Nat => fn (add f xmin (mul f (ofInt f i) step))⟩

/-- `operator()` (regular_piecewise_linear_function.h:22-29): converting to `int` what is not in its range is undefined. -/
def Regular.eval (f : Fmt) (r : Regular) (x : Fl) : Res Fl :=
  match div f (sub f x r.base) r.step with
  | .fin s m =>
    let fl := ⌊val (.fin s m)⌋
    if fl < -2 ^ 31 ∨ 2 ^ 31 ≤ fl then .ub
    else
      let lb : Int := if fl < 0 then 0 else if fl > (r.data.length : Int) - 2 then (r.data.length : Int) - 2 else fl
      let w := sub f (.fin s m) (ofInt f lb)
      match r.data[lb.toNat]?, r.data[lb.toNat + 1]? with
      | some a, some b => .ok (add f (mul f (sub f (ofNat 1) w) a) (mul f w b))
      | _, _ => .ub
  | _ => .ub

end Xo.SampFl
