import Verif.Model.Basic

/-!
Model of /repo/xo/utility/irange.h and /repo/xo/utility/frange.h. A range is visited by a range-based `for`:
`for ( auto it = r.begin(); it != r.end(); ++it ) visit( *it )`. Not modelled: `irange` over floating-point types.
-/
namespace Xo
namespace Range

/-- A range-based `for` with `fuel` checks of `it != end`: the values visited. `none`: it has not ended yet. -/
def loop {S : Type} [DecidableEq S] (next : S → Res S) (fin : S) : Nat → S → Option (Res (List S))
  | 0, _ => none
  | n + 1, v =>
    if v = fin then some (.ok [])
    else match next v with
      | .ok v' => (loop next fin n v').map (fun r => r.bind fun l => .ok (v :: l))
      | .err => some .err
      | .ub => some .ub

/-- `value_ + s` of a signed type with values `lo` to `hi`: overflow is undefined. -/
def addSigned (lo hi s v : Int) : Res Int := if lo ≤ v + s ∧ v + s ≤ hi then .ok (v + s) else .ub

/-- `irange< T >` visited, `T` signed (irange.h:31-48); the check for whole numbers is always true. -/
def irangeS (lo hi : Int) (fuel : Nat) (b e : Int) : Option (Res (List Int)) := loop (addSigned lo hi 1) e fuel b

/-- `irange< T >` visited, `T` unsigned of `w` bits. -/
def irangeU {w : Nat} (fuel : Nat) (b e : BitVec w) : Option (Res (List (BitVec w))) :=
  loop (fun v => .ok (v + 1#w)) e fuel b

/-- `irange_step< T >` visited, `T` signed (irange.h:57-78). -/
def irangeStepS (lo hi : Int) (fuel : Nat) (b e s : Int) : Option (Res (List Int)) :=
  loop (addSigned lo hi s) e fuel b

/-- `irange_step< T >` visited, `T` unsigned of `w` bits. -/
def irangeStepU {w : Nat} (fuel : Nat) (b e s : BitVec w) : Option (Res (List (BitVec w))) :=
  loop (fun v => .ok (v + s)) e fuel b

/-- `iterator::operator++( int )` of `irange_step` (irange.h:68), unsigned: the new value and the result. -/
def stepPostIncU {w : Nat} (v s : BitVec w) : BitVec w × BitVec w := (v + s, v + s - s)

/-- `size_range( c )` (irange.h:89). -/
def sizeRange {w : Nat} (fuel : Nat) (size : BitVec w) : Option (Res (List (BitVec w))) := irangeU fuel 0#w size

/-- `std::round`: to the nearest whole number, halves away from zero. -/
def round (x : Rat) : Int := if 0 ≤ x then (x + 1 / 2).floor else -((-x + 1 / 2).floor)

/-- `frange` (frange.h:41). Floating-point numbers are exact rationals; `max_step_` is a whole number. -/
structure FRange where
  min : Rat
  max : Rat
  maxStep : Int
  deriving DecidableEq

/-- `frange( lower, upper, T increment )` (frange.h:15); the increment is not zero. -/
def FRange.ofIncrement (lower upper increment : Rat) : FRange := ⟨lower, upper, round ((upper - lower) / increment)⟩

/-- `frange( lower, upper, int steps )` (frange.h:16). -/
def FRange.ofSteps (lower upper : Rat) (steps : Int) : FRange := ⟨lower, upper, steps - 1⟩

/-- `iterator::operator*` (frange.h:34). Dividing by zero gives NaN or an infinity: `none`. -/
def FRange.value (r : FRange) (step : Rat) : Option Rat :=
  if r.maxStep = 0 then none else some (r.min + step * (r.max - r.min) / r.maxStep)

/-- The steps of `frange` visited (frange.h:30, 33, 37-38). -/
def FRange.steps (r : FRange) (fuel : Nat) : Option (Res (List Rat)) :=
  loop (fun v => .ok (v + 1)) ((r.maxStep : Rat) + 1) fuel 0

/-- The values of `frange` visited. -/
def FRange.visit (r : FRange) (fuel : Nat) : Option (Res (List (Option Rat))) :=
  (r.steps fuel).map (fun x => x.bind fun l => .ok (l.map r.value))

/-- `size()` (frange.h:39): converting a negative number to `size_t` is undefined. -/
def FRange.size (r : FRange) : Res Nat := if 0 ≤ r.maxStep then .ok r.maxStep.toNat else .ub

/-- `iterator::operator++( int )` (frange.h:31): the new step and the result. -/
def FRange.postInc (r : FRange) (step : Rat) : Rat × Rat := (step + 1, r.maxStep - 1)

end Range
end Xo
