import Verif.Model.Basic
import Mathlib.Algebra.Order.Field.Basic
import Mathlib.Analysis.SpecialFunctions.Sqrt

/-!
Model of /repo/xo/geometry/vec4_type.h and /repo/xo/geometry/vec4.h over a field (exact arithmetic, no rounding). A
division by zero, which gives infinities or NaN, is `none`. The binary `operator-` (vec4.h:17-18) is left out: it calls a
constructor with three arguments, which `vec4_` does not have, so no program that uses it compiles. `operator/` and
`operator/=` find `inv` only where xo/numerical/math.h is included first: `"math.h"` (vec4.h:4) is the header of the C
library.
-/
namespace Xo.Geom

/-- `vec4_` (vec4_type.h:8-20). -/
@[ext] structure Vec4 (K : Type) where
  x : K
  y : K
  z : K
  w : K
  deriving DecidableEq, Repr

namespace Vec4
variable {K : Type} [Field K]

/-- `operator[]` (vec4_type.h:18-19): a step from the first member, past the last one from index 4 on. -/
def get (v : Vec4 K) : Nat → Res K
  | 0 => .ok v.x
  | 1 => .ok v.y
  | 2 => .ok v.z
  | 3 => .ok v.w
  | _ => .ub
/-- Writing through `operator[]` (vec4_type.h:19). -/
def set (v : Vec4 K) (i : Nat) (a : K) : Res (Vec4 K) :=
  match i with
  | 0 => .ok { v with x := a }
  | 1 => .ok { v with y := a }
  | 2 => .ok { v with z := a }
  | 3 => .ok { v with w := a }
  | _ => .ub
/-- The default constructor and `zero` (vec4_type.h:14, 28). -/
def zero : Vec4 K := ⟨0, 0, 0, 0⟩
/-- `unit_x`, `unit_y`, `unit_z`, `unit_w` (vec4_type.h:29-32). -/
def unitX : Vec4 K := ⟨1, 0, 0, 0⟩
def unitY : Vec4 K := ⟨0, 1, 0, 0⟩
def unitZ : Vec4 K := ⟨0, 0, 1, 0⟩
def unitW : Vec4 K := ⟨0, 0, 0, 1⟩
/-- `squared_length` (vec4_type.h:24). -/
def sqLen (v : Vec4 K) : K := v.x * v.x + v.y * v.y + v.z * v.z + v.w * v.w
/-- `is_null` (vec4_type.h:25). -/
def isNull [DecidableEq K] (v : Vec4 K) : Bool := v.x == 0 && v.y == 0 && v.z == 0 && v.w == 0
/-- `operator+` and `operator+=` (vec4.h:9-13). -/
def add (a b : Vec4 K) : Vec4 K := ⟨a.x + b.x, a.y + b.y, a.z + b.z, a.w + b.w⟩
/-- `operator-=` (vec4.h:20-21): the last component is left as it was. -/
def subAssign (a b : Vec4 K) : Vec4 K := ⟨a.x - b.x, a.y - b.y, a.z - b.z, a.w⟩
/-- Negation (vec4.h:24-25): the last component is left as it was. -/
def neg (a : Vec4 K) : Vec4 K := ⟨-a.x, -a.y, -a.z, a.w⟩
/-- Multiplication by a number (vec4.h:28-35): the last component is left as it was. -/
def smul (s : K) (a : Vec4 K) : Vec4 K := ⟨a.x * s, a.y * s, a.z * s, a.w⟩
/-- Division by a number (vec4.h:38-42), with `inv` (math.h:20): the last component is left as it was. -/
def divs [DecidableEq K] (a : Vec4 K) (s : K) : Option (Vec4 K) :=
  if s = 0 then none else
    let ms := 1 / s
    some ⟨a.x * ms, a.y * ms, a.z * ms, a.w⟩

/-- The assignments of vec4.h:12-42 and negation. -/
inductive Op (K : Type) where
  | add (v : Vec4 K)
  | sub (v : Vec4 K)
  | neg
  | mul (s : K)
  | div (s : K)

/-- One assignment. -/
def step [DecidableEq K] (v : Vec4 K) : Op K → Option (Vec4 K)
  | .add u => some (add v u)
  | .sub u => some (subAssign v u)
  | .neg => some (neg v)
  | .mul s => some (smul s v)
  | .div s => divs v s

/-- Assignments in order. -/
def run [DecidableEq K] (v : Vec4 K) : List (Op K) → Option (Vec4 K)
  | [] => some v
  | o :: os => (step v o).bind (run · os)

/-- `length` (vec4_type.h:23). -/
noncomputable def len (v : Vec4 ℝ) : ℝ := Real.sqrt (v.x * v.x + v.y * v.y + v.z * v.z + v.w * v.w)

end Vec4
end Xo.Geom
