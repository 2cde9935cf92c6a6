import Verif.Model.Geom
import Verif.Model.Math
import Verif.Model.PathAlg

/-!
Model of the element by element operations of /repo/xo/geometry/vec3.h and vec3_type.h, of /repo/xo/geometry/scale3.h and
of the wrappers at the end of /repo/xo/geometry/mirror_tools.h, over a field (exact arithmetic, no rounding). A division
by zero, which gives infinities or NaN, is `none`. A `scale3_` is a `vec3_` with other constructors (scale3.h:8-16).
-/
namespace Xo.Geom

namespace Vec3
variable {K : Type} [Field K]

/-- `operator[]` (vec3_type.h:35-36): a step from the first member, past the last one from index 3 on. -/
def get (v : Vec3 K) : Nat → Res K
  | 0 => .ok v.x
  | 1 => .ok v.y
  | 2 => .ok v.z
  | _ => .ub
/-- `begin` to `end` (vec3_type.h:46-50), with `size` (vec3_type.h:46). -/
def toList (v : Vec3 K) : List K := [v.x, v.y, v.z]
/-- `axis` (vec3_type.h:61): `T( idx == 0 )` is one or zero. -/
def axis (i : Nat) : Vec3 K := ⟨if i = 0 then 1 else 0, if i = 1 then 1 else 0, if i = 2 then 1 else 0⟩
/-- `neg_unit_x`, `neg_unit_y`, `neg_unit_z` (vec3_type.h:57-59). -/
def negUnitX : Vec3 K := ⟨-1, 0, 0⟩
def negUnitY : Vec3 K := ⟨0, -1, 0⟩
def negUnitZ : Vec3 K := ⟨0, 0, -1⟩
/-- `is_null` (vec3_type.h:39). -/
def isNull [DecidableEq K] (v : Vec3 K) : Bool := v.x == 0 && v.y == 0 && v.z == 0
/-- `operator==` (vec3.h:93-94); `operator!=` (vec3.h:95-96) is its negation. -/
def eq [DecidableEq K] (a b : Vec3 K) : Bool := a.x == b.x && a.y == b.y && a.z == b.z
/-- A number divided by each element (vec3.h:54-55). -/
def sdiv [DecidableEq K] (s : K) (v : Vec3 K) : Option (Vec3 K) :=
  if v.x = 0 ∨ v.y = 0 ∨ v.z = 0 then none else some ⟨s / v.x, s / v.y, s / v.z⟩
/-- Division element by element (vec3.h:62-66). -/
def divv [DecidableEq K] (a b : Vec3 K) : Option (Vec3 K) :=
  if b.x = 0 ∨ b.y = 0 ∨ b.z = 0 then none else some ⟨a.x / b.x, a.y / b.y, a.z / b.z⟩

variable [LinearOrder K]

/-- `manhattan_length` (vec3.h:77-78). -/
def manhattan (v : Vec3 K) : K := |v.x| + |v.y| + |v.z|
/-- `abs` (vec3.h:119-120). -/
def abs (v : Vec3 K) : Vec3 K := ⟨|v.x|, |v.y|, |v.z|⟩
/-- `clamp` (vec3.h:107-108), with `clamp` of numbers (math.h). -/
def clamp (v : Vec3 K) (lb ub : K) : Vec3 K := ⟨Math.clamp v.x lb ub, Math.clamp v.y lb ub, Math.clamp v.z lb ub⟩
/-- `equal` (vec3.h:99-100), with `equal` of numbers (compare.h:10-11). -/
def equal (e : K) (a b : Vec3 K) : Bool :=
  PathAlg.equal e a.x b.x && PathAlg.equal e a.y b.y && PathAlg.equal e a.z b.z
/-- `is_normalized` (vec3.h:81-82). -/
def isNormalized (e : K) (v : Vec3 K) : Bool := PathAlg.equal e (v.x * v.x + v.y * v.y + v.z * v.z) 1

end Vec3

namespace Scale
variable {K : Type} [Field K]

/-- The default constructor, `reset` and `one` (scale3.h:11, 30, 33). -/
def one : Vec3 K := ⟨1, 1, 1⟩
/-- The constructor from one number and `uniform` (scale3.h:12, 34). -/
def uniform (v : K) : Vec3 K := ⟨v, v, v⟩
/-- `is_one` (scale3.h:27). -/
def isOne [DecidableEq K] (s : Vec3 K) : Bool := s.x == 1 && s.y == 1 && s.z == 1
/-- A scale times a vector, either way round, and `operator*=` of a vector (scale3.h:42-45, 48-49). -/
def apply (s v : Vec3 K) : Vec3 K := ⟨s.x * v.x, s.y * v.y, s.z * v.z⟩
/-- A scale times a scale, and `operator*=` of a scale (scale3.h:46-47, 50-51). -/
def mul (a b : Vec3 K) : Vec3 K := ⟨b.x * a.x, b.y * a.y, b.z * a.z⟩
/-- A vector divided by a scale, and `operator/=` (scale3.h:54-55, 58-59). -/
def unapply [DecidableEq K] (v s : Vec3 K) : Option (Vec3 K) :=
  if s.x = 0 ∨ s.y = 0 ∨ s.z = 0 then none else some ⟨v.x / s.x, v.y / s.y, v.z / s.z⟩
/-- A scale divided by a scale, and `operator/=` (scale3.h:56-57, 60-61). -/
def div [DecidableEq K] (a b : Vec3 K) : Option (Vec3 K) :=
  if b.x = 0 ∨ b.y = 0 ∨ b.z = 0 then none else some ⟨a.x / b.x, a.y / b.y, a.z / b.z⟩

/-- The assignments to a vector of scale3.h:48-49 and 58-59. -/
inductive Op (K : Type) where
  | mul (s : Vec3 K)
  | div (s : Vec3 K)

/-- Assignments in order. -/
def run [DecidableEq K] (v : Vec3 K) : List (Op K) → Option (Vec3 K)
  | [] => some v
  | .mul s :: os => run (apply s v) os
  | .div s :: os => (unapply v s).bind (run · os)

end Scale

/-- `mirror` of a number (mirror_tools.h:10-12). For the smallest `int` the negation overflows; numbers here are exact. -/
def mirrorNum {K : Type} [Field K] (v : K) : K := -v
/-- `mirror` of limits along three axes (mirror_tools.h:44-48): the limits of the third axis stay. -/
def mirrorLimits {K : Type} [Field K] (l : Vec3 (Bounds K)) : Vec3 (Bounds K) :=
  ⟨mirrorBounds l.x, mirrorBounds l.y, l.z⟩
/-- `mirrored` (mirror_tools.h:50-54): the change is made to a copy. -/
def mirroredBy {α : Type} (mirror : α → α) (a : α) : α := mirror a
/-- `mirror_if`, `mirror_axis_if`, `mirrored_if`, `mirrored_axis_if` (mirror_tools.h:56-80). -/
def mirrorIf {α : Type} (mirror : α → α) (a : α) (m : Bool) : α := if m then mirror a else a

end Xo.Geom
