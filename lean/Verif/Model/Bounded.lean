import Verif.Model.Basic

/-!
Model of /repo/xo/numerical/bounded.h, with `T` the whole numbers (an `int` with no overflow: the class does no arithmetic)
and of the fields of /repo/xo/time/deprecated/date_time.h that use it. The class has no other state than the value.
-/
namespace Xo.Bnd

/-- The default constructor (bounded.h:10, 19): `T value_ = {}` is zero. -/
def default : Int := 0

/-- `set` (bounded.h:14). A value out of bounds is an error; the value is stored otherwise, and the function then ends
without the `return` that its type asks for, which is undefined behaviour. -/
def set (l u : Int) (_old v : Int) : Res Int := if v < l ∨ v > u then .err else .ub

/-- The constructor from a value (bounded.h:11). -/
def make (l u v : Int) : Res Int := set l u default v

/-- `operator=` from a value (bounded.h:12), which calls `set` and has no `return` either. -/
def assign (l u old v : Int) : Res Int := (set l u old v).bind fun _ => .ub

/-- `operator=` from another such value (bounded.h:13): the value is converted (bounded.h:16) and passed to `set`. -/
def copy (l u old other : Int) : Res Int := (set l u old other).bind fun _ => .ub

/-- Reading (bounded.h:16). -/
def read (value : Int) : Int := value

/-- Writing through the reference that the conversion gives (bounded.h:17). -/
def writeRef (_old v : Int) : Int := v

/-- What a user does with a bounded value. -/
inductive Op where
  | set (v : Int)
  | assign (v : Int)
  | copy (v : Int)
  | write (v : Int)

/-- One use. A refused value is an exception, caught by the user: the value stays. Anything after undefined behaviour is
undefined. -/
def step (l u : Int) (value : Int) : Op → Res Int
  | .set v => match set l u value v with | .ok a => .ok a | .err => .ok value | .ub => .ub
  | .assign v => match assign l u value v with | .ok a => .ok a | .err => .ok value | .ub => .ub
  | .copy v => match copy l u value v with | .ok a => .ok a | .err => .ok value | .ub => .ub
  | .write v => .ok (writeRef value v)

/-- Uses in order. -/
def run (l u : Int) (value : Int) : List Op → Res Int
  | [] => .ok value
  | o :: os => (step l u value o).bind fun a => run l u a os

/-- The bounds of the fields `day`, `hour`, `minute`, `second`, `millisecond` (date_time.h:12-17). -/
def dateFields : List (Int × Int) := [(1, 31), (0, 23), (0, 59), (0, 59), (0, 999)]

end Xo.Bnd
