import Verif.Model.Basic

/-!
Model of `accumulate`, `average`, `mean_var` and `mean_std` of /repo/xo/container/container_algorithms.h for containers of
whole numbers. Numbers are `Int`; a type is its number of bits (8, 16, 32 or 64) and whether it has a sign; `int` has 32
bits and `ptrdiff_t` 64. The number of elements is taken to fit in a `ptrdiff_t`.
-/
namespace Xo.IntAvg

/-- A C++ type of whole numbers. -/
structure Ty where
  bits : Nat
  signed : Bool
  deriving DecidableEq, Repr

namespace Ty
/-- The smallest value of the type. -/
def lo (t : Ty) : Int := if t.signed then -2 ^ (t.bits - 1) else 0
/-- One more than the largest value of the type. -/
def hi (t : Ty) : Int := if t.signed then 2 ^ (t.bits - 1) else 2 ^ t.bits
/-- The type in which `a + b` of two such values is computed: `int` for types with fewer bits. -/
def promoted (t : Ty) : Ty := if t.bits < 32 then ⟨32, true⟩ else t
end Ty

/-- Conversion of a value to a type: modulo `2^bits`. -/
def conv (t : Ty) (v : Int) : Int := (v - t.lo) % 2 ^ t.bits + t.lo

/-- The result of an arithmetic operator whose exact value is `v`, in a type with at least 32 bits: overflow of a type with
sign is undefined behaviour, one without sign wraps. -/
def arith (t : Ty) (v : Int) : Res Int :=
  if t.signed then (if t.lo ≤ v ∧ v < t.hi then .ok v else .ub) else .ok (conv t v)

/-- `init = init + *b` (container_algorithms.h:16). -/
def plus (t : Ty) (a b : Int) : Res Int := (arith t.promoted (a + b)).bind fun v => .ok (conv t v)

/-- `accumulate` (container_algorithms.h:13-18, 27-30). -/
def accumulate (t : Ty) : List Int → Int → Res Int
  | [], init => .ok init
  | a :: l, init => (plus t init a).bind (accumulate t l)

/-- `accumulate` with an operation (container_algorithms.h:20-25, 32-35). -/
def accumulateOp {α β : Type} (op : β → α → Res β) : List α → β → Res β
  | [], init => .ok init
  | a :: l, init => (op init a).bind (accumulateOp op l)

/-- `sum / ( e - b )` (container_algorithms.h:40), converted to the type of the sum on return: the quotient of two whole
numbers, rounded towards zero. The divisor is positive, so a 64-bit type without sign gives the same. -/
def quotient (sum : Int) (n : Nat) : Int := sum.tdiv n

/-- `average` of a container (container_algorithms.h:37-41, 49-52). -/
def average (t : Ty) (l : List Int) : Res Int :=
  if l = [] then .err else (accumulate t l 0).bind fun s => .ok (quotient s l.length)

/-- `average` with an operation and a first value (container_algorithms.h:43-47, 54-57). -/
def averageOp {α : Type} (op : Int → α → Res Int) (l : List α) (init : Int) : Res Int :=
  if l = [] then .err else (accumulateOp op l init).bind fun s => .ok (quotient s l.length)

/-- The loop of `mean_var` and `mean_std` (container_algorithms.h:64-65, 78-79), in the type of `mean * mean`. -/
def squares (t : Ty) (mean : Int) : List Int → Int → Res Int
  | [], acc => .ok acc
  | a :: l, acc =>
    (arith t.promoted (a - mean)).bind fun d =>
      (arith t.promoted (d * d)).bind fun q =>
        (arith t.promoted (acc + q)).bind (squares t mean l)

/-- `mean_var` (container_algorithms.h:59-71). -/
def meanVar (t : Ty) (l : List Int) : Res (Int × Int) :=
  (average t l).bind fun m => (squares t m l 0).bind fun acc => .ok (m, quotient acc l.length)

/-- `mean_std` (container_algorithms.h:73-85), up to the argument of `std::sqrt`. -/
def meanStdArg (t : Ty) (l : List Int) : Res (Int × Int) :=
  (average t l).bind fun m => (squares t m l 0).bind fun acc => .ok (m, quotient acc l.length)

end Xo.IntAvg
