import Verif.Model.Basic

/-!
Model of /repo/xo/utility/optional.h. The three specialisations share their accessors and comparisons; what differs
is the representation, given by `OptKind`.
-/
namespace Xo

/-- A specialisation of `optional< T >` with representation `R`. -/
structure OptKind (T R : Type) where
  /-- `optional()` and `reset()` -/
  empty : R
  /-- `optional( v )` and `operator=( v )` -/
  make : T → R
  /-- `operator bool` -/
  has : R → Bool
  /-- `operator*` -/
  get : R → T
  /-- `==` of the value type -/
  eq : T → T → Bool

namespace OptKind

/-- Integral types except `bool` (optional.h:13-29): the sentinel (/repo/xo/numerical/constants.h:27-32) means "no
value". -/
def integral {T : Type} [DecidableEq T] (sentinel : T) : OptKind T T :=
  ⟨sentinel, fun v => v, fun v => v != sentinel, fun v => v, fun a b => a == b⟩

/-- The sentinel of a signed type of `w` bits (constants.h:29-30). -/
def signedSentinel (w : Nat) : BitVec w := BitVec.intMin w

/-- The sentinel of an unsigned type of `w` bits (constants.h:31). -/
def unsignedSentinel (w : Nat) : BitVec w := BitVec.allOnes w

/-- `==` of a floating-point type; `none` is NaN. Signed zeros are not told apart. -/
def floatEq {F : Type} [DecidableEq F] : Option F → Option F → Bool
  | some a, some b => a == b
  | _, _ => false

/-- Floating-point types (optional.h:32-48): NaN means "no value". -/
def floating {F : Type} [DecidableEq F] : OptKind (Option F) (Option F) :=
  ⟨none, fun v => v, fun v => floatEq v v, fun v => v, floatEq⟩

/-- Other types (optional.h:51-70): a value and a flag; `dflt` is `T()`, `eq` the `==` of the type. -/
def other {T : Type} (dflt : T) (eq : T → T → Bool) : OptKind T (T × Bool) :=
  ⟨(dflt, false), fun v => (v, true), fun r => r.2, fun r => r.1, eq⟩

variable {T R : Type}

/-- `value()` (optional.h:25, 44, 65). -/
def value (k : OptKind T R) (r : R) : Res T := if k.has r then .ok (k.get r) else .err

/-- `value_or` (optional.h:26, 45, 66). -/
def valueOr (k : OptKind T R) (r : R) (d : T) : T := if k.has r then k.get r else d

/-- `optional == value` (optional.h:72). -/
def eqVal (k : OptKind T R) (l : R) (v : T) : Bool := k.has l && k.eq (k.get l) v

/-- `optional != value` (optional.h:73). -/
def neVal (k : OptKind T R) (l : R) (v : T) : Bool := !k.eqVal l v

/-- `value == optional` (optional.h:74). -/
def valEq (k : OptKind T R) (v : T) (r : R) : Bool := k.eqVal r v

/-- `value != optional` (optional.h:75). -/
def valNe (k : OptKind T R) (v : T) (r : R) : Bool := k.neVal r v

/-- `optional == optional` (optional.h:76). -/
def eqOpt (k : OptKind T R) (l r : R) : Bool := (k.has l && k.has r && k.eq (k.get r) (k.get l)) || (!k.has l && !k.has r)

/-- `optional != optional` (optional.h:77): its body is `rhs != lhs`, a call of the same function. `none` after `n`
nested calls means it has not returned yet. -/
def neOpt (k : OptKind T R) : Nat → R → R → Option Bool
  | 0, _, _ => none
  | n + 1, l, r => k.neOpt n r l

end OptKind
end Xo
