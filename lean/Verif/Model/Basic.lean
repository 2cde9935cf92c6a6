/-
Basic vocabulary of the model: the outcome of a C++ call, and the standard-library binary searches.
-/
namespace Xo

/-- Outcome of a C++ call.
* `ok a`  : normal return
* `err`   : a C++ exception. `xo_error`, `xo_error_if` and `xo_assert` throw `std::runtime_error`
  (/repo/xo/system/assert.h:6-33; asserts are active by default, /repo/xo/system/xo_config.h:17-21);
  `std::string::substr` and `std::vector::at` throw `std::out_of_range`.
* `ub`    : undefined behaviour (out-of-range access, past-the-end iterator, `% 0`, missing return). -/
inductive Res (α : Type u) where
  | ok (a : α)
  | err
  | ub
  deriving Repr, DecidableEq, Inhabited

namespace Res

/-- Sequencing: an exception or undefined behaviour stops the computation. -/
def bind {α β} : Res α → (α → Res β) → Res β
  | ok a, f => f a
  | err, _ => err
  | ub, _ => ub

def map {α β} (f : α → β) : Res α → Res β
  | ok a => ok (f a)
  | err => err
  | ub => ub

instance : Monad Res where
  pure := ok
  bind := bind

@[simp] theorem pure_eq {α} (a : α) : (pure a : Res α) = ok a := rfl
@[simp] theorem bind_ok {α β} (a : α) (f : α → Res β) : (ok a >>= f) = f a := rfl
@[simp] theorem bind_err {α β} (f : α → Res β) : ((err : Res α) >>= f) = err := rfl
@[simp] theorem bind_ub {α β} (f : α → Res β) : ((ub : Res α) >>= f) = ub := rfl

instance : LawfulMonad Res := LawfulMonad.mk'
  (id_map := fun x => by cases x <;> rfl)
  (pure_bind := fun _ _ => rfl)
  (bind_assoc := fun x _ _ => by cases x <;> rfl)

/-- `true` iff the call returned normally. -/
def isOk {α} : Res α → Bool
  | ok _ => true
  | _ => false

/-- Access through an index that the C++ code does not check: out of range is undefined behaviour. -/
def ofOptionUb {α} : Option α → Res α
  | some a => ok a
  | none => ub

/-- Access that throws when nothing is there. -/
def ofOptionErr {α} : Option α → Res α
  | some a => ok a
  | none => err

@[simp] theorem ofOptionUb_some {α} (a : α) : ofOptionUb (some a) = ok a := rfl
@[simp] theorem ofOptionUb_none {α} : ofOptionUb (none : Option α) = ub := rfl
@[simp] theorem ofOptionErr_some {α} (a : α) : ofOptionErr (some a) = ok a := rfl
@[simp] theorem ofOptionErr_none {α} : ofOptionErr (none : Option α) = err := rfl

end Res

/-- The halving loop of `std::lower_bound` / `std::upper_bound` (libstdc++ `__lower_bound`,
`__upper_bound`), on the index range `[first, first + len)`; `p m` says "continue right of `m`".
The C++ standard library is external to /repo; it is called from e.g. /repo/xo/container/flat_map.h:62-74.
The `none` branch is unreachable when `first + len ≤ l.length`. -/
def bsearch {α} (l : List α) (p : α → Bool) (first len : Nat) : Nat :=
  if _h : len = 0 then first
  else
    match l[first + len / 2]? with
    | none => first
    | some m =>
      if p m then bsearch l p (first + len / 2 + 1) (len - len / 2 - 1)
      else bsearch l p first (len / 2)
termination_by len
decreasing_by all_goals omega

/-- Result index of a standard binary search over the whole sequence. -/
def bound {α} (l : List α) (p : α → Bool) : Nat := bsearch l p 0 l.length

end Xo
