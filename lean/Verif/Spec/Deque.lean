/-!
Specification of a double-ended queue as a list. Nothing here refers to the model.
-/
namespace Xo.Spec
variable {T : Type}

inductive DequeOp (T : Type) where
  | pushBack (v : T)
  | pushFront (v : T)
  | popBack
  | popFront
  | clear

/-- `none`: the call has to fail. -/
def dequeStep (l : List T) : DequeOp T → Option (List T)
  | .pushBack v => some (l ++ [v])
  | .pushFront v => some (v :: l)
  | .popBack => if l = [] then none else some l.dropLast
  | .popFront => if l = [] then none else some l.tail
  | .clear => some []

/-- Failing calls leave the queue as it is. -/
def dequeNext (l : List T) (op : DequeOp T) : List T := (dequeStep l op).getD l

/-- Contents after a history. -/
def dequeRun (l : List T) (ops : List (DequeOp T)) : List T := ops.foldl dequeNext l

/-- Which calls of the history succeed. -/
def dequeOuts (l : List T) : List (DequeOp T) → List Bool
  | [] => []
  | op :: ops => (dequeStep l op).isSome :: dequeOuts (dequeNext l op) ops

/-- At every moment of the history there are at most `n` elements. -/
def neverAbove (n : Nat) (l : List T) : List (DequeOp T) → Prop
  | [] => l.length ≤ n
  | op :: ops => l.length ≤ n ∧ neverAbove n (dequeNext l op) ops

end Xo.Spec
