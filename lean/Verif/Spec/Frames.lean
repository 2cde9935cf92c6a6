/-!
Specification vocabulary for a stream of frames. Nothing here refers to the model.
-/
namespace Xo.Spec
variable {T : Type}

inductive FrameOp (T : Type) where
  | set (ch : Nat) (v : T)
  | advance

/-- Number of completed frames. -/
def completed : List (FrameOp T) → Nat
  | [] => 0
  | .set _ _ :: ops => completed ops
  | .advance :: ops => completed ops + 1

/-- The value last written to channel `ch` while frame number `k` was being filled; `cur` is the number of the frame
being filled at the start of the history, `acc` the value written so far. -/
def lastSet (k ch : Nat) : Nat → Option T → List (FrameOp T) → Option T
  | _, acc, [] => acc
  | cur, acc, .set c v :: ops => lastSet k ch cur (if cur = k ∧ c = ch then some v else acc) ops
  | cur, acc, .advance :: ops => lastSet k ch (cur + 1) acc ops

/-- Only existing channels are written. -/
def channelsBelow (C : Nat) (ops : List (FrameOp T)) : Prop := ∀ c v, FrameOp.set c v ∈ ops → c < C

end Xo.Spec
