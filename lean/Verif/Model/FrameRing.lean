import Verif.Model.Circular

/-!
The remaining operations of `circular_buffer` (/repo/xo/container/circular_buffer.h). `T( 0 )` and `T()` are the same value
`dflt`.
-/
namespace Xo.CBuffer
variable {T : Type}

/-- `add_channel` (circular_buffer.h:35). -/
def addChannel (dflt : T) (b : CBuffer T) : Res (CBuffer T × Nat) :=
  (b.resize dflt b.frames (b.channels + 1)).bind fun b' => .ok (b', b'.channels - 1)

/-- `add_frame` (circular_buffer.h:36). -/
def addFrame (dflt : T) (b : CBuffer T) : Res (CBuffer T × Nat) :=
  (b.resize dflt (b.frames + 1) b.channels).bind fun b' => .ok (b', b'.frames - 1)

/-- The loop of `clear_back` over the channels from `c` on (circular_buffer.h:45-46). -/
def clearFrom (v : T) (ofs : Nat) : Nat → Nat → List T → Res (List T)
  | _, 0, d => .ok d
  | c, n + 1, d => (Vec.set d (ofs + c) v).bind fun d' => clearFrom v ofs (c + 1) n d'

/-- `clear_back` (circular_buffer.h:44-47). -/
def clearBack (b : CBuffer T) (v : T) : Res (CBuffer T) :=
  (clearFrom v b.inOfs 0 b.channels b.data).bind fun d => .ok { b with data := d }

/-- `reset` (circular_buffer.h:49-52). -/
def reset (dflt : T) (b : CBuffer T) : CBuffer T :=
  { b with inOfs := 0, outOfs := 0, data := List.replicate b.data.length dflt }

/-- An operation on a buffer. -/
inductive Op (T : Type)
  | set (c : Nat) (v : T)
  | advance
  | clearBack (v : T)
  | reset
  | resize (frames channels : Nat)
  | addChannel
  | addFrame

/-- One operation; the buffer is unchanged when it is refused (the exception of circular_buffer.h:30 comes before any
assignment). The number returned by `add_channel` and `add_frame` is kept, 0 for the others. -/
def stepOp (dflt : T) (b : CBuffer T) : Op T → Res (Option Nat × CBuffer T)
  | .set c v => (b.set c v).map fun b' => (some 0, b')
  | .advance => b.advance.map fun b' => (some 0, b')
  | .clearBack v => (b.clearBack v).map fun b' => (some 0, b')
  | .reset => .ok (some 0, b.reset dflt)
  | .resize n c => match b.resize dflt n c with | .ok b' => .ok (some 0, b') | .err => .ok (none, b) | .ub => .ub
  | .addChannel => match b.addChannel dflt with | .ok (b', i) => .ok (some i, b') | .err => .ok (none, b) | .ub => .ub
  | .addFrame => match b.addFrame dflt with | .ok (b', i) => .ok (some i, b') | .err => .ok (none, b) | .ub => .ub

/-- A history of operations with their answers. -/
def runOps (dflt : T) (b : CBuffer T) : List (Op T) → Res (List (Option Nat) × CBuffer T)
  | [] => .ok ([], b)
  | op :: ops => (stepOp dflt b op).bind fun (a, b') => (runOps dflt b' ops).map fun (as, b'') => (a :: as, b'')

end Xo.CBuffer
