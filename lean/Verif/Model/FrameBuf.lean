import Verif.Model.Indexed
import Mathlib.Algebra.Ring.Defs

/-!
Model of /repo/xo/container/deprecated/circular_frame_buffer.h. `size_t` and `index_t` have 64 bits.
-/
namespace Xo.Frames

/-- Numbers of `size_t`. -/
def wrap (i : Int) : Nat := (i % 18446744073709551616).toNat

/-- `circular_frame_buffer` (circular_frame_buffer.h:84-87). -/
structure Buf (T L : Type) where
  frameSize : Nat
  capacity : Nat
  data : List T
  labels : LabelVector L

variable {T L : Type}

/-- The constructor (circular_frame_buffer.h:13-17). `d` and `dl` are `T()` and `L()`. -/
def make (d : T) (dl : L) (channels frames : Nat) : Buf T L := ⟨0, frames, List.replicate (frames * channels) d, .ofSize dl channels⟩

/-- `channel_size` (circular_frame_buffer.h:30). -/
def Buf.channels (b : Buf T L) : Nat := b.labels.size

/-- `add_frame` (circular_frame_buffer.h:27): its result and the buffer. -/
def Buf.addFrame (b : Buf T L) : Nat × Buf T L := (wrap (b.frameSize + 1), { b with frameSize := wrap (b.frameSize + 1) })

/-- The place `frame % frame_capacity_` and channel in the data (circular_frame_buffer.h:81-82). A capacity of zero is undefined. -/
def Buf.place (b : Buf T L) (frame channel : Nat) : Res Nat :=
  if b.capacity = 0 then .ub else .ok ((frame % b.capacity) * b.channels + channel)

/-- `operator()` (circular_frame_buffer.h:47). -/
def Buf.get (b : Buf T L) (frame channel : Nat) : Res T := b.place frame channel >>= fun i => Res.ofOptionUb b.data[i]?

/-- `operator()( frame, channel ) = v` (circular_frame_buffer.h:47). -/
def Buf.set (b : Buf T L) (frame channel : Nat) (v : T) : Res (Buf T L) :=
  b.place frame channel >>= fun i => if i < b.data.length then .ok { b with data := b.data.set i v } else .ub

/-- `operator()` of a constant buffer (circular_frame_buffer.h:48) does not return a value. -/
def Buf.constGet (_ : Buf T L) (_ _ : Nat) : Res T := .ub

/-- `operator[]` (circular_frame_buffer.h:51-52). -/
def Buf.newest (b : Buf T L) (channel : Nat) : Res T := b.get (wrap ((b.frameSize : Int) - 1)) channel

/-- `operator[]( channel ) = v` (circular_frame_buffer.h:51). -/
def Buf.setNewest (b : Buf T L) (channel : Nat) (v : T) : Res (Buf T L) := b.set (wrap ((b.frameSize : Int) - 1)) channel v

/-- `reverse` (circular_frame_buffer.h:55-56). -/
def Buf.reverse (b : Buf T L) (frame channel : Nat) : Res T := b.get (wrap ((b.frameSize : Int) - frame - 1)) channel

/-- `at` (circular_frame_buffer.h:59-66). -/
def Buf.at' (b : Buf T L) (frame channel : Nat) : Res T :=
  if frame ≥ wrap ((b.frameSize : Int) - b.capacity) ∧ frame < b.frameSize ∧ channel < b.channels then b.get frame channel else .err

/-- `get_interpolated_value` (circular_frame_buffer.h:39-44). -/
def Buf.interpolated [Ring T] (b : Buf T L) (frame channel : Nat) (pos : T) : Res T :=
  if frame < b.frameSize ∧ channel < b.channels then
    b.get frame channel >>= fun x => b.get (wrap (frame + 1)) channel >>= fun y => .ok ((1 - pos) * x + pos * y)
  else .err

/-- `resize_buffer( nframes, nchannels, value )` (circular_frame_buffer.h:69-73). -/
def Buf.resize (dl : L) (b : Buf T L) (nframes nchannels : Nat) (v : T) : Res (Buf T L) :=
  b.labels.resize dl nchannels >>= fun l => .ok ⟨b.frameSize, nframes, List.replicate (nframes * nchannels) v, l⟩

/-- `resize_buffer( nframes, value )` (circular_frame_buffer.h:75-78). -/
def Buf.resizeFrames (b : Buf T L) (nframes : Nat) (v : T) : Buf T L :=
  { b with capacity := nframes, data := List.replicate (nframes * b.channels) v }

/-- `add_channel` (circular_frame_buffer.h:21). -/
def Buf.addChannel [DecidableEq L] (d : T) (dl : L) (b : Buf T L) (label : L) : Res (Nat × Buf T L) :=
  b.resize dl b.frameSize (b.channels + 1) d >>= fun b =>
  b.labels.set (b.channels - 1) label >>= fun l => .ok (b.channels - 1, { b with labels := l })

/-- What a program does with a buffer of fixed size. -/
inductive Op (T : Type) where
  | addFrame
  | setNewest (channel : Nat) (v : T)
  | set (frame channel : Nat) (v : T)

def step (b : Buf T L) : Op T → Res (Buf T L)
  | .addFrame => .ok b.addFrame.2
  | .setNewest c v => b.setNewest c v
  | .set f c v => b.set f c v

def run (b : Buf T L) : List (Op T) → Res (Buf T L)
  | [] => .ok b
  | op :: ops => step b op >>= fun b => run b ops

end Xo.Frames
