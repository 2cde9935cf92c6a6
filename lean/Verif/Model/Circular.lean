import Verif.Model.Vec

/-!
Model of /repo/xo/container/circular_deque.h and /repo/xo/container/circular_buffer.h.
-/
namespace Xo

/-- `circular_deque` (circular_deque.h:79-81). -/
structure CDeque (T : Type) where
  front : Nat
  size : Nat
  buf : List T

namespace CDeque
variable {T : Type}

/-- `circular_deque( init_capacity )` (circular_deque.h:16); `dflt` is `T()`. -/
def make (dflt : T) (n : Nat) : CDeque T := ⟨0, 0, List.replicate n dflt⟩

/-- `capacity()` (circular_deque.h:47). -/
def capacity (d : CDeque T) : Nat := d.buf.length

/-- `vector::insert( begin() + i, v )`: undefined if `i` is past the end. -/
def insertAt (l : List T) (i : Nat) (v : T) : Res (List T) :=
  if i ≤ l.length then .ok (l.insertIdx i v) else .ub

/-- `i % n`; undefined for `n = 0`. -/
def umod (i n : Nat) : Res Nat := if n = 0 then .ub else .ok (i % n)

/-- `push_back` (circular_deque.h:19-22), with the non-const `back()` (line 34) inlined. -/
def pushBack (d : CDeque T) (v : T) : Res (CDeque T) :=
  if d.size + 1 > d.capacity then
    (insertAt d.buf (d.front + (d.size + 1) - 1) v).bind fun b => .ok { d with size := d.size + 1, buf := b }
  else
    (umod (d.front + (d.size + 1) - 1) d.capacity).bind fun i =>
    (Vec.set d.buf i v).bind fun b => .ok { d with size := d.size + 1, buf := b }

/-- `push_front` (circular_deque.h:23-26), with the non-const `front()` (line 37) inlined. -/
def pushFront (d : CDeque T) (v : T) : Res (CDeque T) :=
  if d.size + 1 > d.capacity then
    (insertAt d.buf d.front v).bind fun b => .ok { d with size := d.size + 1, buf := b }
  else
    (umod (d.front + d.capacity - 1) d.capacity).bind fun f =>
    (Vec.set d.buf f v).bind fun b => .ok ⟨f, d.size + 1, b⟩

/-- `pop_back` (circular_deque.h:31). -/
def popBack (d : CDeque T) : Res (CDeque T) := if 0 < d.size then .ok { d with size := d.size - 1 } else .err

/-- `pop_front` (circular_deque.h:32). -/
def popFront (d : CDeque T) : Res (CDeque T) :=
  if 0 < d.size then
    (umod (d.front + 1) d.capacity).bind fun f => .ok { d with front := f, size := d.size - 1 }
  else .err

/-- `operator[]` (circular_deque.h:28-29); iterators read the same way (circular_deque.h:64, 73-76). -/
def get (d : CDeque T) (i : Nat) : Res T := (umod (d.front + i) d.buf.length).bind fun j => Vec.get d.buf j

/-- `back()` on a non-const deque (circular_deque.h:34). -/
def back (d : CDeque T) : Res T :=
  if 0 < d.size then (umod (d.front + d.size - 1) d.capacity).bind fun j => Vec.get d.buf j else .err

/-- `back()` on a const deque (circular_deque.h:35). -/
def backConst (d : CDeque T) : Res T :=
  if 0 < d.size then (umod (d.front + d.size) d.capacity).bind fun j => Vec.get d.buf j else .err

/-- `front()` (circular_deque.h:37-38). -/
def frontElem (d : CDeque T) : Res T := if 0 < d.size then Vec.get d.buf d.front else .err

/-- `clear()` (circular_deque.h:44). -/
def clear (d : CDeque T) : CDeque T := { d with front := 0, size := 0 }

/-- `reserve( s )` (circular_deque.h:46). -/
def reserve (dflt : T) (d : CDeque T) (s : Nat) : CDeque T := { d with buf := Vec.resize d.buf s dflt }

/-- `for ( auto& x : d )` (circular_deque.h:73-76, 57, 63, 64). -/
def iterate (d : CDeque T) : Res (List T) := (List.range d.size).mapM d.get

end CDeque

/-- `circular_buffer` (circular_buffer.h:55-59). -/
structure CBuffer (T : Type) where
  frames : Nat
  channels : Nat
  inOfs : Nat
  outOfs : Nat
  data : List T

namespace CBuffer
variable {T : Type}

/-- `circular_buffer( frames, channels )` (circular_buffer.h:14-17, 29-34); `dflt` is `T()`. -/
def make (dflt : T) (frames channels : Nat) : CBuffer T :=
  ⟨frames, channels, 0, 0, List.replicate (frames * channels) dflt⟩

/-- `set` (circular_buffer.h:19): unchecked. -/
def set (b : CBuffer T) (ch : Nat) (v : T) : Res (CBuffer T) :=
  (Vec.set b.data (b.inOfs + ch) v).bind fun d => .ok { b with data := d }

/-- `get` and `front` (circular_buffer.h:20, 22): unchecked. -/
def get (b : CBuffer T) (ch : Nat) : Res T := Vec.get b.data (b.outOfs + ch)

/-- `back` (circular_buffer.h:23-24): unchecked. -/
def back (b : CBuffer T) (ch : Nat) : Res T := Vec.get b.data (b.inOfs + ch)

/-- `empty` (circular_buffer.h:27). -/
def empty (b : CBuffer T) : Bool := b.inOfs = b.outOfs

/-- `resize` (circular_buffer.h:29-34). -/
def resize (dflt : T) (b : CBuffer T) (frames channels : Nat) : Res (CBuffer T) :=
  if b.inOfs ≠ b.outOfs then .err
  else .ok { b with frames := frames, channels := channels, data := Vec.resize b.data (frames * channels) dflt }

/-- `advance` (circular_buffer.h:38-42); `% 0` is undefined. -/
def advance (b : CBuffer T) : Res (CBuffer T) :=
  let n := b.frames * b.channels
  if n = 0 then .ub
  else
    let i := (b.inOfs + b.channels) % n
    .ok { b with inOfs := i, outOfs := if b.outOfs = i then (b.outOfs + b.channels) % n else b.outOfs }

end CBuffer
end Xo
