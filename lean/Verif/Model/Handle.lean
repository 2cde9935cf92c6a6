import Verif.Model.Vec

/-!
Model of /repo/xo/utility/handle.h and /repo/xo/container/handle_vector.h. The identifier type `I` is an unsigned
integer of `w` bits (`uint32` by default).
-/
namespace Xo

/-- `handle` (handle.h:11-49). -/
structure Handle (w : Nat) where
  value : BitVec w
  deriving DecidableEq

namespace Handle
variable {w : Nat}

/-- `invalid_id()` and the default constructor (handle.h:17, 47). -/
def invalid : Handle w := ⟨~~~(0#w)⟩

/-- `handle( I( n ) )`: conversion to the identifier type drops high bits. -/
def ofNat (n : Nat) : Handle w := ⟨BitVec.ofNat w n⟩

/-- `handle( handle&& o )` (handle.h:19): the new handle and what is left in the source. -/
def moveCtor (src : Handle w) : Handle w × Handle w := (src, invalid)

/-- `operator=( handle&& o )` (handle.h:27): target and source afterwards. -/
def moveAssign (target src : Handle w) : Handle w × Handle w := (src, target)

/-- `operator bool` (handle.h:29). -/
def toBool (h : Handle w) : Bool := h != invalid

end Handle

/-- `handle_span` (handle.h:53-91). -/
structure HandleSpan (w : Nat) where
  first : Handle w
  last : Handle w

/-- `handle_span::contains` (handle.h:82). -/
def HandleSpan.contains {w : Nat} (s : HandleSpan w) (h : Handle w) : Bool :=
  decide (s.first.value ≤ h.value) && decide (h.value < s.last.value)

/-- `update_moved_handle` (handle.h:94-100); unsigned arithmetic. -/
def updateMovedHandle {w : Nat} (h : Handle w) (moved : HandleSpan w) (newBegin : Handle w) : Handle w :=
  if moved.contains h then ⟨h.value - moved.first.value + newBegin.value⟩ else h

namespace HandleVec
variable {T : Type} {w : Nat}

/-- `push_back` (handle_vector.h:36-38) with `back_handle()` (line 46). -/
def pushBack (v : List T) (e : T) : Handle w × List T := (.ofNat ((v ++ [e]).length - 1), v ++ [e])

/-- `contains` (handle_vector.h:55). -/
def contains (v : List T) (h : Handle w) : Bool := decide (h.value.toNat < v.length)

/-- `operator[]( handle )` (handle_vector.h:40-41). -/
def get (v : List T) (h : Handle w) : Res T := Vec.get v h.value.toNat

/-- `span()` (handle_vector.h:50-52). -/
def span (v : List T) : HandleSpan w := ⟨.ofNat 0, .ofNat v.length⟩

/-- `erase( handle )` (handle_vector.h:57). -/
def erase (v : List T) (h : Handle w) : Res (Handle w × List T) :=
  if h.value.toNat < v.length then .ok (h, v.eraseIdx h.value.toNat) else .ub

/-- `erase( span )` (handle_vector.h:58). -/
def eraseSpan (v : List T) (s : HandleSpan w) : Res (Handle w × List T) :=
  if s.first.value.toNat ≤ s.last.value.toNat ∧ s.last.value.toNat ≤ v.length then
    .ok (s.first, v.take s.first.value.toNat ++ v.drop s.last.value.toNat)
  else .ub

/-- The loop of `find( span, e )` (handle_vector.h:60): `n` handles from `h` on. -/
def findFrom [DecidableEq T] (v : List T) (e : T) : Nat → Handle w → Res (Handle w)
  | 0, _ => .ok .invalid
  | n + 1, h => (get v h).bind fun x => if x = e then .ok h else findFrom v e n ⟨h.value + 1#w⟩

/-- `find( e )` (handle_vector.h:60-61). The loop runs until the handles are equal, which is
`last - first` steps of unsigned arithmetic. -/
def find [DecidableEq T] (v : List T) (e : T) : Res (Handle w) :=
  let s : HandleSpan w := span v
  findFrom v e (s.last.value - s.first.value).toNat s.first

end HandleVec
end Xo
