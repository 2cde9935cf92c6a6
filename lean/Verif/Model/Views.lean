import Verif.Model.Vec

/-!
Model of /repo/xo/container/zip.h, /repo/xo/container/view_if.h, /repo/xo/container/stream_wrapper.h and
/repo/xo/utility/pointer_iterator.h. An iterator is the position it points to, or the rest of the sequence from there.
-/
namespace Xo.Views
open Xo

/-! ### zip -/
section
variable {α β : Type}

/-- `for ( auto [a, b] : zip( c1, c2 ) )` (zip.h:8-27), with a body that may change both elements through the references. `!=` looks at the
first sequence only (zip.h:15); `*` beyond the end of the second is undefined (zip.h:14). The result is both sequences afterwards. -/
def zipLoop (f : α → β → α × β) : List α → List β → Res (List α × List β)
  | [], bs => .ok ([], bs)
  | _ :: _, [] => .ub
  | a :: as, b :: bs => (zipLoop f as bs).bind fun r => .ok ((f a b).1 :: r.1, (f a b).2 :: r.2)

/-- The pairs that the body sees (zip.h:14). -/
def zipSeen : List α → List β → Res (List (α × β))
  | [], _ => .ok []
  | _ :: _, [] => .ub
  | a :: as, b :: bs => (zipSeen as bs).bind fun r => .ok ((a, b) :: r)
end

/-! ### view_if -/
section
variable {α : Type} (p : α → Bool)

/-- `next_match` (view_if.h:18): the rest of the sequence from the next element with the property. -/
def nextMatch : List α → List α
  | [] => []
  | x :: xs => if p x then x :: xs else nextMatch xs

theorem nextMatch_length (l : List α) : (nextMatch p l).length ≤ l.length := by
  induction l with
  | nil => simp [nextMatch]
  | cons x l ih => simp only [nextMatch]; split <;> simp <;> omega

/-- `iterator( cv, pos )` (view_if.h:17). -/
def iter (rest : List α) : List α := nextMatch p rest

/-- `begin()` and `end()` (view_if.h:27-28). -/
def begin' (l : List α) : List α := iter p l
def end' : List α := iter p []

/-- `++it` (view_if.h:19); beyond the end it is undefined. -/
def next : List α → Res (List α)
  | [] => .ub
  | _ :: xs => .ok (nextMatch p xs)

/-- `it++` (view_if.h:20): the old and the new iterator. -/
def nextPost (it : List α) : Res (List α × List α) := (next p it).bind fun it' => .ok (it, it')

/-- `*it` (view_if.h:23). -/
def deref : List α → Res α
  | [] => .ub
  | x :: _ => .ok x

/-- `for ( auto& e : view )`, with at most `fuel` steps. Two iterators of one view are equal when the same number of elements is left
(view_if.h:21-22). -/
def visit : Nat → List α → Res (List α)
  | 0, it => if it.length = (end' p).length then .ok [] else .ub
  | fuel + 1, it =>
    if it.length = (end' p).length then .ok []
    else (deref it).bind fun x => (next p it).bind fun it' => (visit fuel it').bind fun r => .ok (x :: r)

/-- The whole loop; there are not more elements than in the container. -/
def visited (l : List α) : Res (List α) := visit p l.length (begin' p l)
end

/-! ### Streams over iterators -/
section
variable {K : Type}

/-- What is written to and read from a stream: a value, a vector or a quaternion. -/
inductive Item (K : Type) where
  | num (v : K)
  | vec (x y z : K)
  | quat (w x y z : K)
  deriving DecidableEq

/-- The types of the variables that are read. -/
inductive Kind where
  | num | vec | quat
  deriving DecidableEq

/-- An iterator position in a container (stream_wrapper.h:11, 22). -/
structure Stream (K : Type) where
  data : List K
  pos : Nat

/-- `str << v` for one value (stream_wrapper.h:24-25, 43). -/
def Stream.put (s : Stream K) (v : K) : Res (Stream K) :=
  if s.pos < s.data.length then .ok ⟨s.data.set s.pos v, s.pos + 1⟩ else .ub

/-- `str >> v` for one value (stream_wrapper.h:13-14, 45). -/
def Stream.take (s : Stream K) : Res (K × Stream K) :=
  match s.data[s.pos]? with
  | some v => .ok (v, ⟨s.data, s.pos + 1⟩)
  | none => .ub

/-- `str << v` (stream_wrapper.h:42-52, 58-61). -/
def Stream.write (s : Stream K) : Item K → Res (Stream K)
  | .num v => s.put v
  | .vec x y z => (s.put x).bind fun s => (s.put y).bind fun s => s.put z
  | .quat w x y z => (s.put w).bind fun s => (s.put x).bind fun s => (s.put y).bind fun s => s.put z

/-- `str >> v` (stream_wrapper.h:44-45, 53-56, 62-65). -/
def Stream.read (s : Stream K) : Kind → Res (Item K × Stream K)
  | .num => s.take.bind fun a => .ok (.num a.1, a.2)
  | .vec => s.take.bind fun a => a.2.take.bind fun b => b.2.take.bind fun c => .ok (.vec a.1 b.1 c.1, c.2)
  | .quat => s.take.bind fun a => a.2.take.bind fun b => b.2.take.bind fun c => c.2.take.bind fun d => .ok (.quat a.1 b.1 c.1 d.1, d.2)

def Stream.writeAll (s : Stream K) : List (Item K) → Res (Stream K)
  | [] => .ok s
  | i :: is => (s.write i).bind fun s => Stream.writeAll s is

def Stream.readAll (s : Stream K) : List Kind → Res (List (Item K) × Stream K)
  | [] => .ok ([], s)
  | k :: ks => (s.read k).bind fun a => (Stream.readAll a.2 ks).bind fun b => .ok (a.1 :: b.1, b.2)

/-- `push_back_stream` (stream_wrapper.h:31-39): a value is added at the end. -/
def pushBack (cont : List K) (v : K) : List K := cont ++ [v]
end

end Xo.Views
