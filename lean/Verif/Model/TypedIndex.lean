import Verif.Model.Vec
import Verif.Model.Handle

/-!
Model of /repo/xo/utility/index.h (`index_class`, `index_span`), /repo/xo/container/collection_ic.h and
/repo/xo/container/collection.h. The index type is an unsigned integer with `N` values; `narrow` says that it is narrower than
`int`, so that sums and differences are computed as `int` and go through the constructor for `int`.
-/
namespace Xo.TIdx
open Xo

/-- `index_class` (index.h:9-60). -/
structure Idx where
  idx : Nat
  deriving DecidableEq

/-- The index type: how many values it has and whether it is narrower than `int`. -/
structure ITy where
  N : Nat
  narrow : Bool

variable (I : ITy)

/-- `invalid_index_value()` (index.h:59) and the default constructor (index.h:15). -/
def invalid : Idx := ⟨I.N - 1⟩

/-- `max_value()` (index.h:30). -/
def maxValue : Nat := I.N - 1 - 1

/-- The constructor from `index_type` (index.h:20): a wider value loses its high bits in the conversion before. -/
def ofIndex (n : Nat) : Idx := ⟨n % I.N⟩

/-- The constructor from `size_t` (index.h:22). -/
def ofSize (n : Nat) : Idx := if n ≤ maxValue I then ofIndex I n else invalid I

/-- The constructor from `int` (index.h:23). -/
def ofInt (n : Int) : Idx := if 0 ≤ n ∧ n.toNat ≤ maxValue I then ofIndex I n.toNat else invalid I

/-- The constructor that takes the result of an addition or subtraction of two values of the index type: `int` for narrow types,
else the index type with wrap-around. -/
def ofArith (n : Int) : Idx := if I.narrow then ofInt I n else ⟨(n % I.N).toNat⟩

/-- `operator bool` (index.h:31). -/
def toBool (i : Idx) : Bool := decide (i ≠ invalid I)

/-- `index_class( index_class&& o )` (index.h:17): the new index and what is left in the source. -/
def moveCtor (o : Idx) : Idx × Idx := (o, invalid I)

/-- `operator=( index_class&& o )` (index.h:27) for two different objects: target and source afterwards. -/
def moveAssign (_target o : Idx) : Idx × Idx := (o, invalid I)

/-- `x = std::move( x )` (index.h:27): both names mean one object; the reset comes last. -/
def moveSelf (_x : Idx) : Idx := invalid I

/-- `end( c )` (index.h:39). -/
def endIdx (size : Nat) : Idx := ofIndex I size

/-- `back( c )` (index.h:40). -/
def backIdx (size : Nat) : Idx := ofArith I ((size % I.N : Nat) - 1)

/-- `operator+` (index.h:42). -/
def add (i : Idx) (ofs : Nat) : Idx := ofArith I ((i.idx : Int) + ofs)

/-- `operator-` (index.h:43). -/
def sub (i : Idx) (ofs : Nat) : Idx := ofArith I ((i.idx : Int) - ofs)

/-- `operator++` (index.h:45). -/
def inc (i : Idx) : Idx := ⟨(i.idx + 1) % I.N⟩

/-- `i++` (index.h:46): the old value and the new one. -/
def incPost (i : Idx) : Idx × Idx := (ofIndex I i.idx, inc I i)

/-- `operator<` (index.h:49). -/
def lt (a b : Idx) : Bool := decide (a.idx < b.idx)
/-- `operator<=` (index.h:50). -/
def le (a b : Idx) : Bool := decide (a.idx ≤ b.idx)
/-- `operator>` (index.h:51). -/
def gt (a b : Idx) : Bool := decide (a.idx > b.idx)
/-- `operator>=` (index.h:52). -/
def ge (a b : Idx) : Bool := decide (a.idx ≥ b.idx)

/-- `index_span` (index.h:64-75). -/
structure Span where
  first : Idx
  last : Idx

/-- `index_span::size` (index.h:70); the result has the index type. -/
def Span.size (s : Span) : Nat := (((s.last.idx : Int) - s.first.idx) % I.N).toNat

/-- `index_span::empty` (index.h:71). -/
def Span.empty (s : Span) : Bool := decide (s.first = s.last)

/-- `for ( auto i : span )` (index.h:45, 47, 54, 67-68): `fuel` bounds the number of steps; there is no result when it does not suffice. -/
def visit : Nat → Idx → Idx → Option (List Idx)
  | 0, i, e => if i = e then some [] else none
  | fuel + 1, i, e => if i = e then some [] else (visit fuel (inc I i) e).map (i :: ·)

/-- The whole loop: the indices repeat after `N` steps. -/
def Span.visited (s : Span) : Option (List Idx) := visit I I.N s.first s.last

/-! ### Collections -/

/-- The element types of a collection, and the elements in each of its vectors (collection_ic.h:16, 62). -/
abbrev Coll {Ty : Type} (E : Ty → Type) := (t : Ty) → List (E t)

variable {Ty : Type} [DecidableEq Ty] {E : Ty → Type}

/-- A collection with the vector of one type replaced (`get_vec`, collection_ic.h:32). -/
def setVec (c : Coll E) (t : Ty) (v : List (E t)) : Coll E := fun u => if h : t = u then h ▸ v else c u

/-- `push_back` (collection_ic.h:21-22). -/
def pushBack (c : Coll E) (t : Ty) (e : E t) : Idx × Coll E :=
  let v := c t ++ [e]
  (backIdx I v.length, setVec c t v)

/-- `operator[]` (collection_ic.h:24-25). -/
def get (c : Coll E) (t : Ty) (i : Idx) : Res (E t) := Vec.get (c t) i.idx

/-- `c[ i ] = e` (collection_ic.h:25). -/
def put (c : Coll E) (t : Ty) (i : Idx) (e : E t) : Res (Coll E) :=
  if i.idx < (c t).length then .ok (setVec c t ((c t).set i.idx e)) else .ub

/-- `erase` (collection_ic.h:27): the element is removed, but the function ends without a `return`, which is undefined behaviour. -/
def erase (_c : Coll E) (_t : Ty) (_i : Idx) : Res (Idx × Coll E) := .ub

/-- `pop_back` (collection_ic.h:28). -/
def popBack (c : Coll E) (t : Ty) : Res (Coll E) := if (c t).length = 0 then .ub else .ok (setVec c t (c t).dropLast)

/-- `get_index( e )` for the element at position `k` (collection_ic.h:40); `[0]` needs a first element. -/
def getIndex (c : Coll E) (t : Ty) (k : Nat) : Res Idx := if (c t).length = 0 then .ub else .ok (ofIndex I k)

/-- `get_index_span` (collection_ic.h:43-45). -/
def indexSpan (c : Coll E) (t : Ty) : Span := ⟨ofIndex I 0, endIdx I (c t).length⟩

/-- `clear` (collection_ic.h:47-49). -/
def clear (_c : Coll E) : Coll E := fun _ => []

/-! ### Collections with handles -/
variable {w : Nat}

/-- `collection::push_back` (collection.h:20-21). -/
def hPush (c : Coll E) (t : Ty) (e : E t) : Handle w × Coll E :=
  let r := HandleVec.pushBack (c t) e
  (r.1, setVec c t r.2)

/-- `collection::operator[]` (collection.h:23-24). -/
def hGet (c : Coll E) (t : Ty) (h : Handle w) : Res (E t) := HandleVec.get (c t) h

/-- `collection::erase( handle )` (collection.h:26). -/
def hErase (c : Coll E) (t : Ty) (h : Handle w) : Res (Handle w × Coll E) :=
  (HandleVec.erase (c t) h).map fun r => (r.1, setVec c t r.2)

/-- `collection::get_handle( e )` for the element at position `k` (collection.h:32-34). -/
def hHandle (c : Coll E) (t : Ty) (k : Nat) : Res (Handle w) := if (c t).length = 0 then .ub else .ok (.ofNat k)

end Xo.TIdx
