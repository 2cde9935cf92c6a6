import Verif.Model.Circular

/-!
Iterators of a `circular_deque` (/repo/xo/container/circular_deque.h:49-76). An iterator refers to the buffer of its deque, so it reads that buffer as it is now. Numbers of
type `size_t` have 64 bits.
-/
namespace Xo.CDeque
variable {T : Type}

/-- `index_` of an iterator (circular_deque.h:67). -/
structure It where
  index : Nat
  deriving DecidableEq

/-- The numbers of `size_t`. -/
def word (i : Int) : Nat := (i % 2 ^ 64).toNat

/-- `begin()` (circular_deque.h:73, 75). -/
def first (d : CDeque T) : It := ⟨d.front⟩

/-- `end()` (circular_deque.h:74, 76). -/
def last (d : CDeque T) : It := ⟨word (d.front + d.size)⟩

/-- `++it` (circular_deque.h:57). -/
def It.next (i : It) : It := ⟨word (i.index + 1)⟩

/-- `it + v` with an `int` (circular_deque.h:59). -/
def It.plus (i : It) (v : Int) : It := ⟨word (i.index + v)⟩

/-- `it - v` with an `int` (circular_deque.h:60). -/
def It.minus (i : It) (v : Int) : It := ⟨word (i.index - v)⟩

/-- `it - other` (circular_deque.h:61). -/
def It.diff (i j : It) : Nat := word (i.index - j.index)

/-- `*it` and `it->` (circular_deque.h:64-65). -/
def deref (d : CDeque T) (i : It) : Res T := (umod i.index d.buf.length).bind fun j => Vec.get d.buf j

/-- The value of `it++` (circular_deque.h:58): a reference to a variable of the function, which is gone. -/
def It.postfix (_ : It) : Res It := .ub

/-- `for ( ; it != e; ++it ) out.push_back( *it );` : the condition (circular_deque.h:63) is false for the first time after as many steps as the difference of the indices. -/
def walk (d : CDeque T) (i e : It) : Res (List T) := (List.range (e.diff i)).mapM fun k : Nat => deref d (i.plus k)

end Xo.CDeque
