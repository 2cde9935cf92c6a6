import Verif.Model.Basic
import Mathlib.Order.Defs.LinearOrder

/-!
Model of /repo/xo/container/flat_map.h, /repo/xo/container/flat_set.h and
/repo/xo/container/sorted_vector.h.

An iterator is an index into the underlying vector; `end()` is the length.
Key types are linear orders whose `==` and `<` agree (`LinearOrder`): a float key that is NaN, or a
user type with an inconsistent `<`, is outside the model.
-/
namespace Xo

variable {K V : Type} [LinearOrder K]

/-- `flat_map::data_` (flat_map.h:130). -/
structure FlatMap (K V : Type) where
  data : List (K × V)
  deriving Repr, DecidableEq

namespace FlatMap

/-- `flat_map()` (flat_map.h:25). -/
def empty : FlatMap K V := ⟨[]⟩

/-- `size()` (flat_map.h:35). -/
def size (m : FlatMap K V) : Nat := m.data.length

/-- `lower_bound` (flat_map.h:62-67). -/
def lowerBound (m : FlatMap K V) (k : K) : Nat :=
  bound m.data fun e => decide (e.1 < k)

/-- `upper_bound` (flat_map.h:69-74): `std::upper_bound` continues right while not `key < elem`. -/
def upperBound (m : FlatMap K V) (k : K) : Nat :=
  bound m.data fun e => !decide (k < e.1)

/-- `it != end() && it->first == key` (flat_map.h:78, 92, 108): the entry at `it`, if its key is `k`. -/
def entryAt (m : FlatMap K V) (it : Nat) (k : K) : Option V :=
  match m.data[it]? with
  | some e => if e.1 = k then some e.2 else none
  | none => none

/-- `find` (flat_map.h:76-83): the index of the entry, or `end()`. -/
def findIt (m : FlatMap K V) (k : K) : Nat :=
  let it := m.lowerBound k
  if (m.entryAt it k).isSome then it else m.data.length

/-- What a caller reads through `find( key )`: the value, or nothing if the iterator is `end()`. -/
def find (m : FlatMap K V) (k : K) : Option V :=
  match m.data[m.findIt k]? with
  | some e => some e.2
  | none => none

/-- `contains` (flat_map.h:88). -/
def contains (m : FlatMap K V) (k : K) : Bool := m.findIt k != m.data.length

/-- `count` (flat_map.h:85-87), a linear scan. -/
def count (m : FlatMap K V) (k : K) : Nat := m.data.countP fun e => decide (e.1 = k)

/-- `at` (flat_map.h:115-125). -/
def at' (m : FlatMap K V) (k : K) : Res V :=
  if m.findIt k = m.data.length then .err
  else match m.data[m.findIt k]? with
    | some e => .ok e.2
    | none => .ub

/-- `insert` (flat_map.h:90-104); the flag is `pair::second`. -/
def insert (m : FlatMap K V) (k : K) (v : V) : FlatMap K V × Bool :=
  let it := m.lowerBound k
  if (m.entryAt it k).isSome then (m, false)
  else (⟨m.data.insertIdx it (k, v)⟩, true)

/-- `operator[]` followed by an assignment of `v` through the returned reference (flat_map.h:106-111). -/
def assign (m : FlatMap K V) (k : K) (v : V) : FlatMap K V :=
  let it := m.lowerBound k
  if (m.entryAt it k).isSome then ⟨m.data.set it (k, v)⟩
  else ⟨m.data.insertIdx it (k, v)⟩

/-- `operator[]` used for reading (flat_map.h:106-111): inserts `V()` (`dflt`) if absent. -/
def getOrDefault (dflt : V) (m : FlatMap K V) (k : K) : FlatMap K V × V :=
  let it := m.lowerBound k
  match m.entryAt it k with
  | some v => (m, v)
  | none => (⟨m.data.insertIdx it (k, dflt)⟩, dflt)

/-- `erase( key )` (flat_map.h:56-60). -/
def erase (m : FlatMap K V) (k : K) : FlatMap K V × Nat :=
  if m.findIt k = m.data.length then (m, 0)
  else (⟨m.data.eraseIdx (m.findIt k)⟩, 1)

/-- `flat_map( initializer_list )` with `sort()` (flat_map.h:29, 131-133). `std::sort` is modelled by a
stable sort, one of the orders it may produce; it removes nothing. -/
def ofList (l : List (K × V)) : FlatMap K V :=
  ⟨l.mergeSort fun a b => !decide (b.1 < a.1)⟩

end FlatMap

/-- `flat_set::data_` (flat_set.h:106). -/
structure FlatSet (K : Type) where
  data : List K
  deriving Repr, DecidableEq

namespace FlatSet

/-- `flat_set()` (flat_set.h:22). -/
def empty : FlatSet K := ⟨[]⟩

/-- `size()` (flat_set.h:32). -/
def size (m : FlatSet K) : Nat := m.data.length

/-- `lower_bound` (flat_set.h:59-64). -/
def lowerBound (m : FlatSet K) (k : K) : Nat := bound m.data fun e => decide (e < k)

/-- `upper_bound` (flat_set.h:66-71). -/
def upperBound (m : FlatSet K) (k : K) : Nat := bound m.data fun e => !decide (k < e)

/-- `it != end() && *it == key` (flat_set.h:75, 89). -/
def hitAt (m : FlatSet K) (it : Nat) (k : K) : Bool :=
  match m.data[it]? with
  | some e => decide (e = k)
  | none => false

/-- `find` (flat_set.h:73-80). -/
def findIt (m : FlatSet K) (k : K) : Nat :=
  let it := m.lowerBound k
  if m.hitAt it k then it else m.data.length

/-- `contains` (flat_set.h:85). -/
def contains (m : FlatSet K) (k : K) : Bool := m.findIt k != m.data.length

/-- `count` (flat_set.h:82-84). -/
def count (m : FlatSet K) (k : K) : Nat := m.data.countP fun e => decide (e = k)

/-- `insert` (flat_set.h:87-99). -/
def insert (m : FlatSet K) (k : K) : FlatSet K × Bool :=
  let it := m.lowerBound k
  if m.hitAt it k then (m, false) else (⟨m.data.insertIdx it k⟩, true)

/-- `erase( key )` (flat_set.h:53-57). -/
def erase (m : FlatSet K) (k : K) : FlatSet K × Nat :=
  if m.findIt k = m.data.length then (m, 0) else (⟨m.data.eraseIdx (m.findIt k)⟩, 1)

/-- `flat_set( initializer_list )` with `sort()` (flat_set.h:26, 107-109). -/
def ofList (l : List K) : FlatSet K := ⟨l.mergeSort fun a b => !decide (b < a)⟩

end FlatSet

/-- `sorted_vector` (sorted_vector.h:6): a vector kept sorted. -/
structure SortedVector (K : Type) where
  data : List K
  deriving Repr, DecidableEq

namespace SortedVector

/-- `sorted_vector()` (sorted_vector.h:28). -/
def empty : SortedVector K := ⟨[]⟩

/-- `sorted_vector( initializer_list )` (sorted_vector.h:29). -/
def ofList (l : List K) : SortedVector K := ⟨l.mergeSort fun a b => !decide (b < a)⟩

/-- `insert` (sorted_vector.h:31-33): at `std::upper_bound`. -/
def insert (m : SortedVector K) (e : K) : SortedVector K :=
  ⟨m.data.insertIdx (bound m.data fun x => !decide (e < x)) e⟩

/-- `find` (sorted_vector.h:46-54). -/
def findIt (m : SortedVector K) (e : K) : Nat :=
  let it := bound m.data fun x => decide (x < e)
  match m.data[it]? with
  | some x => if x = e then it else m.data.length
  | none => m.data.length

/-- The loop `while ( it2 != end() && *it2 == e ) ++it2;` (sorted_vector.h:39-40): how many elements
equal to `e` follow. -/
def runLength (e : K) : List K → Nat
  | [] => 0
  | x :: xs => if x = e then runLength e xs + 1 else 0

/-- `remove` (sorted_vector.h:35-44): erases `[it, it2)`. -/
def remove (m : SortedVector K) (e : K) : SortedVector K :=
  let it := m.findIt e
  if it = m.data.length then m
  else
    let it2 := it + 1 + runLength e (m.data.drop (it + 1))
    ⟨m.data.take it ++ m.data.drop it2⟩

end SortedVector
end Xo
