/-!
Model of `std::map` as far as /repo uses it (memoize.h:32, 69; file_resource_cache.h:100): the elements in
iteration order. The search tree is abstracted; `find` is the lower bound followed by a comparison. The comparator
`lt` is a parameter, so that an argument type without a total order (floating point with NaN) can be looked at.
For such a comparator the C++ standard promises nothing; the model follows the usual search-tree implementation
for queries that compare below no key, where the answer does not depend on the shape of the tree.
-/
namespace Xo

/-- A `std::map`. -/
structure StdMap (K V : Type) where
  data : List (K × V)
  deriving Repr, DecidableEq

namespace StdMap
variable {K V : Type} (lt : K → K → Bool)

/-- An empty map. -/
def empty : StdMap K V := ⟨[]⟩

/-- `size()`. -/
def size (m : StdMap K V) : Nat := m.data.length

def findL : List (K × V) → K → Option V
  | [], _ => none
  | e :: l, k => if lt e.1 k then findL l k else if lt k e.1 then none else some e.2

/-- `find( k )`, read through the iterator. -/
def find (m : StdMap K V) (k : K) : Option V := findL lt m.data k

def putL : List (K × V) → K → V → List (K × V)
  | [], k, v => [(k, v)]
  | e :: l, k, v =>
    if lt e.1 k then e :: putL l k v else if lt k e.1 then (k, v) :: e :: l else (e.1, v) :: l

/-- `m[ k ] = v`. -/
def put (m : StdMap K V) (k : K) (v : V) : StdMap K V := ⟨putL lt m.data k v⟩

end StdMap
end Xo
