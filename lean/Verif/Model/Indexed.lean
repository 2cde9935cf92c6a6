import Verif.Model.FlatMap

/-!
Model of /repo/xo/container/indexed_map.h, /repo/xo/container/indexed_set.h and
/repo/xo/container/label_vector.h.
-/
namespace Xo

/-- `indexed_map`: a vector of pairs (indexed_map.h:13). -/
structure IndexedMap (K V : Type) where
  data : List (K × V)
  deriving Repr, DecidableEq

namespace IndexedMap
variable {K V : Type} [DecidableEq K]

/-- The loop of `find` (indexed_map.h:39-41): index of the first entry with the key, or `end()`. -/
def findFrom (k : K) : List (K × V) → Nat
  | [] => 0
  | e :: es => if e.1 = k then 0 else findFrom k es + 1

/-- `find( key )` (indexed_map.h:45-46). -/
def findIt (m : IndexedMap K V) (k : K) : Nat := findFrom k m.data

/-- `contains` (indexed_map.h:51). -/
def contains (m : IndexedMap K V) (k : K) : Bool := m.findIt k != m.data.length

/-- `count` (indexed_map.h:48-50). -/
def count (m : IndexedMap K V) (k : K) : Nat := m.data.countP fun e => decide (e.1 = k)

/-- `insert` (indexed_map.h:53-59): replaces the value of an existing key; the flag is `pair::second`. -/
def insert (m : IndexedMap K V) (k : K) (v : V) : IndexedMap K V × Bool :=
  match m.data[m.findIt k]? with
  | some e => (⟨m.data.set (m.findIt k) (e.1, v)⟩, false)
  | none => (⟨m.data ++ [(k, v)]⟩, true)

/-- Non-const `operator[]` followed by an assignment of `v` (indexed_map.h:61-65). -/
def assign (m : IndexedMap K V) (k : K) (v : V) : IndexedMap K V :=
  match m.data[m.findIt k]? with
  | some e => ⟨m.data.set (m.findIt k) (e.1, v)⟩
  | none => ⟨m.data ++ [(k, v)]⟩

/-- Non-const `operator[]` used for reading (indexed_map.h:61-65): appends `V{}` if absent. -/
def read (dflt : V) (m : IndexedMap K V) (k : K) : IndexedMap K V × V :=
  match m.data[m.findIt k]? with
  | some e => (m, e.2)
  | none => (⟨m.data ++ [(k, dflt)]⟩, dflt)

/-- Const `operator[]( key )` (indexed_map.h:67-71). -/
def get (m : IndexedMap K V) (k : K) : Res V :=
  match m.data[m.findIt k]? with
  | some e => .ok e.2
  | none => .err

/-- `operator[]( size_t )` (indexed_map.h:74-75): unchecked. -/
def atIdx (m : IndexedMap K V) (i : Nat) : Res (K × V) := Res.ofOptionUb m.data[i]?

end IndexedMap

/-- `indexed_set` (indexed_set.h:43-44: `values_`, `indices_`). -/
structure IndexedSet (T : Type) where
  values : List T
  indices : FlatMap T Nat
  deriving Repr, DecidableEq

namespace IndexedSet
variable {T : Type} [LinearOrder T]

def empty : IndexedSet T := ⟨[], FlatMap.empty⟩

/-- `try_get` (indexed_set.h:20-24). `optional<I>` of an index type uses the maximum as "none" sentinel;
`get_or_add` never hands that index out. -/
def tryGet (s : IndexedSet T) (v : T) : Option Nat := s.indices.find v

/-- `get_or_add` (indexed_set.h:26-36). `mx` is `constants<I>::max()`. The value is appended before the range
check, so the second component is the state also in the error case. -/
def getOrAdd (mx : Nat) (s : IndexedSet T) (v : T) : Res Nat × IndexedSet T :=
  match s.indices.find v with
  | some i => (.ok i, s)
  | none =>
    let values := s.values ++ [v]
    let index := values.length - 1
    if index ≥ mx then (.err, ⟨values, s.indices⟩)
    else (.ok index, ⟨values, s.indices.assign v index⟩)

/-- `operator[]` (indexed_set.h:18): unchecked. -/
def at' (s : IndexedSet T) (i : Nat) : Res T := Res.ofOptionUb s.values[i]?

/-- `size` (indexed_set.h:38). -/
def size (s : IndexedSet T) : Nat := s.values.length

end IndexedSet

/-- `label_vector` (label_vector.h:63-64: `labels_`, `label_indices_`). The `std::unordered_map` is
modelled as a function to `Option`. A label that was default-constructed by a size constructor or `resize` is
the value `dflt`. -/
structure LabelVector (L : Type) where
  labels : List L
  idx : L → Option Nat

namespace LabelVector
variable {L : Type} [DecidableEq L]

/-- `label_vector( size_t )` (label_vector.h:13). -/
def ofSize (dflt : L) (n : Nat) : LabelVector L := ⟨List.replicate n dflt, fun _ => none⟩

/-- `label_vector( initializer_list )`, `label_vector( vector )` (label_vector.h:14-15): the index map stays
empty. -/
def ofLabels (ls : List L) : LabelVector L := ⟨ls, fun _ => none⟩

def size (s : LabelVector L) : Nat := s.labels.length

/-- `find` (label_vector.h:24-27); `none` is `no_index`. -/
def find (s : LabelVector L) (l : L) : Option Nat := s.idx l

/-- `find_or_throw` (label_vector.h:29-33). -/
def findOrThrow (s : LabelVector L) (l : L) : Res Nat := Res.ofOptionErr (s.idx l)

def put (f : L → Option Nat) (l : L) (i : Nat) : L → Option Nat := fun l' => if l' = l then some i else f l'

/-- `add` (label_vector.h:18-22). -/
def add (s : LabelVector L) (l : L) : Res (Nat × LabelVector L) :=
  match s.find l with
  | some _ => .err
  | none => .ok (s.labels.length, ⟨s.labels ++ [l], put s.idx l s.labels.length⟩)

/-- `find_or_add` (label_vector.h:35-42). It is declared `const` although it modifies the vector, so in the
code as it stands it cannot be instantiated; this models its body. -/
def findOrAdd (s : LabelVector L) (l : L) : Nat × LabelVector L :=
  match s.find l with
  | some i => (i, s)
  | none => (s.labels.length, ⟨s.labels ++ [l], put s.idx l s.labels.length⟩)

/-- `resize` (label_vector.h:44). -/
def resize (dflt : L) (s : LabelVector L) (n : Nat) : Res (LabelVector L) :=
  if n < s.labels.length then .err
  else .ok ⟨s.labels ++ List.replicate (n - s.labels.length) dflt, s.idx⟩

/-- `set` (label_vector.h:52-57): the old label's index entry is not removed. -/
def set (s : LabelVector L) (i : Nat) (l : L) : Res (LabelVector L) :=
  if i < s.labels.length ∧ s.find l = none then .ok ⟨s.labels.set i l, put s.idx l i⟩
  else .err

/-- `clear` (label_vector.h:46). -/
def clear (_ : LabelVector L) : LabelVector L := ⟨[], fun _ => none⟩

/-- `operator[]` (label_vector.h:50): unchecked. -/
def at' (s : LabelVector L) (i : Nat) : Res L := Res.ofOptionUb s.labels[i]?

end LabelVector
end Xo
