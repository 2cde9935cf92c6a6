import Verif.Model.Basic

/-!
Model of /repo/xo/container/container_tools.h and /repo/xo/container/view_if.h.

A container is the list of its elements in iteration order; an iterator is a position, `l.length` is `end()`.
Reading or writing at a position that is not there is `ub`. A predicate is a pure function; `*it == e` is the
predicate `p` that holds of the elements equal to `e`. `no_index` is `none`. `size_t` does not overflow.
Not modelled: `index_of` (pointer subtraction), element types whose copy assignment throws.
-/
namespace Xo
namespace Cont
variable {α β : Type}

/-- The loop of `for_each` (container_tools.h:12-21): the state `s` that `fn` changes, from position `i` on. -/
def forEachFrom {σ : Type} (l : List α) (fn : α → σ → σ) (i : Nat) (s : σ) : σ :=
  if h : i < l.length then forEachFrom l fn (i + 1) (fn l[i] s) else s
termination_by l.length - i

/-- `for_each` (container_tools.h:12-21). -/
def forEach {σ : Type} (l : List α) (fn : α → σ → σ) (s : σ) : σ := forEachFrom l fn 0 s

/-- The loop of `find` and `find_if` (container_tools.h:24-31, 39-46) from position `i` on; the position where it stops. -/
def findFrom (p : α → Bool) (l : List α) (i : Nat) : Nat :=
  if h : i < l.length then (if p l[i] then i else findFrom p l (i + 1)) else i
termination_by l.length - i

/-- `find`, `find_if` (container_tools.h:24-31, 39-46). -/
def find (p : α → Bool) (l : List α) : Nat := findFrom p l 0

/-- `find_index`, `find_index_if` (container_tools.h:34-36, 49-51). -/
def findIndex (p : α → Bool) (l : List α) (idx : Nat := 0) : Option Nat :=
  if h : idx < l.length then (if p l[idx] then some idx else findIndex p l (idx + 1)) else none
termination_by l.length - idx

/-- The loop of `find_ref_if` (container_tools.h:54-61). -/
def findRefFrom (p : α → Bool) (l : List α) (i : Nat) : Res α :=
  if h : i < l.length then (if p l[i] then .ok l[i] else findRefFrom p l (i + 1)) else .err
termination_by l.length - i

/-- `find_ref_if` (container_tools.h:54-61): throws if there is no such element. -/
def findRef (p : α → Bool) (l : List α) : Res α := findRefFrom p l 0

/-- The loop of `count` and `count_if` (container_tools.h:64-71). -/
def countFrom (p : α → Bool) (l : List α) (i c : Nat) : Nat :=
  if h : i < l.length then countFrom p l (i + 1) (c + (p l[i]).toNat) else c
termination_by l.length - i

/-- `count`, `count_if` (container_tools.h:64-71). -/
def count (p : α → Bool) (l : List α) : Nat := countFrom p l 0 0

/-- `any_of` (container_tools.h:74-76). -/
def anyOf (p : α → Bool) (l : List α) : Bool := find p l != l.length

/-- `none_of` (container_tools.h:79-81). -/
def noneOf (p : α → Bool) (l : List α) : Bool := find p l == l.length

/-- The loop of `contains` and `contains_if` (container_tools.h:84-91). -/
def containsFrom (p : α → Bool) (l : List α) (i : Nat) : Bool :=
  if h : i < l.length then (if p l[i] then true else containsFrom p l (i + 1)) else false
termination_by l.length - i

/-- `contains`, `contains_if` (container_tools.h:84-91). -/
def contains (p : α → Bool) (l : List α) : Bool := containsFrom p l 0

/-- `copy( ib, ie, ob )` and, with `f` the cast, `copy_cast` (container_tools.h:94-96, 114-118): from positions
`[ib, ie)` of `src` to `dst` at `ob`; the target afterwards and the final output position. -/
def copyFrom (f : α → β) (src : List α) (ib ie : Nat) (dst : List β) (ob : Nat) : Res (List β × Nat) :=
  if ib = ie then .ok (dst, ob)
  else if h : ib < src.length then
    if ob < dst.length then copyFrom f src (ib + 1) ie (dst.set ob (f src[ib])) (ob + 1) else .ub
  else .ub
termination_by src.length - ib

/-- `copy( cont, ob )` (container_tools.h:99-101). -/
def copy (src : List α) (dst : List α) (ob : Nat) : Res (List α × Nat) := copyFrom id src 0 src.length dst ob

/-- `copy_to_range( ib, ob, oe )` (container_tools.h:104-106): the target afterwards and the final input position. -/
def copyToRange (src : List α) (ib : Nat) (dst : List α) (ob oe : Nat) : Res (List α × Nat) :=
  if ob = oe then .ok (dst, ib)
  else if h : ib < src.length then
    if ob < dst.length then copyToRange src (ib + 1) (dst.set ob src[ib]) (ob + 1) oe else .ub
  else .ub
termination_by src.length - ib

/-- `copy_to_range( it, cont )` (container_tools.h:109-111). -/
def copyToCont (src : List α) (ib : Nat) (dst : List α) : Res (List α × Nat) := copyToRange src ib dst 0 dst.length

/-- `copy_container` and, with `f` the cast, `copy_cast` of containers (container_tools.h:121-130). -/
def copyContainer (f : α → β) (src : List α) (dst : List β) : Res (List β) :=
  if src.length ≤ dst.length then (copyFrom f src 0 src.length dst 0).map Prod.fst else .err

/-- `append` (container_tools.h:133-135). -/
def append (c1 c2 : List α) : List α := c1 ++ c2

/-- `back_index` (container_tools.h:138). -/
def backIndex (l : List α) : Option Nat := if l.length > 0 then some (l.length - 1) else none

/-- `emplace_back_get_index` (container_tools.h:144-146). -/
def emplaceBackGetIndex (l : List α) (a : α) : List α × Nat := (l ++ [a], (l ++ [a]).length - 1)

/-! ## view_if -/

/-- `view_if` (view_if.h:7-8, 28-29): the positions `first` and `last` in a sequence, and a predicate. -/
structure ViewIf (α : Type) where
  elems : List α
  first : Nat
  last : Nat
  pred : α → Bool

namespace ViewIf

/-- `next_match` (view_if.h:17): leaving the sequence without having met `last` reads outside it. -/
def nextMatch (v : ViewIf α) (pos : Nat) : Res Nat :=
  if pos = v.last then .ok pos
  else if h : pos < v.elems.length then (if v.pred v.elems[pos] then .ok pos else nextMatch v (pos + 1))
  else .ub
termination_by v.elems.length - pos

/-- `begin` (view_if.h:26 and the constructor of the iterator, 16). -/
def begin (v : ViewIf α) : Res Nat := v.nextMatch v.first

/-- `end` (view_if.h:27 and 16). -/
def «end» (v : ViewIf α) : Res Nat := v.nextMatch v.last

/-- `operator++` (view_if.h:18): `++` of an iterator at the end of the sequence is undefined. -/
def next (v : ViewIf α) (pos : Nat) : Res Nat :=
  if pos < v.elems.length then v.nextMatch (pos + 1) else .ub

/-- `operator*` (view_if.h:22). -/
def deref (v : ViewIf α) (pos : Nat) : Res α :=
  match v.elems[pos]? with
  | some a => .ok a
  | none => .ub

/-- What `for ( auto& x : view )` visits: `begin`, then `++` until the position is that of `end`. The fuel bounds
the number of steps; `none` means it was not enough. -/
def loop (v : ViewIf α) : Nat → Nat → List α → Option (Res (List α))
  | 0, _, _ => none
  | fuel + 1, pos, acc =>
    match v.end with
    | .ok e =>
      if pos = e then some (.ok acc)
      else match v.deref pos, v.next pos with
        | .ok a, .ok q => loop v fuel q (acc ++ [a])
        | _, _ => some .ub
    | _ => some .ub

/-- The range-based `for` over a view. -/
def visit (v : ViewIf α) (fuel : Nat) : Option (Res (List α)) :=
  match v.begin with
  | .ok p => v.loop fuel p []
  | _ => some .ub

/-- `make_view_if( cont, pred )` (view_if.h:36-38). -/
def ofCont (l : List α) (p : α → Bool) : ViewIf α := ⟨l, 0, l.length, p⟩

end ViewIf
end Cont
end Xo
