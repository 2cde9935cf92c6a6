import Verif.Model.PropNode
import Verif.Model.PnConv

/-!
More of /repo/xo/container/prop_node.h and /repo/xo/container/prop_node.cpp: the search through all levels, the search for one of several keys, and
the functions that add children, with the references and pointers that they give out.
-/
namespace Xo.PropMore
open Xo PropNode

mutual
/-- `try_find_child_recursively( key )` (prop_node.cpp:200-208). -/
def findRec (k : Str) : PropNode → Option PropNode
  | .mk _ ks _ => findRecKids k ks
/-- The loop (prop_node.cpp:202-207). -/
def findRecKids (k : Str) : Kids → Option PropNode
  | [] => none
  | (k', c) :: cs => if k' = k then some c else match findRec k c with
    | some x => some x
    | none => findRecKids k cs
end

/-- `has_any_key( keys )` (prop_node.cpp:25-28). -/
def hasAnyKey (n : PropNode) : List Str → Bool
  | [] => false
  | k :: ks => if n.hasKey k then true else hasAnyKey n ks

/-- `get_any_child( keys )` (prop_node.cpp:140-146). -/
def getAnyChild (n : PropNode) : List Str → Res PropNode
  | [] => .err
  | k :: ks => match n.tryGetChild k with
    | some c => .ok c
    | none => getAnyChild n ks

/-! ### The vector of children

`children` is a `std::vector` (prop_node.h:27, 254). A reference to a child is a place in the memory that the vector had when the reference was
made. -/

/-- The children, how many fit into the memory of the vector, and the number of times the memory was replaced. -/
structure Vec where
  kids : Kids
  cap : Nat
  gen : Nat

/-- A reference or pointer to a child, or to the place behind the last one. -/
structure Ref where
  gen : Nat
  idx : Nat
  deriving DecidableEq

/-- Reading through a reference; undefined when it is no longer valid. -/
def deref (v : Vec) (r : Ref) : Res (Str × PropNode) := if r.gen = v.gen then Res.ofOptionUb v.kids[r.idx]? else .ub

/-- Space for `n` children in total. New memory has room for at least `n`; `grow` is the choice of the library. -/
def room (grow : Nat → Nat → Nat) (v : Vec) (n : Nat) : Vec :=
  if n ≤ v.cap then v else { v with cap := max n (grow v.cap n), gen := v.gen + 1 }

/-- `reserve( n )` (prop_node.h:169). -/
def reserve (v : Vec) (n : Nat) : Vec := if n ≤ v.cap then v else { v with cap := n, gen := v.gen + 1 }

/-- Children added behind the last one, and the place of the first of them. -/
def push (grow : Nat → Nat → Nat) (v : Vec) (new : Kids) : Vec × Ref :=
  let v' := room grow v (v.kids.length + new.length)
  ({ v' with kids := v'.kids ++ new }, ⟨v'.gen, v.kids.length⟩)

/-- `add_child()`, `add_child( key )` and `add_child( key, pn )` (prop_node.cpp:60-78), with the reference that they return. -/
def addChild (grow : Nat → Nat → Nat) (v : Vec) (k : Str) (c : PropNode) : Vec × Ref := push grow v [(k, c)]

/-- `add_children( count, key, value )` (prop_node.cpp:80-83). -/
def addChildren (grow : Nat → Nat → Nat) (v : Vec) (count : Nat) (k val : Str) : Vec := (push grow v (List.replicate count (k, leaf val))).1

/-- `append( other )` (prop_node.cpp:90-93), with the iterator that it returns. `self` : the other node is this node, which
`std::vector::insert` does not allow. -/
def append (grow : Nat → Nat → Nat) (v : Vec) (other : Kids) (self : Bool) : Res (Vec × Ref) := if self then .ub else .ok (push grow v other)

/-- `get_or_add_child( key )` (prop_node.cpp:156-161). -/
def getOrAdd (grow : Nat → Nat → Nat) (v : Vec) (k : Str) : Vec × Ref :=
  match v.kids.findIdx? (·.1 = k) with
  | some i => (v, ⟨v.gen, i⟩)
  | none => addChild grow v k PropNode.empty

/-- `insert( pos, first, last )` (prop_node.cpp:85-88) of other children before position `pos`. Also the references behind `pos` are no longer
valid, which is modelled as new memory. -/
def insert (grow : Nat → Nat → Nat) (v : Vec) (pos : Nat) (new : Kids) : Res (Vec × Ref) :=
  if pos ≤ v.kids.length then
    let v' := room grow v (v.kids.length + new.length)
    let g := if pos < v.kids.length ∧ new ≠ [] then v'.gen + 1 else v'.gen
    .ok (⟨v.kids.take pos ++ new ++ v.kids.drop pos, v'.cap, g⟩, ⟨g, pos⟩)
  else .ub

/-- `pn = other` by copy (prop_node.h:46) where `other` is the node at this place below `pn`: the children are replaced while the one that holds
`other` is among them. Only the assignment to itself is allowed. -/
def assignFrom (n : PropNode) (place : List Nat) : Res PropNode := if place = [] then .ok n else .ub

end Xo.PropMore
