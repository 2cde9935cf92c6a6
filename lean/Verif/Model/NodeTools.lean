import Verif.Model.PropNode

/-!
Model of /repo/xo/container/prop_node_tools.cpp, and of `try_find_parent` (prop_node.cpp:243-258).

The C++ functions compare addresses of nodes. A node inside a tree is given here by its position: the list of child indices that lead to
it. Two nodes of a tree have the same address if and only if they have the same position. An address that does not belong to the tree is
`none`.
-/
namespace Xo.PropNode

/-- The address `to` as seen from child `i`: the rest of the position, or an address outside the child. -/
def inside (i : Nat) : Option (List Nat) → Option (List Nat)
  | some (j :: p) => if j = i then some p else none
  | _ => none

mutual
/-- `find_query_to_node( from, to, delim )` (prop_node_tools.cpp:95-108). -/
def findQuery (d : Char) : PropNode → Option (List Nat) → Bool × Str
  | .mk _ ks _, to => if to = some [] then (true, []) else findQueryKids d ks 0 to
/-- The loop over the children (prop_node_tools.cpp:100-105). -/
def findQueryKids (d : Char) : Kids → Nat → Option (List Nat) → Bool × Str
  | [], _, _ => (false, [])
  | (k, c) :: cs, i, to =>
    let r := findQuery d c (inside i to)
    if r.1 then (true, if r.2.isEmpty then k else k ++ d :: r.2) else findQueryKids d cs (i + 1) to
end

mutual
/-- `try_find_parent( pn )` (prop_node.cpp:243-252): the position of the parent and the index in it. The first loop looks at the children
of the node, the second one into them. -/
def findParent : PropNode → Option (List Nat) → Option (List Nat × Nat)
  | .mk _ ks _, to => match findParentHere ks 0 to with
    | some i => some ([], i)
    | none => findParentKids ks 0 to
/-- The first loop (prop_node.cpp:245-247). -/
def findParentHere : Kids → Nat → Option (List Nat) → Option Nat
  | [], _, _ => none
  | _ :: cs, i, to => if inside i to = some [] then some i else findParentHere cs (i + 1) to
/-- The second loop (prop_node.cpp:248-250). -/
def findParentKids : Kids → Nat → Option (List Nat) → Option (List Nat × Nat)
  | [], _, _ => none
  | (_, c) :: cs, i, to => match findParent c (inside i to) with
    | some (q, j) => some (i :: q, j)
    | none => findParentKids cs (i + 1) to
end

/-- The node at a position. -/
def at? : PropNode → List Nat → Option PropNode
  | n, [] => some n
  | n, i :: p => match n.kidAt i with
    | some c => c.at? p
    | none => none

/-- `get_key( idx )` (prop_node.cpp:163-168) of the node at a position. -/
def keyAt (n : PropNode) (q : List Nat) (i : Nat) : Res Str :=
  match n.at? q with
  | none => .ub
  | some c => if i < c.kids.length then Res.ofOptionUb (c.kids[i]?.map Prod.fst) else .err

/-- The loop of `make_prop_node_query` (prop_node_tools.cpp:151-164), with `p` the result of the last `try_find_parent`. `div` stands for
a loop that has not ended after the given number of rounds. -/
def makeQueryLoop (root : PropNode) : Nat → Option (List Nat × Nat) → Str → Option (Res Str)
  | _, none, str => some (.ok str)
  | 0, some _, _ => none
  | fuel + 1, some (q, i), str => match root.keyAt q i with
    | .ok k =>
      let str' := if str.isEmpty then k else k ++ '.' :: str
      if q ≠ [] then makeQueryLoop root fuel (root.findParent (some q)) str' else some (.ok str')
    | .err => some .err
    | .ub => some .ub

/-- `make_prop_node_query( root, item )` (prop_node_tools.cpp:150-165). -/
def makeQuery (root : PropNode) (fuel : Nat) (item : Option (List Nat)) : Option (Res Str) :=
  makeQueryLoop root fuel (root.findParent item) []

end Xo.PropNode
