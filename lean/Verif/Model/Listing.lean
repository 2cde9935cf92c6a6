import Verif.Model.PropNode
import Verif.Model.StrTools

/-!
Model of the listings of a property node: `to_str` (/repo/xo/container/prop_node.cpp:317-344), `prop_node_align_width`, `log_prop_node`,
`log_unaccessed` and `to_str_unaccessed` (/repo/xo/container/prop_node_tools.cpp:8-93).

Iterating over a node marks it as accessed (prop_node.h:213-214); the functions here give the text together with the node as it is left
behind. The text does not depend on marks that are set while it is made, except where the code below says so.
-/
namespace Xo.PropNode

/-- `string( n, ' ' )`. -/
def blanks (n : Nat) : Str := List.replicate n ' '

mutual
/-- `prop_node_align_width` (prop_node_tools.cpp:8-17); the width only. -/
def alignWidth (indent depth : Nat) : PropNode → Nat
  | .mk _ ks _ => alignWidthKids indent depth ks 0
/-- The loop, with the width so far. -/
def alignWidthKids (indent depth : Nat) : Kids → Nat → Nat
  | [], w => w
  | (k, c) :: cs, w => alignWidthKids indent depth cs (max (max w (depth * indent + k.length)) (alignWidth indent (depth + 1) c))
end

mutual
/-- The node after `prop_node_align_width`: `begin()` has been called for it and for everything below. -/
def afterWidth : PropNode → PropNode
  | .mk v ks _ => .mk v (afterWidthKids ks) true
def afterWidthKids : Kids → Kids
  | [] => []
  | (k, c) :: cs => (k, afterWidth c) :: afterWidthKids cs
end

/-- `string( align - size, ' ' )`: a difference below zero is a huge unsigned number, for which the constructor throws. -/
def pad (align size : Nat) : Res Str := if size ≤ align then .ok (blanks (align - size)) else .err

mutual
/-- `to_stream( str, pn, depth, align )` (prop_node.cpp:317-337): what is added to the stream. -/
def toStream (depth align : Nat) : PropNode → Res Str
  | .mk v ks a => toStreamKids depth (if align = 0 then alignWidth 2 depth (.mk v ks a) else align) ks
/-- The loop (prop_node.cpp:322-334). -/
def toStreamKids (depth align : Nat) : Kids → Res Str
  | [] => .ok []
  | (k, c) :: cs =>
    let key := blanks (depth * 2) ++ k
    (if c.hasValue || c.kids.isEmpty then (pad align key.length).bind fun p => .ok (p ++ " = ".toList ++ c.value) else .ok []).bind fun val =>
    (toStream (depth + 1) align c).bind fun sub => (toStreamKids depth align cs).bind fun rest => .ok (key ++ val ++ '\n' :: (sub ++ rest))
end

/-- `to_str( pn )` (prop_node.cpp:339-344). -/
def listing (n : PropNode) : Res Str := toStream 0 0 n

mutual
/-- `log_prop_node( pn, indent, depth, align )` (prop_node_tools.cpp:19-43): the messages, each with the number of its level (`info` is 3,
log_level.h:7-16). -/
def logNode (depth align : Nat) : PropNode → Res (List (Int × Str))
  | .mk v ks a => logNodeKids depth (if align = 0 then alignWidth 2 depth (.mk v ks a) else align) ks
/-- The loop (prop_node_tools.cpp:24-42). -/
def logNodeKids (depth align : Nat) : Kids → Res (List (Int × Str))
  | [] => .ok []
  | (k, c) :: cs =>
    (if strBeginsWith k ['@'] ∧ k.length ≥ 2 then (midStr k 2 none).bind fun t => .ok (schar (k.getD 1 ' ') - 48, blanks (depth * 2) ++ t)
      else .ok (3, blanks (depth * 2) ++ k)).bind fun (l, str) =>
    (if c.hasValue || c.kids.isEmpty then (pad align str.length).bind fun p => .ok (p ++ " = ".toList ++ c.value) else .ok []).bind fun val =>
    (logNode (depth + 1) align c).bind fun sub => (logNodeKids depth align cs).bind fun rest => .ok ((l, str ++ val) :: (sub ++ rest))
end

/-- The line for a child in `to_str_unaccessed` (prop_node_tools.cpp:74-81) and `log_unaccessed` (prop_node_tools.cpp:53-60), without the
line end. -/
def unaccessedLine (depth : Nat) (k : Str) (c : PropNode) : Str :=
  blanks (depth * 2) ++ k ++ (if !c.isAccessed then (if c.hasValue then " = ".toList ++ c.value else []) ++ " *".toList else [])

mutual
/-- `to_str_unaccessed( pn, str, depth )` (prop_node_tools.cpp:66-86): the text that is added, and the node afterwards. -/
def unaccessedText (depth : Nat) : PropNode → Str × PropNode
  | .mk v ks a => if ks.length > 0 then ((unaccessedTextKids depth ks).1, .mk v (unaccessedTextKids depth ks).2 true) else ([], .mk v ks a)
/-- The loop (prop_node_tools.cpp:70-84). -/
def unaccessedTextKids (depth : Nat) : Kids → Str × Kids
  | [] => ([], [])
  | (k, c) :: cs =>
    ((if c.countUnaccessed > 0 then unaccessedLine depth k c ++ ['\n'] else []) ++
      ((unaccessedText (depth + 1) c).1 ++ (unaccessedTextKids depth cs).1),
     (k, (unaccessedText (depth + 1) c).2) :: (unaccessedTextKids depth cs).2)
end

mutual
/-- `log_unaccessed( pn, level, depth )` (prop_node_tools.cpp:45-64): the messages, and the node afterwards. -/
def logUnaccessed (depth : Nat) : PropNode → List Str × PropNode
  | .mk v ks a => if ks.length > 0 then ((logUnaccessedKids depth ks).1, .mk v (logUnaccessedKids depth ks).2 true) else ([], .mk v ks a)
/-- The loop (prop_node_tools.cpp:49-62). -/
def logUnaccessedKids (depth : Nat) : Kids → List Str × Kids
  | [] => ([], [])
  | (k, c) :: cs =>
    ((if c.countUnaccessed > 0 then [unaccessedLine depth k c] else []) ++ ((logUnaccessed (depth + 1) c).1 ++ (logUnaccessedKids depth cs).1),
     (k, (logUnaccessed (depth + 1) c).2) :: (logUnaccessedKids depth cs).2)
end


mutual
/-- `make_str_from_prop_node` (prop_node_tools.cpp:136-150). -/
def makeStr : PropNode → Str
  | .mk v ks a => if ks.length > 0 then
      v ++ (if !v.isEmpty then [' '] else []) ++ [if isArray (.mk v ks a) then '[' else '{'] ++ makeStrKids (isArray (.mk v ks a)) ks ++
        (if isArray (.mk v ks a) then " ]".toList else " }".toList)
    else v
/-- The loop (prop_node_tools.cpp:145-146). -/
def makeStrKids (arr : Bool) : Kids → Str
  | [] => []
  | (k, c) :: cs => (if arr then [' '] else ' ' :: (k ++ " = ".toList)) ++ makeStr c ++ makeStrKids arr cs
end

end Xo.PropNode
