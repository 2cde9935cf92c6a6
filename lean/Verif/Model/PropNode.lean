import Verif.Model.StrNum

/-!
Model of /repo/xo/container/prop_node.h and /repo/xo/container/prop_node.cpp.

A C++ reference to a node inside a tree is modelled by a function that updates that node in place; the mutable
`accessed_flag` is part of the node. Values are strings; typed `get`/`set` convert with `from_str`/`to_str`, which are
modelled separately.
-/
namespace Xo

/-- `prop_node` (prop_node.h:253-255). -/
inductive PropNode where
  | mk (value : Str) (kids : List (Str × PropNode)) (accessed : Bool)

namespace PropNode

/-- The children with their keys (prop_node.h:254). -/
abbrev Kids := List (Str × PropNode)

def value : PropNode → Str
  | .mk v _ _ => v
def kids : PropNode → Kids
  | .mk _ k _ => k
/-- `accessed_flag` (prop_node.h:255). -/
def flag : PropNode → Bool
  | .mk _ _ a => a

/-- `prop_node()` (prop_node.h:34). -/
def empty : PropNode := .mk [] [] false
/-- `prop_node( value )` (prop_node.h:37-39), which is also `to_prop_node` of a plain value (prop_node.h:270-272). -/
def leaf (v : Str) : PropNode := .mk v [] false

def withKids (n : PropNode) (ks : Kids) : PropNode := .mk n.value ks n.flag

/-- `access()` (prop_node.h:248). -/
def access (n : PropNode) (b : Bool := true) : PropNode := .mk n.value n.kids b

/-- `has_value()` (prop_node.h:100). -/
def hasValue (n : PropNode) : Bool := !n.value.isEmpty

/-- The loop of `try_get_child` (prop_node.cpp:184-198). -/
def findKid (k : Str) : Kids → Option PropNode
  | [] => none
  | (k', c) :: cs => if k' = k then some c else findKid k cs

/-- `try_get_child( key )` (prop_node.cpp:184-198). -/
def tryGetChild (n : PropNode) (k : Str) : Option PropNode := findKid k n.kids

/-- `get_child( key )` (prop_node.cpp:112-126). -/
def getChild (n : PropNode) (k : Str) : Res PropNode := Res.ofOptionErr (n.tryGetChild k)

/-- `get_child( index )` (prop_node.cpp:128-138). -/
def getChildIdx (n : PropNode) (i : Nat) : Res PropNode :=
  if i ≥ n.kids.length then .err else Res.ofOptionUb (n.kids[i]?.map Prod.snd)

/-- `has_key` (prop_node.cpp:20-23). -/
def hasKey (n : PropNode) (k : Str) : Bool := (n.tryGetChild k).isSome

/-- `has_value( key )` (prop_node.cpp:13-18). -/
def hasValueKey (n : PropNode) (k : Str) : Bool :=
  match n.tryGetChild k with
  | some c => c.hasValue
  | none => false

/-- `count_key` (prop_node.cpp:30-37). -/
def countKey (n : PropNode) (k : Str) : Nat := n.kids.foldl (fun c p => if p.1 = k then c + 1 else c) 0

/-- `add_child( key, pn )` (prop_node.cpp:65-78). -/
def addChild (n : PropNode) (k : Str) (c : PropNode) : PropNode := n.withKids (n.kids ++ [(k, c)])

/-- Update through the pointer returned by `try_get_child`. -/
def updKid (k : Str) (f : PropNode → PropNode) : Kids → Kids
  | [] => []
  | (k', c) :: cs => if k' = k then (k', f c) :: cs else (k', c) :: updKid k f cs

/-- Update through the reference returned by `get_or_add_child` (prop_node.cpp:156-161). -/
def updOrAdd (n : PropNode) (k : Str) (f : PropNode → PropNode) : PropNode :=
  match n.tryGetChild k with
  | some _ => n.withKids (updKid k f n.kids)
  | none => n.addChild k (f empty)

/-- `set( key, v )` (prop_node.h:318-321): the child becomes `to_prop_node( v )`. -/
def set (n : PropNode) (k : Str) (v : PropNode) : PropNode := n.updOrAdd k (fun _ => v)

/-- The loop of `erase( key )` (prop_node.cpp:262-265). -/
def eraseKid (k : Str) : Kids → Bool × Kids
  | [] => (false, [])
  | (k', c) :: cs =>
    if k' = k then (true, cs) else
      let r := eraseKid k cs
      (r.1, (k', c) :: r.2)

/-- `erase( key )` (prop_node.cpp:260-266). `begin()` marks the node as accessed (prop_node.h:213). -/
def erase (n : PropNode) (k : Str) : Bool × PropNode :=
  ((eraseKid k n.kids).1, .mk n.value (eraseKid k n.kids).2 true)

/-- Where `try_get_query_key( key )` points: the index of the child (prop_node.cpp:170-182). -/
def queryIdx (n : PropNode) (k : Str) : Option Nat :=
  match n.kids.findIdx? (fun p => p.1 = k) with
  | some i => some i
  | none => match k with
    | '#' :: t => match fromStrULong t with
      | some i => if 1 ≤ i ∧ i ≤ n.kids.length then some (i - 1) else none
      | none => none
    | _ => none

/-- The child at an index. -/
def kidAt (n : PropNode) (i : Nat) : Option PropNode := n.kids[i]?.map Prod.snd

/-- Update of the child at an index. -/
def updAt (n : PropNode) (i : Nat) (f : PropNode → PropNode) : PropNode :=
  n.withKids (n.kids.modify i (fun p => (p.1, f p.2)))

/-- `find_first_of( delim )` with the two parts around it (prop_node.cpp:212, 216, 227, 236). -/
def splitFirst (d : Char) : Str → Str × Option Str
  | [] => ([], none)
  | c :: cs => if c = d then ([], some cs) else ((c :: (splitFirst d cs).1), (splitFirst d cs).2)

theorem splitFirst_lt {d : Char} : ∀ {s t : Str}, (splitFirst d s).2 = some t → t.length < s.length
  | [], _, h => by simp [splitFirst] at h
  | c :: cs, t, h => by
    simp only [splitFirst] at h
    split at h
    · cases h; simp
    · have := splitFirst_lt h; simp; omega

/-- `try_get_query( query, delim )` (prop_node.cpp:210-218). -/
def tryGetQuery (n : PropNode) (q : Str) (d : Char) : Option PropNode :=
  match _h : (splitFirst d q).2 with
  | none => (n.queryIdx q).bind n.kidAt
  | some rest => match (n.queryIdx (splitFirst d q).1).bind n.kidAt with
    | some c => tryGetQuery c rest d
    | none => none
termination_by q.length
decreasing_by exact splitFirst_lt _h

/-- Update through the reference returned by `get_or_add_query( query, delim )` (prop_node.cpp:225-241). -/
def updQuery (n : PropNode) (q : Str) (d : Char) (f : PropNode → PropNode) : PropNode :=
  match _h : (splitFirst d q).2 with
  | none => match n.queryIdx q with
    | some i => n.updAt i f
    | none => n.addChild q (f empty)
  | some rest => match n.queryIdx (splitFirst d q).1 with
    | some i => n.updAt i (fun c => updQuery c rest d f)
    | none => n.addChild (splitFirst d q).1 (updQuery empty rest d f)
termination_by q.length
decreasing_by all_goals exact splitFirst_lt _h

/-- `set_query( query, v, delim )` (prop_node.h:401-404). -/
def setQuery (n : PropNode) (q : Str) (d : Char) (v : PropNode) : PropNode := n.updQuery q d (fun _ => v)

/-- Reaching into the node found by `try_get_query( prefix )` with the default delimiter, and updating it;
`none` when nothing is found. -/
def updFound (n : PropNode) (q : Str) (d : Char) (f : PropNode → Bool × PropNode) : Option (Bool × PropNode) :=
  match _h : (splitFirst d q).2 with
  | none => (n.queryIdx q).bind fun i => (n.kidAt i).map fun c => ((f c).1, n.updAt i (fun c => (f c).2))
  | some rest => (n.queryIdx (splitFirst d q).1).bind fun i => (n.kidAt i).bind fun c =>
      (updFound c rest d f).map fun r => (r.1, n.updAt i (fun _ => r.2))
termination_by q.length
decreasing_by exact splitFirst_lt _h

/-- `erase_query( query, delim )` (prop_node.cpp:268-276). Line 273 calls `try_get_query` without the delimiter, so
it uses `'.'`. -/
def eraseQuery (n : PropNode) (q : Str) (d : Char) : Bool × PropNode :=
  match _h : (splitFirst d q).2 with
  | none => n.erase q
  | some rest => (n.updFound (splitFirst d q).1 '.' (fun c => eraseQuery c rest d)).getD (false, n)
termination_by q.length
decreasing_by exact splitFirst_lt _h

mutual
/-- `merge( other, overwrite )` (prop_node.cpp:100-110). Iterating over `other` marks it as accessed; `other` is
not part of the result, so only the marks on copied children matter, which keep the flags of `other`'s children. -/
def merge (ow : Bool) : PropNode → PropNode → PropNode
  | n, .mk v2 ks2 _ => .mk (if ow then v2 else n.value) (mergeKids ow n.kids ks2) n.flag
termination_by structural _ m => m
/-- The loop of `merge` (prop_node.cpp:104-109). -/
def mergeKids (ow : Bool) : Kids → Kids → Kids
  | ks, [] => ks
  | ks, (k, c) :: cs =>
    mergeKids ow (match findKid k ks with
      | some _ => updKid k (fun x => merge ow x c) ks
      | none => ks ++ [(k, c)]) cs
termination_by structural _ m => m
end

/-- `is_accessed` (prop_node.cpp:278-281). -/
def isAccessed (n : PropNode) : Bool := n.flag || !n.hasValue

mutual
/-- `count_unaccessed` (prop_node.cpp:283-289). -/
def countUnaccessed : PropNode → Nat
  | .mk v ks a => (if isAccessed (.mk v ks a) then 0 else 1) + countUnaccessedKids ks
def countUnaccessedKids : Kids → Nat
  | [] => 0
  | (_, c) :: cs => countUnaccessed c + countUnaccessedKids cs
end

mutual
/-- `set_accessed_recursively( b )` (prop_node.cpp:291-296). -/
def setAccessedRec (b : Bool) : PropNode → PropNode
  | .mk v ks _ => .mk v (setAccessedRecKids b ks) b
def setAccessedRecKids (b : Bool) : Kids → Kids
  | [] => []
  | (k, c) :: cs => (k, setAccessedRec b c) :: setAccessedRecKids b cs
end

mutual
/-- `operator==` (prop_node.cpp:298-315). -/
def eq : PropNode → PropNode → Bool
  | .mk v ks _, m => if v ≠ m.value then false else if ks.length ≠ m.kids.length then false else eqKids ks m.kids
termination_by structural n => n
def eqKids : Kids → Kids → Bool
  | [], _ => true
  | (k, c) :: cs, ks => match ks with
    | [] => false
    | (k', c') :: cs' => if k ≠ k' then false else if !eq c c' then false else eqKids cs cs'
termination_by structural n => n
end

mutual
/-- `count_layers` (prop_node.cpp:39-45). -/
def countLayers : PropNode → Nat
  | .mk _ ks _ => countLayersKids ks 0
def countLayersKids : Kids → Nat → Nat
  | [], d => d
  | (_, c) :: cs, d => countLayersKids cs (max d (countLayers c + 1))
end

mutual
/-- `count_children` (prop_node.cpp:47-53). -/
def countChildren : PropNode → Nat
  | .mk _ ks _ => ks.length + countChildrenKids ks
def countChildrenKids : Kids → Nat
  | [] => 0
  | (_, c) :: cs => countChildren c + countChildrenKids cs
end

/-- `is_array` (prop_node.cpp:55-58); the answer only. -/
def isArray (n : PropNode) : Bool := n.kids.all (fun p => p.1.isEmpty)

/-- Induction over trees. -/
theorem ind {motive : PropNode → Prop}
    (h : ∀ v ks a, (∀ k c, (k, c) ∈ ks → motive c) → motive (.mk v ks a)) : ∀ n, motive n
  | .mk v ks a => h v ks a (fun _ c _ => ind h c)
termination_by n => sizeOf n
decreasing_by
  rename_i k hm
  have := List.sizeOf_lt_of_mem hm
  simp at this ⊢; omega

end PropNode
end Xo
