import Verif.Model.PropNode
import Verif.Model.StrTools
import Verif.Model.NumText
import Verif.Model.FlatMap
import Verif.Model.Bounds
import Verif.Model.Shape
import Verif.Model.Hash
import Mathlib.Data.List.Lex
import Mathlib.Order.Defs.LinearOrder
import Mathlib.Data.Char

/-!
Model of the conversions between typed values and property nodes: /repo/xo/container/prop_node.h:262-423,
/repo/xo/geometry/{vec3,quat,scale3,transform}.h, /repo/xo/shape/shape.cpp, /repo/xo/container/flat_map.h:135-163 and
/repo/xo/numerical/bounds.h:60-86. The accessed flags that reading sets are modelled elsewhere (C18) and left out here.
-/
namespace Xo
namespace Conv

/-- The pair `to_str`, `from_str` of a type; `none`: `from_str` returns false. -/
structure Text (α : Type) where
  toS : α → Str
  fromS : Str → Option α

/-- The pair `to_prop_node`, `from_prop_node` of a type; `ok none`: `from_prop_node` returns false. -/
structure Conv (α : Type) where
  enc : α → PropNode
  dec : PropNode → Res (Option α)

/-- The default conversions (prop_node.h:270-272, 280-282). -/
def Text.conv {α : Type} (t : Text α) : Conv α :=
  ⟨fun v => .leaf (t.toS v), fun n => .ok (t.fromS n.value)⟩

/-- `get< T >()` (prop_node.h:323-329). -/
def get {α : Type} (c : Conv α) (n : PropNode) : Res α := do
  match ← c.dec n with
  | some v => pure v
  | none => .err

/-- `get< T >( key )` (prop_node.h:331-334). -/
def getKey {α : Type} (c : Conv α) (n : PropNode) (k : Str) : Res α := do get c (← n.getChild k)

/-- `get< T >( idx )` (prop_node.h:336-339). -/
def getIdx {α : Type} (c : Conv α) (n : PropNode) (i : Nat) : Res α := do get c (← n.getChildIdx i)

/-- `get< T >( key, def )` (prop_node.h:341-346). -/
def getDef {α : Type} (c : Conv α) (n : PropNode) (k : Str) (dflt : α) : Res α :=
  match n.tryGetChild k with
  | some m => get c m
  | none => .ok dflt

/-- `try_get< T >()` (prop_node.h:348-354). -/
def tryGet {α : Type} (c : Conv α) (n : PropNode) : Res (Option α) := c.dec n

/-- `try_get< T >( key )` (prop_node.h:356-361). -/
def tryGetKey {α : Type} (c : Conv α) (n : PropNode) (k : Str) : Res (Option α) :=
  match n.tryGetChild k with
  | some m => tryGet c m
  | none => .ok none

/-- `try_get( value, key )` (prop_node.h:363-369): the value that is assigned, if the call returns true. -/
def tryGetInto {α : Type} (c : Conv α) (n : PropNode) (k : Str) : Res (Option α) :=
  match n.tryGetChild k with
  | some m => (get c m).map some
  | none => .ok none

/-- `try_get_any_child` (prop_node.cpp:148-154). -/
def anyChild (n : PropNode) : List Str → Option PropNode
  | [] => none
  | k :: ks => match n.tryGetChild k with
    | some m => some m
    | none => anyChild n ks

/-- `get_any( keys, def )` (prop_node.h:371-376). -/
def getAnyDef {α : Type} (c : Conv α) (n : PropNode) (ks : List Str) (dflt : α) : Res α :=
  match anyChild n ks with
  | some m => get c m
  | none => .ok dflt

/-- `get_any( keys )` (prop_node.h:378-383). -/
def getAny {α : Type} (c : Conv α) (n : PropNode) (ks : List Str) : Res α :=
  match anyChild n ks with
  | some m => get c m
  | none => .err

/-- `try_get_any` (prop_node.h:385-390). -/
def tryGetAny {α : Type} (c : Conv α) (n : PropNode) (ks : List Str) : Res (Option α) :=
  match anyChild n ks with
  | some m => (get c m).map some
  | none => .ok none

/-- The loop of `get_all` (prop_node.h:392-399). -/
def getAllKids {α : Type} (c : Conv α) (k : Str) : PropNode.Kids → Res (List α)
  | [] => .ok []
  | (k', m) :: r => if k' = k then do
      let v ← get c m
      let vs ← getAllKids c k r
      pure (v :: vs)
    else getAllKids c k r

/-- `get_all` (prop_node.h:392-399). -/
def getAll {α : Type} (c : Conv α) (n : PropNode) (k : Str) : Res (List α) := getAllKids c k n.kids

/-- `set( key, v )` with a typed value (prop_node.h:318-321). -/
def setKey {α : Type} (c : Conv α) (n : PropNode) (k : Str) (v : α) : PropNode := n.set k (c.enc v)

/-! ## Vectors and arrays -/

/-- The loop of `from_prop_node( vector )` (prop_node.h:293-295). -/
def decKids {α : Type} (c : Conv α) : PropNode.Kids → Res (Option (List α))
  | [] => .ok (some [])
  | (_, m) :: r => do
    match ← c.dec m with
    | none => pure none
    | some v => match ← decKids c r with
      | none => pure none
      | some vs => pure (some (v :: vs))

/-- `vector< T >` (prop_node.h:284-298). -/
def vecC {α : Type} (c : Conv α) : Conv (List α) :=
  ⟨fun l => l.foldl (fun n v => n.addChild [] (c.enc v)) .empty, fun n => decKids c n.kids⟩

/-- `from_prop_node( std::array< T, N > )` (prop_node.h:300-307): the first `min( N, size )` elements are read, the other
ones keep their contents. In `get` and `try_get` the array is not initialised (prop_node.h:325, 350), so these elements are
indeterminate (`none`). -/
def decArr {α : Type} (c : Conv α) (N : Nat) (n : PropNode) : Res (Option (List (Option α))) := do
  match ← decKids c (n.kids.take N) with
  | none => pure none
  | some vs => pure (some (vs.map some ++ List.replicate (N - vs.length) none))

/-! ## Vectors of three, quaternions, scales, transforms -/

open Geom

/-- The first half of `from_prop_node( vec3_ )` and `from_prop_node( scale3_ )` (vec3.h:162-167, scale3.h:66-71): a node
with three children. -/
def decXyz {α : Type} (c : Conv α) (n : PropNode) : Res (Vec3 α) :=
  if n.isArray then do
    let x ← getIdx c n 0
    let y ← getIdx c n 1
    let z ← getIdx c n 2
    pure ⟨x, y, z⟩
  else do
    let x ← getKey c n "x".toList
    let y ← getKey c n "y".toList
    let z ← getKey c n "z".toList
    pure ⟨x, y, z⟩

/-- The text form of a vector (vec3.h:169-171). -/
def vec3FromText {α : Type} (t : Text α) (s : Str) : Option (Vec3 α) :=
  match splitStr s " \t".toList with
  | [a, b, c] => do
    let x ← t.fromS a
    let y ← t.fromS b
    let z ← t.fromS c
    pure ⟨x, y, z⟩
  | _ => none

/-- `to_str( vec3_ )` (vec3.h:155-157). -/
def vec3ToS {α : Type} (t : Text α) (v : Vec3 α) : Str := t.toS v.x ++ ' ' :: (t.toS v.y ++ ' ' :: t.toS v.z)

/-- `vec3_< T >` (vec3.h:159-184), for a `T` that uses the default conversions. -/
def vec3C {α : Type} (t : Text α) : Conv (Vec3 α) where
  enc v := ((PropNode.empty.set "x".toList (t.conv.enc v.x)).set "y".toList (t.conv.enc v.y)).set "z".toList (t.conv.enc v.z)
  dec n :=
    if n.kids.length = 3 then (decXyz t.conv n).map some
    else if n.kids.length = 0 ∧ n.hasValue then .ok (vec3FromText t n.value)
    else .ok none

/-- The orders of the rotations about the axes (quat.h:15). -/
inductive Order where
  | xyz | xzy | yxz | yzx | zxy | zyx
  deriving DecidableEq

/-- `quat_< T >` (quat.h:414-440). `ot` is the text conversion of `euler_order` (smart_enum.h, C45) and `euler` is
`quat_from_euler` of angles in degrees (quat.h:302-312, C73). -/
def quatC {α : Type} (t : Text α) (ot : Text Order) (euler : Vec3 α → Order → Quat α) : Conv (Quat α) where
  enc q := (((PropNode.empty.set "w".toList (t.conv.enc q.w)).set "x".toList (t.conv.enc q.x)).set "y".toList
    (t.conv.enc q.y)).set "z".toList (t.conv.enc q.z)
  dec n :=
    if n.kids.length = 4 ∧ n.hasKey "w".toList then do
      let w ← getKey t.conv n "w".toList
      let x ← getKey t.conv n "x".toList
      let y ← getKey t.conv n "y".toList
      let z ← getKey t.conv n "z".toList
      pure (some ⟨w, x, y, z⟩)
    else do
      match ← (vec3C t).dec n with
      | none => pure none
      | some v =>
        let o ← getDef ot.conv n "order".toList .xyz
        pure (some (euler v o))

/-- `from_prop_node( scale3_ )` (scale3.h:63-81). There is no `to_prop_node( scale3_ )`: a scale is written with the default
conversion, as the text of the vector it derives from (prop_node.h:270-272, vec3.h:155-157). -/
def scale3C {α : Type} (t : Text α) : Conv (Vec3 α) where
  enc v := .leaf (vec3ToS t v)
  dec n :=
    if n.kids.length = 3 then (decXyz t.conv n).map some
    else if n.kids.length = 0 ∧ n.hasValue then do
      match ← tryGet t.conv n with
      | some v => pure (some ⟨v, v, v⟩)
      | none => pure none
    else .ok none

/-- `from_prop_node( transform_ )` (transform.h:47-50); `pn["p"]` of a constant node throws if there is no such child
(prop_node.h, `operator[]` is `get_child`). -/
def decTransform {α : Type} (cv : Conv (Vec3 α)) (cq : Conv (Quat α)) (n : PropNode) : Res (Option (Vec3 α × Quat α)) := do
  let np ← n.getChild "p".toList
  match ← cv.dec np with
  | none => pure none
  | some p =>
    let nq ← n.getChild "q".toList
    match ← cq.dec nq with
    | none => pure none
    | some q => pure (some (p, q))

/-! ## Maps -/

/-- `to_prop_node( flat_map< string, V >& )` (flat_map.h:146-152). -/
def encMap {V : Type} (c : Conv V) (m : FlatMap Str V) : PropNode :=
  m.data.foldl (fun n e => n.set e.1 (c.enc e.2)) .empty

/-- The loop of `from_prop_node( flat_map )` (flat_map.h:158-159): `m[key]` is there, with its old value or `V()` (`dflt`),
also if the value cannot be read; the flag is `success`. A `from_prop_node` that returns false is taken to leave the value as it is,
which is only used when `success` is false. -/
def decMapKids {V : Type} (c : Conv V) (dflt : V) : PropNode.Kids → FlatMap Str V → Bool → Res (FlatMap Str V × Bool)
  | [], m, ok => .ok (m, ok)
  | (k, n) :: r, m, ok => do
    match ← c.dec n with
    | some v => decMapKids c dflt r (m.assign k v) ok
    | none => decMapKids c dflt r (m.getOrDefault dflt k).1 false

/-- `from_prop_node( flat_map )` into an empty map (flat_map.h:154-162). -/
def decMap {V : Type} (c : Conv V) (dflt : V) (n : PropNode) : Res (Option (FlatMap Str V)) := do
  let r ← decMapKids c dflt n.kids .empty true
  pure (if r.2 then some r.1 else none)

/-- `to_str( flat_map )` (flat_map.h:136-143). -/
def mapToS {V : Type} (t : Text V) (m : FlatMap Str V) : Str :=
  m.data.foldl (fun s e => s ++ (e.1 ++ " = ".toList ++ t.toS e.2 ++ " ".toList)) "{ ".toList ++ "}".toList

/-- A map converted by calling `to_prop_node` on a variable that is not constant. -/
def mapC {V : Type} (c : Conv V) (dflt : V) : Conv (FlatMap Str V) := ⟨encMap c, decMap c dflt⟩

/-- A map given to `set`, `operator=`, `add_key_value` or `add_value`: these pass a constant reference (prop_node.h:314-321,
406-415), which `to_prop_node( flat_map& )` does not accept, so the default conversion is chosen and stores the text. -/
def mapSetC {V : Type} (t : Text V) (dflt : V) : Conv (FlatMap Str V) :=
  ⟨fun m => .leaf (mapToS t m), decMap t.conv dflt⟩

/-! ## Shapes -/

/-- The arithmetic on `float` that the shape conversions use. -/
structure Scal (α : Type) extends Text α where
  zero : α
  one : α
  /-- `2 * x` -/
  two : α → α
  /-- `0.5f * x` -/
  half : α → α
  /-- `x - y` -/
  sub : α → α → α

/-- The bytes of a text, for `hash`. -/
def bytes (s : Str) : List (BitVec 8) := s.map fun c => BitVec.ofNat 8 c.toNat

/-- `hash( s ) == "l"_hash` (shape.cpp:55-69). -/
def hashIs (s l : Str) : Bool := Hash.hashString (bytes s) == Hash.literalHash (bytes l) l.length

/-- `std::string` (string_cast.h:39-40). -/
def strT : Text Str := ⟨id, some⟩

/-- Three numbers at once. -/
def mapVec {α : Type} (f : α → α) (v : Vec3 α) : Vec3 α := ⟨f v.x, f v.y, f v.z⟩

/-- `from_prop_node( capsule )` (shape.cpp:29-36). -/
def decCapsule {α : Type} (s : Scal α) (n : PropNode) : Res (Shape α) := do
  let r ← getKey s.conv n "radius".toList
  match n.tryGetChild "total_length".toList with
  | some l =>
    let l ← get s.conv l
    pure (.capsule r (s.sub l (s.two r)))
  | none =>
    let h ← getKey s.conv n "height".toList
    pure (.capsule r h)

/-- `from_prop_node( shape )` and the functions it calls (shape.cpp:9-71). -/
def decShape {α : Type} (s : Scal α) (n : PropNode) : Res (Option (Shape α)) := do
  let ty ← getKey strT.conv n "type".toList
  if hashIs ty "sphere".toList then
    let r ← getKey s.conv n "radius".toList
    pure (some (.sphere r))
  else if hashIs ty "box".toList then
    let d ← getKey (vec3C s.toText) n "dim".toList
    pure (some (.box (mapVec s.half d)))
  else if hashIs ty "cylinder".toList then
    let r ← getKey s.conv n "radius".toList
    let h ← getKey s.conv n "height".toList
    pure (some (.cylinder r h))
  else if hashIs ty "capsule".toList then
    let c ← decCapsule s n
    pure (some c)
  else if hashIs ty "cone".toList then
    let r ← getKey s.conv n "radius".toList
    let h ← getKey s.conv n "height".toList
    pure (some (.cone r h))
  else if hashIs ty "plane".toList then
    let v ← getDef (vec3C s.toText) n "normal".toList ⟨s.one, s.zero, s.zero⟩
    pure (some (.plane v))
  else pure none

/-- A node with a `type` (shape.cpp:75-76 and its repetitions). -/
def typed (ty : Str) : PropNode := setKey strT.conv .empty "type".toList ty

/-- `to_prop_node( shape )` and the functions it calls (shape.cpp:73-122, shape.h:68-70). -/
def encShape {α : Type} (s : Scal α) : Shape α → PropNode
  | .sphere r => setKey s.conv (typed "sphere".toList) "radius".toList r
  | .box h => setKey (vec3C s.toText) (typed "box".toList) "dim".toList (mapVec s.two h)
  | .cylinder r h => setKey s.conv (setKey s.conv (typed "cylinder".toList) "radius".toList r) "height".toList h
  | .capsule r h => setKey s.conv (setKey s.conv (typed "capsule".toList) "radius".toList r) "height".toList h
  | .cone r h => setKey s.conv (setKey s.conv (typed "cone".toList) "radius".toList r) "height".toList h
  | .plane n => setKey (vec3C s.toText) (typed "plane".toList) "normal".toList n

/-- `shape` (shape.h:24, 68-70). -/
def shapeC {α : Type} (s : Scal α) : Conv (Shape α) := ⟨encShape s, decShape s⟩

/-! ## Bounds -/

/-- `to_str` and `from_str` of bounds (bounds.h:60-73). -/
def boundsT {α : Type} (t : Text α) : Text (Bounds α) where
  toS b := t.toS b.lower ++ ("..".toList ++ t.toS b.upper)
  fromS s := do
    let lo ← t.fromS s
    match strFind s "..".toList 0 with
    | some p =>
      let hi ← t.fromS (s.drop (p + 2))
      pure ⟨lo, hi⟩
    | none => pure ⟨lo, lo⟩

/-- Bounds (bounds.h:75-86; prop_node.h:270-272). -/
def boundsC {α : Type} (t : Text α) : Conv (Bounds α) where
  enc b := .leaf ((boundsT t).toS b)
  dec n :=
    if n.hasValue then .ok ((boundsT t).fromS n.value)
    else if 2 ≤ n.kids.length then do
      let d0 ← getIdx t.conv n 0
      let lo ← getAnyDef t.conv n ["min".toList, "lower".toList] d0
      let d1 ← getIdx t.conv n 1
      let hi ← getAnyDef t.conv n ["max".toList, "upper".toList] d1
      pure (some ⟨lo, hi⟩)
    else .ok none

/-! ## The types that are written as text -/

/-- `int` (string_cast.cpp, C29). -/
def intT : Text Int := ⟨intToStr, fromStrInt⟩
/-- `bool` (string_cast.cpp:24-31, 89-92). -/
def boolT : Text Bool := ⟨Num.boolToStr, Num.fromStrBool⟩
/-- `float` and `double` (string_cast.cpp:10-22, 75-87). -/
def flT (f : Num.Fmt) : Text Num.Fl := ⟨Num.toStr, Num.strtod f⟩

/-- A floating-point number times a power of two, rounded. -/
def flScale (f : Num.Fmt) (c : Rat) : Num.Fl → Num.Fl
  | .fin neg x => Num.roundFl f neg (c * x)
  | v => v

/-- The exact value of a finite number. -/
def flVal (neg : Bool) (x : Rat) : Rat := if neg then -x else x

/-- `x - y` (round to nearest; the difference of equal numbers is 0, and −0 only for −0 − 0). -/
def flSub (f : Num.Fmt) : Num.Fl → Num.Fl → Num.Fl
  | .nan n, _ => .nan n
  | _, .nan n => .nan n
  | .inf a, .inf b => if a = b then .nan true else .inf a
  | .inf a, .fin _ _ => .inf a
  | .fin _ _, .inf b => .inf (!b)
  | .fin a x, .fin b y =>
    let d := flVal a x - flVal b y
    if d = 0 then .fin (a && !b && decide (x = 0)) 0
    else Num.roundFl f (decide (d < 0)) |d|

/-- `float`, with its arithmetic. -/
def flScal (f : Num.Fmt) : Scal Num.Fl where
  toText := flT f
  zero := .fin false 0
  one := .fin false 1
  two := flScale f 2
  half := flScale f (1 / 2)
  sub := flSub f

end Conv
end Xo
