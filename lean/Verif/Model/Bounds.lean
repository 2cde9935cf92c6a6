import Verif.Model.Math
import Verif.Model.StrTools
import Verif.Model.PropNode

/-!
Model of /repo/xo/numerical/bounds.h. `soft_clamped` (bounds.h:42) calls a function with a missing argument, so it
cannot be used; `infinite`, `positive` and `negative` (bounds.h:51-53) are not modelled.
-/
namespace Xo

/-- `bounds` (bounds.h:12-13, 48-49). -/
structure Bounds (K : Type) where
  lower : K
  upper : K
  deriving DecidableEq, Repr

namespace Bounds
variable {K : Type} [Field K] [LinearOrder K] [FloorRing K]

/-- `is_within` (bounds.h:20). -/
def isWithin (b : Bounds K) (v : K) : Bool := decide (v ≥ b.lower) && decide (v ≤ b.upper)

/-- `length` (bounds.h:21). -/
def length (b : Bounds K) : K := b.upper - b.lower

/-- `center` (bounds.h:22). -/
def center (b : Bounds K) : K := 1 / 2 * (b.lower + b.upper)

/-- `get_violation` (bounds.h:25). -/
def violation (b : Bounds K) (v : K) : K :=
  if v < b.lower then v - b.lower else if v > b.upper then v - b.upper else 0

/-- `check` (bounds.h:28-34). -/
def check (b : Bounds K) (v : K) : Bool × K :=
  if v < b.lower then (false, v - b.lower) else if v > b.upper then (false, v - b.upper) else (true, 0)

/-- `min` and `max` (math.h:9, 13). -/
def min2 (a b : K) : K := if a < b then a else b
def max2 (a b : K) : K := if a < b then b else a

/-- `extend` by a value (bounds.h:36). -/
def extend (b : Bounds K) (v : K) : Bounds K := ⟨min2 b.lower v, max2 b.upper v⟩

/-- `extend` by bounds (bounds.h:37). -/
def extendBy (b c : Bounds K) : Bounds K := ⟨min2 b.lower c.lower, max2 b.upper c.upper⟩

/-- `clamp`, `clamped` (bounds.h:39-40). -/
def clamp (b : Bounds K) (v : K) : K := Math.clamp v b.lower b.upper

/-- `operator-` (bounds.h:45). -/
def neg (b : Bounds K) : Bounds K := ⟨-b.upper, -b.lower⟩

/-- `is_null` (bounds.h:46). -/
def isNull (b : Bounds K) : Bool := decide (b.lower = 0) && decide (b.upper = 0)

/-- `to_str` of integer bounds (bounds.h:60-63). -/
def toStr (b : Bounds Int) : Str := intToStr b.lower ++ "..".toList ++ intToStr b.upper

/-- `from_str` of integer bounds (bounds.h:66-73). -/
def fromStr (s : Str) : Option (Bounds Int) :=
  match fromStrInt s with
  | none => none
  | some lo =>
    match strFind s "..".toList 0 with
    | some p => (fromStrInt (s.drop (p + 2))).map fun hi => ⟨lo, hi⟩
    | none => some ⟨lo, lo⟩

/-- `get< int >` of a child node: an error if its value is no number (prop_node.h:324-329). -/
def getInt (n : PropNode) : Res Int := Res.ofOptionErr (fromStrInt n.value)

/-- `get_any` of two keys with a default value that is already computed (prop_node.h:371-376). -/
def getAny (n : PropNode) (k1 k2 : Str) (dflt : Int) : Res Int :=
  match n.tryGetChild k1 with
  | some c => getInt c
  | none => match n.tryGetChild k2 with
    | some c => getInt c
    | none => .ok dflt

/-- `from_prop_node` of integer bounds (bounds.h:76-86). -/
def fromPropNode (n : PropNode) : Res (Option (Bounds Int)) :=
  if n.value ≠ [] then .ok (fromStr n.value)
  else if n.kids.length ≥ 2 then do
    let c0 ← n.getChildIdx 0
    let d0 ← getInt c0
    let lo ← getAny n "min".toList "lower".toList d0
    let c1 ← n.getChildIdx 1
    let d1 ← getInt c1
    let hi ← getAny n "max".toList "upper".toList d1
    pure (some ⟨lo, hi⟩)
  else .ok none

end Bounds
end Xo
