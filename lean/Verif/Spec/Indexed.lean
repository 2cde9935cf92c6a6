import Verif.Spec.Map
/-!
Specification of insertion-ordered containers. Nothing here refers to the model.
-/
namespace Xo.Spec
variable {K V : Type} [DecidableEq K]

/-- Operations on an insertion-ordered map. -/
inductive OrdOp (K V : Type) where
  | insert (k : K) (v : V)
  | assign (k : K) (v : V)
  | read (k : K)
  deriving Repr

/-- An insertion-ordered map: the keys in order of first insertion and a mathematical map. -/
structure OrdMap (K V : Type) where
  order : List K
  map : AMap K V

/-- A key keeps its place once it has one; a new key goes to the end. -/
def OrdMap.place (order : List K) (k : K) : List K := if k ∈ order then order else order ++ [k]

/-- `insert` and `assign` both store the value; `insert` reports whether the key is new; `read` stores the
default under a missing key and reports the value. -/
def OrdMap.step (dflt : V) (m : OrdMap K V) : OrdOp K V → OrdMap K V × MapOut V
  | .insert k v => (⟨place m.order k, m.map.update k (some v)⟩, .inserted (m.map k).isNone)
  | .assign k v => (⟨place m.order k, m.map.update k (some v)⟩, .unit)
  | .read k => match m.map k with
    | some v => (m, .value v)
    | none => (⟨place m.order k, m.map.update k (some dflt)⟩, .value dflt)

def OrdMap.run (dflt : V) (m : OrdMap K V) : List (OrdOp K V) → OrdMap K V × List (MapOut V)
  | [] => (m, [])
  | op :: ops =>
    let (m1, o) := m.step dflt op
    let (m2, os) := OrdMap.run dflt m1 ops
    (m2, o :: os)

/-- The distinct elements of a list in order of first occurrence. -/
def firstOccurrences (l : List K) : List K := l.foldl OrdMap.place []

end Xo.Spec
