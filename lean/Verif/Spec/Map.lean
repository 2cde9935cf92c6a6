/-!
Specification of finite maps, sets and multisets as plain functions. Nothing here refers to the model.
-/
namespace Xo.Spec

/-- Operations on a map. -/
inductive MapOp (K V : Type) where
  | insert (k : K) (v : V)
  | assign (k : K) (v : V)
  | read (k : K)
  | erase (k : K)
  | clear
  deriving Repr

/-- What a map operation reports. -/
inductive MapOut (V : Type) where
  | inserted (b : Bool)
  | value (v : V)
  | erased (n : Nat)
  | unit
  deriving Repr, DecidableEq

/-- A mathematical map. -/
abbrev AMap (K V : Type) := K → Option V

variable {K V : Type} [DecidableEq K]

def AMap.update (m : AMap K V) (k : K) (v : Option V) : AMap K V :=
  fun k' => if k' = k then v else m k'

/-- One map operation: `insert` does not overwrite, `assign` does, `read` creates a missing entry with the
default value, `erase` reports the number of removed entries. -/
def AMap.step (dflt : V) (m : AMap K V) : MapOp K V → AMap K V × MapOut V
  | .insert k v => match m k with
    | some _ => (m, .inserted false)
    | none => (m.update k (some v), .inserted true)
  | .assign k v => (m.update k (some v), .unit)
  | .read k => match m k with
    | some v => (m, .value v)
    | none => (m.update k (some dflt), .value dflt)
  | .erase k => (m.update k none, .erased (if (m k).isSome then 1 else 0))
  | .clear => (fun _ => none, .unit)

def AMap.run (dflt : V) (m : AMap K V) : List (MapOp K V) → AMap K V × List (MapOut V)
  | [] => (m, [])
  | op :: ops =>
    let (m1, o) := m.step dflt op
    let (m2, os) := AMap.run dflt m1 ops
    (m2, o :: os)

/-- Operations on a set. -/
inductive SetOp (K : Type) where
  | insert (k : K)
  | erase (k : K)
  | clear
  deriving Repr

/-- A mathematical set given by its membership test. -/
abbrev ASet (K : Type) := K → Bool

def ASet.step (s : ASet K) : SetOp K → ASet K × Nat
  | .insert k => (fun k' => k' = k || s k', if s k then 0 else 1)
  | .erase k => (fun k' => k' ≠ k && s k', if s k then 1 else 0)
  | .clear => (fun _ => false, 0)

def ASet.run (s : ASet K) : List (SetOp K) → ASet K × List Nat
  | [] => (s, [])
  | op :: ops =>
    let (s1, o) := s.step op
    let (s2, os) := ASet.run s1 ops
    (s2, o :: os)

/-- A multiset given by multiplicities. `insert` adds one copy, `removeAll` removes every copy. -/
inductive BagOp (K : Type) where
  | insert (k : K)
  | removeAll (k : K)
  deriving Repr

def bagStep (b : K → Nat) : BagOp K → (K → Nat)
  | .insert k => fun k' => if k' = k then b k' + 1 else b k'
  | .removeAll k => fun k' => if k' = k then 0 else b k'

def bagRun (ops : List (BagOp K)) : K → Nat := ops.foldl bagStep (fun _ => 0)

end Xo.Spec
