import Verif.Model.Indexed

/-!
Model of /repo/xo/utility/proxy.h. `proxy_data< T, I >` has to be provided by the program; it is taken to be a shared `indexed_set< T, I >`
(/repo/xo/container/indexed_set.h, which proxy.h includes), with `get_index` as `get_or_add` and `get_value` as `operator[]`.
-/
namespace Xo.Prx

variable {T : Type} [LinearOrder T]

/-- The shared table and the proxies of a program. `mx` is the largest number of the index type. -/
structure State (T : Type) where
  table : IndexedSet T
  proxies : List Nat

def State.empty : State T := ⟨IndexedSet.empty, []⟩

/-- What a program does with proxies. -/
inductive Op (T : Type) where
  | make (v : T)
  | set (i : Nat) (v : T)
  | copy (i : Nat)

/-- `proxy( value )` (proxy.h:22), also for the default value (proxy.h:21); `set` and assignment of a value (proxy.h:24-25); copying. The flag says
whether the call returned. -/
def step (mx : Nat) (s : State T) : Op T → Bool × State T
  | .make v => match s.table.getOrAdd mx v with
    | (.ok k, t) => (true, ⟨t, s.proxies ++ [k]⟩)
    | (_, t) => (false, ⟨t, s.proxies⟩)
  | .set i v => match s.table.getOrAdd mx v with
    | (.ok k, t) => (true, ⟨t, s.proxies.set i k⟩)
    | (_, t) => (false, ⟨t, s.proxies⟩)
  | .copy i => match s.proxies[i]? with
    | some k => (true, ⟨s.table, s.proxies ++ [k]⟩)
    | none => (false, s)

def run (mx : Nat) (s : State T) : List (Op T) → List Bool × State T
  | [] => ([], s)
  | op :: ops =>
    let r := step mx s op
    let q := run mx r.2 ops
    (r.1 :: q.1, q.2)

/-- `get` and the conversion to the value (proxy.h:27-28). -/
def get (s : State T) (i : Nat) : Res T :=
  match s.proxies[i]? with
  | some k => s.table.at' k
  | none => .ub

/-- `==` (proxy.h:30). -/
def eq (s : State T) (i j : Nat) : Bool := s.proxies[i]? == s.proxies[j]?

/-- `from_prop_node` (proxy.h:43-47), for the result of reading the value. -/
def fromPropNode (mx : Nat) (s : State T) (i : Nat) : Option T → Bool × State T
  | some v => step mx s (.set i v)
  | none => (false, s)

end Xo.Prx
