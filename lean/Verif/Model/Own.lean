import Verif.Model.Basic

/-!
Model of /repo/xo/utility/pointer_types.h and /repo/xo/utility/memory_tools.h: objects on the heap and `std::unique_ptr` variables that own them.

An object has an address, a dynamic type and a value. `isA d t` : an object of type `d` can be cast to `t`. `part t v` : what copying an object
with value `v` as a `t` keeps (the members of `t`).
-/
namespace Xo.Own

variable {V : Type}

/-- The types of a program: which casts succeed, and what a copy as a base type keeps. -/
structure Types (V : Type) where
  isA : Nat → Nat → Bool
  part : Nat → V → V

/-- An object. -/
structure Obj (V : Type) where
  dyn : Nat
  val : V

/-- A variable of type `unique_ptr< ty >`, with the address of what it owns. -/
structure Ptr where
  ty : Nat
  adr : Option Nat
  deriving DecidableEq

/-- The objects that exist, and the variables. Addresses are not used again. -/
structure State (V : Type) where
  heap : Nat → Option (Obj V)
  ptrs : List Ptr
  fresh : Nat

def State.empty : State V := ⟨fun _ => none, [], 0⟩

/-- `new`, with a variable of type `ty` for it. -/
def State.new (s : State V) (ty : Nat) (o : Obj V) : State V :=
  ⟨fun a => if a = s.fresh then some o else s.heap a, s.ptrs ++ [⟨ty, some s.fresh⟩], s.fresh + 1⟩

/-- `clone( const std::unique_ptr< T >& )` (memory_tools.h:12-14) : `new T( *o )`; a null pointer is dereferenced. -/
def clone (t : Types V) (s : State V) (i : Nat) : Res (State V) :=
  match s.ptrs[i]? with
  | none => .ub
  | some p => match p.adr with
    | none => .ub
    | some a => match s.heap a with
      | none => .ub
      | some o => .ok (s.new p.ty ⟨p.ty, t.part p.ty o.val⟩)

/-- `clone( const std::vector< std::unique_ptr< T > >& )` (memory_tools.h:17-23) : the elements are the variables `is`. -/
def cloneVec (t : Types V) (s : State V) : List Nat → Res (State V)
  | [] => .ok s
  | i :: is => clone t s i >>= fun s => cloneVec t s is

/-- `try_dynamic_unique_cast< TargetT >( ptr )` (pointer_types.h:13-20) and `dynamic_unique_cast< TargetT >( std::move( ptr ) )`
(pointer_types.h:25-32), which have the same body. The result is a new variable. -/
def cast (t : Types V) (s : State V) (i target : Nat) : Res (State V) :=
  match s.ptrs[i]? with
  | none => .ub
  | some p => match p.adr with
    | none => .ok { s with ptrs := s.ptrs ++ [⟨target, none⟩] }
    | some a => match s.heap a with
      | none => .ub
      | some o =>
        if t.isA o.dyn target then .ok { s with ptrs := s.ptrs.set i ⟨p.ty, none⟩ ++ [⟨target, some a⟩] }
        else .ok { s with ptrs := s.ptrs ++ [⟨target, none⟩] }

/-- `reset()`, or the end of the life of a variable: the object is deleted. Deleting what does not exist is undefined. -/
def reset (s : State V) (i : Nat) : Res (State V) :=
  match s.ptrs[i]? with
  | none => .ub
  | some p => match p.adr with
    | none => .ok s
    | some a => match s.heap a with
      | none => .ub
      | some _ => .ok { s with heap := fun b => if b = a then none else s.heap b, ptrs := s.ptrs.set i ⟨p.ty, none⟩ }

/-- Changing an object through its variable. -/
def write (s : State V) (i : Nat) (v : V) : Res (State V) :=
  match s.ptrs[i]? with
  | none => .ub
  | some p => match p.adr with
    | none => .ub
    | some a => match s.heap a with
      | none => .ub
      | some o => .ok { s with heap := fun b => if b = a then some ⟨o.dyn, v⟩ else s.heap b }

/-- What a program does. -/
inductive Op (V : Type) where
  | make (ty dyn : Nat) (v : V)
  | clone (i : Nat)
  | cloneVec (is : List Nat)
  | cast (i target : Nat)
  | reset (i : Nat)
  | write (i : Nat) (v : V)

def step (t : Types V) (s : State V) : Op V → Res (State V)
  | .make ty dyn v => .ok (s.new ty ⟨dyn, v⟩)
  | .clone i => clone t s i
  | .cloneVec is => cloneVec t s is
  | .cast i target => cast t s i target
  | .reset i => reset s i
  | .write i v => write s i v

def run (t : Types V) (s : State V) : List (Op V) → Res (State V)
  | [] => .ok s
  | op :: ops => step t s op >>= fun s => run t s ops

/-- `dereference_or_throw` (memory_tools.h:25-35). -/
def dereferenceOrThrow (heap : Nat → Option (Obj V)) : Option Nat → Res (Obj V)
  | none => .err
  | some a => Res.ofOptionUb (heap a)

end Xo.Own
