import Verif.Model.FlatMap

/-!
Model of /repo/xo/utility/factory.h. A creator is a function from the constructor arguments to the outcome of the
construction (it may throw). Type identifiers are any linear order; in the code they are `std::string`.
-/
namespace Xo

variable {K A O : Type} [LinearOrder K]

/-- `factory::func_map_` (factory.h:65). -/
structure Factory (K A O : Type) where
  funcs : FlatMap K (A → Res O)

namespace Factory

/-- A factory without types. -/
def empty : Factory K A O := ⟨FlatMap.empty⟩

/-- `register_type` (factory.h:31-35): the outcome and the factory afterwards. An exception leaves the map as it
is, because the test comes first. -/
def registerType (f : Factory K A O) (id : K) (creator : A → Res O) : Res Unit × Factory K A O :=
  if f.funcs.contains id then (.err, f)
  else (.ok (), ⟨f.funcs.assign id creator⟩)

/-- `unregister_type` (factory.h:38-43); `erase( it )` with the iterator found (flat_map.h:55). -/
def unregisterType (f : Factory K A O) (id : K) : Res Unit × Factory K A O :=
  let it := f.funcs.findIt id
  if it = f.funcs.data.length then (.err, f)
  else (.ok (), ⟨⟨f.funcs.data.eraseIdx it⟩⟩)

/-- `create` (factory.h:46-50). -/
def create (f : Factory K A O) (id : K) (args : A) : Res O :=
  let it := f.funcs.findIt id
  if it = f.funcs.data.length then .err
  else match f.funcs.data[it]? with
    | some e => e.2 args
    | none => .ub

/-- `try_create` (factory.h:53-56); `none` is `nullptr`. -/
def tryCreate (f : Factory K A O) (id : K) (args : A) : Res (Option O) :=
  let it := f.funcs.findIt id
  if it = f.funcs.data.length then .ok none
  else match f.funcs.data[it]? with
    | some e => (e.2 args).map some
    | none => .ub

/-- `empty()` (factory.h:58). -/
def isEmpty (f : Factory K A O) : Bool := f.funcs.data.isEmpty

/-- `has_type` (factory.h:59). -/
def hasType (f : Factory K A O) (id : K) : Bool := f.funcs.findIt id != f.funcs.data.length

/-- `find_factory_prop_node` (factory.h:78-81): the first child whose key is a registered type. -/
def findPropNode {B : Type} (f : Factory K A O) (kids : List (K × B)) : Option (K × B) :=
  kids.find? fun kv => f.hasType kv.1

/-- What a program does with a factory. -/
inductive Op (K A O : Type) where
  | register (id : K) (creator : A → Res O)
  | unregister (id : K)
  | create (id : K) (args : A)
  | tryCreate (id : K) (args : A)

/-- What the program sees. -/
inductive Out (O : Type) where
  | done (r : Res Unit)
  | made (r : Res O)
  | tried (r : Res (Option O))

/-- One call. -/
def step (f : Factory K A O) : Op K A O → Factory K A O × Out O
  | .register id c => ((f.registerType id c).2, .done (f.registerType id c).1)
  | .unregister id => ((f.unregisterType id).2, .done (f.unregisterType id).1)
  | .create id a => (f, .made (f.create id a))
  | .tryCreate id a => (f, .tried (f.tryCreate id a))

/-- A history of calls. -/
def run (f : Factory K A O) : List (Op K A O) → Factory K A O × List (Out O)
  | [] => (f, [])
  | op :: ops =>
    let (f1, o) := f.step op
    let (f2, os) := run f1 ops
    (f2, o :: os)

/-- The scope of a `factory_registrant` (factory.h:88-101) whose body runs `ops` on the same factory: the
constructor registers, the destructor unregisters. A constructor that throws runs no destructor. A destructor is
`noexcept`: an exception leaving it ends the program (`std::terminate`), shown as `ub`. -/
def registrantScope (f : Factory K A O) (id : K) (c : A → Res O) (ops : List (Op K A O)) :
    Res (Factory K A O) :=
  match f.registerType id c with
  | (.ok _, f1) =>
    match (f1.run ops).1.unregisterType id with
    | (.ok _, f2) => .ok f2
    | _ => .ub
  | _ => .err

end Factory
end Xo
