import Verif.Model.PropNode

/-!
Model of /repo/xo/system/settings.{h,cpp}. Conversions of values are parameters (`Env`); a number is a rational or
`none` for NaN. Files and versions are in Model/SettingsFile.lean. Not modelled: log messages, and the access
flags that reading a value sets on the value that is then stored.
-/
namespace Xo
namespace Settings
open PropNode

/-- The conversions used by `try_set`. -/
structure Env where
  /-- `from_str( s, double& )` (string_cast.cpp:17-22): `none` when nothing was read. -/
  fromD : Str → Option (Option Rat)
  /-- `to_str( double )` (string_cast.cpp:82-87). -/
  toD : Option Rat → Str
  /-- whether `value.try_get<T>()` succeeds, by the name of the type (settings.cpp:45-50). -/
  float : PropNode → Bool
  int : PropNode → Bool
  bool : PropNode → Bool
  color : PropNode → Bool
  vec3 : PropNode → Bool
  string : PropNode → Bool
  /-- `try_get< bounds< double > >` (bounds.h:75-86); `err` when it throws. -/
  bounds : PropNode → Res (Option (Rat × Rat))

/-- `try_find_setting` (settings.cpp:21-27). -/
def tryFind (schema : PropNode) (id : Str) : Option PropNode :=
  match schema.tryGetQuery id '.' with
  | some s => if s.hasKey "default".toList then some s else none
  | none => none

/-- `schema_node->try_get_child( "type" )` as a string (settings.cpp:33-34). -/
def typeOf (s : PropNode) : Str := ((s.tryGetChild "type".toList).map PropNode.value).getD []

/-- The negation of the condition in settings.cpp:44-51. -/
def typeOk (env : Env) (ty : Str) (v : PropNode) : Bool :=
  !((ty == "float".toList && !env.float v) || (ty == "int".toList && !env.int v) || (ty == "bool".toList && !env.bool v)
    || (ty == "color".toList && !env.color v) || (ty == "vec3".toList && !env.vec3 v)
    || (ty == "string".toList && !env.string v))

/-- `schema_node->try_get< bounds< double > >( "range" )` (settings.cpp:69). -/
def rangeOf (env : Env) (s : PropNode) : Res (Option (Rat × Rat)) :=
  match s.tryGetChild "range".toList with
  | some r => env.bounds r
  | none => .ok none

/-- `is_within` and `clamp` (settings.cpp:73-77, bounds.h:20, 39, math.h:86-87); comparisons with NaN are false. -/
def restrict (r : Rat × Rat) : Option Rat → Option Rat
  | none => none
  | some x => if x ≥ r.1 ∧ x ≤ r.2 then some x else if x < r.1 then some r.1 else if x > r.2 then some r.2 else some x

/-- `prop_node::empty` (prop_node.h:125). -/
def isEmpty (n : PropNode) : Bool := n.value.isEmpty && n.kids.isEmpty

/-- The check of the list of allowed values (settings.cpp:57-66). -/
def allowedOk (s v : PropNode) : Bool :=
  match s.tryGetChild "allowed".toList with
  | some a => a.kids.any (fun p => p.2.eq v)
  | none => true

/-- `try_set` (settings.cpp:29-91). `from_str` writes 0 when it fails (settings.cpp:72, string_cast.cpp:17-22). -/
def trySet (env : Env) (schema data : PropNode) (id : Str) (v : PropNode) : Res (Bool × PropNode) :=
  match tryFind schema id with
  | none => .ok (false, data)
  | some s =>
    (s.getChild "default".toList).bind fun dflt =>
    if v.eq dflt || isEmpty v then .ok (true, (data.eraseQuery id '.').2)
    else if !typeOk env (typeOf s) v then .ok (false, data)
    else if !allowedOk s v then .ok (false, data)
    else (rangeOf env s).bind fun r => match r with
      | some r =>
        if env.fromD dflt.value = none then .err
        else .ok (true, data.setQuery id '.' (leaf (env.toD (restrict r ((env.fromD v.value).getD (some 0))))))
      | none => .ok (true, data.setQuery id '.' v)

/-- The node that `get` converts (settings.h:61-68). -/
def getNode (schema data : PropNode) (id : Str) : Res PropNode :=
  match data.tryGetQuery id '.' with
  | some n => .ok n
  | none => match tryFind schema id with
    | some s => s.getChild "default".toList
    | none => .err

mutual
/-- `set_recursive` (settings.cpp:93-100). -/
def setRecursive (env : Env) (schema : PropNode) : PropNode → Str → PropNode → Res PropNode
  | .mk v ks a, id, data =>
    if (tryFind schema id).isSome then (trySet env schema data id (.mk v ks a)).map (·.2)
    else setRecursiveKids env schema ks id data
/-- The loop of `set_recursive` (settings.cpp:97-99). -/
def setRecursiveKids (env : Env) (schema : PropNode) : Kids → Str → PropNode → Res PropNode
  | [], _, data => .ok data
  | (k, c) :: ks, id, data =>
    (setRecursive env schema c (id ++ '.' :: k) data).bind fun data' => setRecursiveKids env schema ks id data'
end

/-- The loop of `load` (settings.cpp:112-117) without the version. -/
def load (env : Env) (schema : PropNode) : Kids → PropNode → Res PropNode
  | [], data => .ok data
  | (k, c) :: ks, data =>
    if k = "version".toList then load env schema ks data
    else (setRecursive env schema c k data).bind fun data' => load env schema ks data'

end Settings
end Xo
