import Verif.Model.StrTools

/-!
Model of /repo/xo/utility/result.h, /repo/xo/system/error_code.h, error_code.cpp and /repo/xo/utility/cached_var.h.
-/
namespace Xo.Outc

/-! ## `error_message` and `result` -/

/-- `error_message` (result.h:7-31) is its text. -/
structure Msg where
  message : Str
  deriving DecidableEq

/-- `good` (result.h:25). -/
def Msg.good (m : Msg) : Bool := m.message.isEmpty
/-- `bad` (result.h:26). -/
def Msg.bad (m : Msg) : Bool := !m.message.isEmpty
/-- `append` (result.h:21-23). -/
def Msg.append (m n : Msg) : Msg := ⟨(if !m.message.isEmpty then m.message ++ "\n".toList else m.message) ++ n.message⟩

/-- `result` (result.h:33-59). -/
structure Result (T : Type) where
  value : T
  error : Msg

section
variable {T : Type} [Inhabited T]

/-- `result()` (result.h:35). -/
def Result.make : Result T := ⟨default, ⟨[]⟩⟩
/-- `result( const T& )` (result.h:37, 40). -/
def Result.ofValue (v : T) : Result T := ⟨v, ⟨[]⟩⟩
/-- `result( const E& )` (result.h:38, 41). -/
def Result.ofError (e : Msg) : Result T := ⟨default, e⟩
/-- `operator=( const T& )` (result.h:44, 47). -/
def Result.assign (_ : Result T) (v : T) : Result T := ⟨v, ⟨[]⟩⟩
/-- `operator=( const E& )` (result.h:45, 48). -/
def Result.assignError (r : Result T) (e : Msg) : Result T := { r with error := e }
/-- `has_value` and the conversion to bool (result.h:50-51). -/
def Result.hasValue (r : Result T) : Bool := r.error.good

/-- An assignment to a result. -/
inductive Asg (T : Type) where
  | value (v : T)
  | error (e : Msg)
  | copy (r : Result T)

/-- One assignment. -/
def Result.step (r : Result T) : Asg T → Result T
  | .value v => r.assign v
  | .error e => r.assignError e
  | .copy s => s

/-- A history of assignments. -/
def Result.run (r : Result T) (as : List (Asg T)) : Result T := as.foldl Result.step r
end

/-! ## `error_code` -/

/-- `error_code` (error_code.h:8-21). -/
structure ErrCode where
  error : Int
  message : Str
  deriving DecidableEq

/-- `set` (error_code.h:11). -/
def ErrCode.set (_ : ErrCode) (code : Int) (msg : Str) : ErrCode := ⟨code, msg⟩
/-- `bad` (error_code.h:12). -/
def ErrCode.bad (e : ErrCode) : Bool := e.error ≠ 0
/-- `good` (error_code.h:13). -/
def ErrCode.good (e : ErrCode) : Bool := e.error = 0

/-- The state around a reported error: the error code of the caller, if there is one, and the error messages of the log. -/
structure World where
  ec : Option ErrCode
  log : List Str

/-- How a call ends. -/
inductive End (α : Type) where
  | returns (v : α)
  | throws (msg : Str)
  deriving DecidableEq

/-- `try_set_error` (error_code.cpp:7-13). -/
def trySetError (w : World) (msg : Str) : End Bool × World :=
  let w : World := { w with log := w.log ++ [msg] }
  let w : World := { w with ec := w.ec.map (·.set (-1) msg) }
  (.returns w.ec.isSome, w)

/-- `set_error_or_throw` (error_code.cpp:15-21). -/
def setErrorOrThrow (w : World) (msg : Str) : End PUnit × World :=
  let w : World := { w with log := w.log ++ [msg] }
  match w.ec with
  | some e => (.returns ⟨⟩, { w with ec := some (e.set (-1) msg) })
  | none => (.throws msg, w)

/-! ## `cached_var` -/

/-- `cached_var` (cached_var.h:5-23). -/
structure Cached (V T : Type) where
  value : V
  time : T

/-- `operator()( t, f )` (cached_var.h:10-17): the result, the new state and whether `f` was called. `f` may throw. -/
def Cached.call {V T : Type} [DecidableEq T] (c : Cached V T) (t : T) (f : Res V) : Res V × Cached V T × Bool :=
  if t ≠ c.time then
    match f with
    | .ok v => (.ok v, ⟨v, t⟩, true)
    | .err => (.err, c, true)
    | .ub => (.ub, c, true)
  else (.ok c.value, c, false)

/-- A history of calls: the results and the number of times a function was called. -/
def Cached.run {V T : Type} [DecidableEq T] : Cached V T → List (T × Res V) → List (Res V) × Nat
  | _, [] => ([], 0)
  | c, (t, f) :: r =>
    let (v, c', called) := c.call t f
    let (vs, n) := c'.run r
    (v :: vs, n + if called then 1 else 0)

end Xo.Outc
