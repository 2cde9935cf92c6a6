import Verif.Model.Outcome
import Mathlib.Data.List.Basic
import Mathlib.Data.List.Induction

/-!
# C88: results, error codes and values kept for a point in time
-/
namespace Xo.Outc

namespace Spec

/-- What a result is about: a value or an error. -/
inductive Content (T : Type) where
  | value (v : T)
  | error (msg : Str)

/-- What a user of the result sees. -/
def Shows {T : Type} [Inhabited T] (r : Result T) : Content T → Prop
  | .value v => r.hasValue = true ∧ r.error.good = true ∧ r.error.bad = false ∧ r.value = v
  | .error m => r.hasValue = false ∧ r.error.good = false ∧ r.error.bad = true ∧ r.error.message = m

/-- The content after a history of assignments, given the content before: that of the last assignment. -/
inductive After {T : Type} [Inhabited T] : Content T → List (Asg T) → Content T → Prop
  | none (c) : After c [] c
  | value (c as v) : After c (as ++ [.value v]) (.value v)
  | error (c as e) : After c (as ++ [.error e]) (.error e.message)
  | copy (c as s d) : Shows s d → After c (as ++ [.copy s]) d

/-- The values that calls at the points in time `ts` are to give: that of the function which was the first to be evaluated since the time
last changed. `cur` is the time of the value at hand. -/
def kept {V T : Type} [DecidableEq T] : Option (T × V) → List (T × V) → List V × Nat
  | _, [] => ([], 0)
  | cur, (t, v) :: r =>
    match cur with
    | some (t', v') => if t = t' then let k := kept (some (t', v')) r; (v' :: k.1, k.2) else let k := kept (some (t, v)) r; (v :: k.1, k.2 + 1)
    | none => let k := kept (some (t, v)) r; (v :: k.1, k.2 + 1)

end Spec
open Spec

variable {T : Type} [Inhabited T]

/-- **C88.** A result shows what was assigned last, as long as error messages have a text. -/
theorem C88_result_partial (r : Result T) (c d : Content T) (as : List (Asg T)) (hr : Shows r c) (h : After c as d)
    (he : ∀ e, .error e ∈ as → e.message ≠ []) : Shows (r.run as) d := by
  cases h with
  | none => exact hr
  | value as v => simp [Result.run, Result.step, Result.assign, Shows, Result.hasValue, Msg.good, Msg.bad]
  | error as e =>
    have := he e (by simp)
    simp [Result.run, Result.step, Result.assignError, Shows, Result.hasValue, Msg.good, Msg.bad, this]
  | copy as s d hs => simpa [Result.run, Result.step] using hs

/-- New results: a value, an error or, without arguments, the default value. -/
theorem C88_result_new (v : T) (e : Msg) (he : e.message ≠ []) : Shows (Result.make : Result T) (.value default) ∧
    Shows (Result.ofValue v) (.value v) ∧ Shows (Result.ofError e : Result T) (.error e.message) := by
  simp [Shows, Result.make, Result.ofValue, Result.ofError, Result.hasValue, Msg.good, Msg.bad, he]

/-- A result always shows exactly one of a value and an error. -/
theorem C88_result_one (r : Result T) : (∃ c, Shows r c) ∧ ∀ v m, ¬ (Shows r (.value v) ∧ Shows r (.error m)) := by
  constructor
  · by_cases h : r.error.message = []
    · exact ⟨.value r.value, by simp [Shows, Result.hasValue, Msg.good, Msg.bad, h]⟩
    · exact ⟨.error r.error.message, by simp [Shows, Result.hasValue, Msg.good, Msg.bad, h]⟩
  · rintro v m ⟨h1, h2⟩
    have := h1.1.symm.trans h2.1
    cases this

/-- **C88 is violated by an error without a text**: the result still has a value, and it is the one from before the error. -/
theorem C88_result_violated (v : T) (as : List (Asg T)) (r : Result T) :
    Shows (r.run (as ++ [.value v, .error ⟨[]⟩])) (.value v) := by
  simp [Result.run, Result.step, Result.assign, Result.assignError, Shows, Result.hasValue, Msg.good, Msg.bad]

example : After (.value 1) [.error ⟨"no file".toList⟩, .value 3] (.value 3) ∧ ∀ e, .error e ∈ ([.error ⟨"no file".toList⟩, .value 3] : List (Asg Nat)) → e.message ≠ [] :=
  ⟨After.value _ [.error ⟨"no file".toList⟩] 3, by
    intro e h
    simp at h
    rw [h]; decide⟩

/-! ## Messages -/

theorem fold_append (ms : List Str) (h : ∀ m ∈ ms, m ≠ []) (s : Str) (hs : s ≠ []) :
    (ms.foldl (fun a m => a.append ⟨m⟩) (⟨s⟩ : Msg)).message = "\n".toList.intercalate (s :: ms) := by
  induction ms generalizing s with
  | nil => simp [List.intercalate]
  | cons m ms ih =>
    rw [List.foldl_cons]
    have : Msg.append ⟨s⟩ ⟨m⟩ = ⟨s ++ "\n".toList ++ m⟩ := by simp [Msg.append, hs]
    rw [this, ih (fun x hx => h x (by simp [hx])) _ (by simp)]
    simp [List.intercalate, List.intersperse_cons_cons]
    cases ms <;> simp [List.intersperse_cons_cons]

/-- Messages that are appended one after the other stand in this order, on lines of their own. -/
theorem C88_append (ms : List Str) (h : ∀ m ∈ ms, m ≠ []) :
    (ms.foldl (fun a m => a.append ⟨m⟩) (⟨[]⟩ : Msg)).message = "\n".toList.intercalate ms := by
  cases ms with
  | nil => rfl
  | cons m ms =>
    rw [List.foldl_cons]
    have : Msg.append ⟨[]⟩ ⟨m⟩ = ⟨m⟩ := by simp [Msg.append]
    rw [this, fold_append ms (fun x hx => h x (by simp [hx])) m (h m (by simp))]

/-- A message is bad exactly if one of the messages it was put together from is; nothing that was appended removes an error. -/
theorem C88_append_bad (ms : List Msg) (m : Msg) : (ms.foldl Msg.append m).bad = (m.bad || ms.any Msg.bad) := by
  induction ms generalizing m with
  | nil => simp
  | cons n ms ih =>
    rw [List.foldl_cons, ih, List.any_cons, ← Bool.or_assoc]
    congr 1
    simp only [Msg.bad, Msg.append]
    cases m.message <;> cases n.message <;> simp

example : (["a".toList, "b".toList].foldl (fun a m => a.append ⟨m⟩) (⟨[]⟩ : Msg)).message = "a\nb".toList := by decide

/-! ## Error codes -/

/-- An error is never lost: the message is logged, and it is in the error code of the caller, or thrown if the caller has none. -/
theorem C88_set_error_or_throw (w : World) (msg : Str) :
    (setErrorOrThrow w msg).2.log = w.log ++ [msg] ∧
    match w.ec with
    | none => (setErrorOrThrow w msg).1 = .throws msg ∧ (setErrorOrThrow w msg).2.ec = none
    | some _ => (setErrorOrThrow w msg).1 = .returns ⟨⟩ ∧
      ∃ e, (setErrorOrThrow w msg).2.ec = some e ∧ e.bad = true ∧ e.good = false ∧ e.message = msg := by
  obtain ⟨ec, log⟩ := w
  cases ec with
  | none => exact ⟨rfl, rfl, rfl⟩
  | some e => exact ⟨rfl, rfl, ⟨-1, msg⟩, rfl, rfl, rfl, rfl⟩

/-- `try_set_error` does not throw, but tells whether there was an error code to set. -/
theorem C88_try_set_error (w : World) (msg : Str) :
    (trySetError w msg).2.log = w.log ++ [msg] ∧ (trySetError w msg).1 = .returns w.ec.isSome ∧
    match w.ec with
    | none => (trySetError w msg).2.ec = none
    | some _ => ∃ e, (trySetError w msg).2.ec = some e ∧ e.bad = true ∧ e.good = false ∧ e.message = msg := by
  obtain ⟨ec, log⟩ := w
  cases ec with
  | none => exact ⟨rfl, rfl, rfl⟩
  | some e => exact ⟨rfl, rfl, ⟨-1, msg⟩, rfl, rfl, rfl, rfl⟩

/-! ## Values kept for a point in time -/

theorem cached_run {V T : Type} [DecidableEq T] (c : Cached V T) (calls : List (T × V)) :
    c.run (calls.map fun p => (p.1, .ok p.2)) = ((kept (some (c.time, c.value)) calls).1.map Res.ok, (kept (some (c.time, c.value)) calls).2) := by
  induction calls generalizing c with
  | nil => rfl
  | cons p calls ih =>
    obtain ⟨t, v⟩ := p
    simp only [List.map_cons, Cached.run, Cached.call, kept]
    by_cases h : t = c.time
    · simp [h, ih]
    · simp [h, ih]

/-- **C88.** A cached value is computed once per change of the time and kept while the time is the same, if the first call is not at the
time the cache was made with. -/
theorem C88_cached_partial {V T : Type} [DecidableEq T] (t0 : T) (v0 : V) (calls : List (T × V))
    (h : ∀ p, calls.head? = some p → p.1 ≠ t0) :
    (Cached.mk v0 t0).run (calls.map fun p => (p.1, .ok p.2)) = ((kept none calls).1.map Res.ok, (kept none calls).2) := by
  rw [cached_run]
  cases calls with
  | nil => rfl
  | cons p calls =>
    obtain ⟨t, v⟩ := p
    have := h (t, v) rfl
    simp only [kept, if_neg this]

/-- Calls at the same time: one evaluation, and every call gives its value. -/
theorem C88_cached_once {V T : Type} [DecidableEq T] (t0 t : T) (v0 v : V) (vs : List V) (h : t ≠ t0) :
    (Cached.mk v0 t0).run ((v :: vs).map fun x => (t, .ok x)) = (List.replicate (vs.length + 1) (.ok v), 1) := by
  have hk : ∀ vs : List V, kept (some (t, v)) (vs.map fun x => (t, x)) = (List.replicate vs.length v, 0) := by
    intro vs
    induction vs with
    | nil => rfl
    | cons x vs ih => simp [kept, ih, List.replicate_succ]
  have := cached_run (Cached.mk v0 t0) ((v :: vs).map fun x => (t, x))
  simp only [List.map_map] at this
  show (Cached.mk v0 t0).run ((v :: vs).map _) = _
  have e : ((fun p : T × V => (p.1, Res.ok p.2)) ∘ fun x => (t, x)) = fun x => (t, Res.ok x) := rfl
  rw [e] at this
  rw [this]
  simp [kept, h, hk, List.replicate_succ]

/-- A function that throws changes nothing, so that the next call tries again. -/
theorem C88_cached_throw {V T : Type} [DecidableEq T] (c : Cached V T) (t : T) (h : t ≠ c.time) :
    c.call t .err = (.err, c, true) := by
  simp [Cached.call, h]

/-- **C88 is violated at the time the cache was made with**: the function is never called, and the result is the initial value. -/
theorem C88_cached_violated {V T : Type} [DecidableEq T] (t0 : T) (v0 v : V) (vs : List V) :
    (Cached.mk v0 t0).run ((v :: vs).map fun x => (t0, .ok x)) = (List.replicate (vs.length + 1) (.ok v0), 0) := by
  have hk : ∀ vs : List V, (Cached.mk v0 t0).run (vs.map fun x => (t0, .ok x)) = (List.replicate vs.length (.ok v0), 0) := by
    intro vs
    induction vs with
    | nil => rfl
    | cons x vs ih => simp [Cached.run, Cached.call, ih, List.replicate_succ]
  exact hk (v :: vs)

example : (Cached.mk 0 (-1)).run [((0 : Int), .ok 5), (0, .ok 6), (1, .ok 7), (0, .ok 8)] = ([.ok 5, .ok 5, .ok 7, .ok 8], 3) := by decide

end Xo.Outc
