import Verif.Model.Optional
import Mathlib.Data.List.Induction

/-!
C46: optionals.
-/
namespace Xo

namespace Spec

/-- Changes of an optional: assigning a value, or `reset()`. -/
inductive OptOp (T : Type) where
  | assign (v : T)
  | reset

/-- The content a user expects: the value last assigned, unless reset since. -/
def optContent {T : Type} : List (OptOp T) → Option T
  | [] => none
  | ops => match ops.getLast? with
    | some (.assign v) => some v
    | _ => none

end Spec
open Spec

variable {T R : Type}

/-- What an optional shows. -/
def OptKind.content (k : OptKind T R) (r : R) : Option T := if k.has r then some (k.get r) else none

/-- A history of changes from the empty optional. -/
def OptKind.runOps (k : OptKind T R) : List (OptOp T) → R
  | ops => ops.foldl (fun _ op => match op with | .assign v => k.make v | .reset => k.empty) k.empty

/-- `value()` and `value_or` agree with the content, for every representation. -/
theorem C46_value (k : OptKind T R) (r : R) (d : T) :
    (k.value r = .err ↔ k.content r = none) ∧ (∀ v, k.value r = .ok v ↔ k.content r = some v) ∧
    k.valueOr r d = (k.content r).getD d := by
  unfold OptKind.value OptKind.content OptKind.valueOr
  cases k.has r <;> simp

/-- Histories: the representation must make values non-empty and readable, and be empty by default. -/
theorem content_runOps (k : OptKind T R) (ok : T → Prop) (he : k.content k.empty = none)
    (hm : ∀ v, ok v → k.content (k.make v) = some v) (ops : List (OptOp T))
    (hok : ∀ v, OptOp.assign v ∈ ops → ok v) : k.content (k.runOps ops) = optContent ops := by
  unfold OptKind.runOps
  induction ops using List.reverseRecOn with
  | nil => exact he
  | append_singleton ops op _ =>
    rw [List.foldl_append]
    have hne : ops ++ [op] ≠ [] := by simp
    have : optContent (ops ++ [op]) = match op with | .assign v => some v | .reset => none := by
      unfold optContent
      split
      · next e => exact absurd e hne
      · rw [List.getLast?_concat]; cases op <;> rfl
    rw [this]
    cases op with
    | assign v => exact hm v (hok v (by simp))
    | reset => exact he

/-- **C46, class types and `bool`.** After any history the content is the value last assigned. -/
theorem C46_other (dflt : T) (eq : T → T → Bool) (ops : List (OptOp T)) :
    (OptKind.other dflt eq).content ((OptKind.other dflt eq).runOps ops) = optContent ops :=
  content_runOps _ (fun _ => True) rfl (fun _ _ => rfl) ops (fun _ _ => trivial)

/-- **C46, integral types (partial).** The same for integral types, as long as the sentinel is never assigned. -/
theorem C46_integral_partial [DecidableEq T] (sentinel : T) (ops : List (OptOp T))
    (h : OptOp.assign sentinel ∉ ops) :
    (OptKind.integral sentinel).content ((OptKind.integral sentinel).runOps ops) = optContent ops := by
  refine content_runOps _ (fun v => v ≠ sentinel) (by simp [OptKind.content, OptKind.integral])
    (fun v hv => by simp [OptKind.content, OptKind.integral, hv]) ops ?_
  rintro v hv rfl; exact h hv

/-- **C46 is violated for the sentinel.** Constructing from it gives an empty optional; `value()` reports an error. -/
theorem C46_integral_violated [DecidableEq T] (sentinel : T) :
    (OptKind.integral sentinel).content ((OptKind.integral sentinel).make sentinel) = none ∧
    (OptKind.integral sentinel).value ((OptKind.integral sentinel).make sentinel) = .err := by
  simp [OptKind.content, OptKind.integral, OptKind.value]

/-- **C46, floating point (partial).** The same, as long as NaN is never assigned. -/
theorem C46_floating_partial {F : Type} [DecidableEq F] (ops : List (OptOp (Option F)))
    (h : OptOp.assign none ∉ ops) :
    (OptKind.floating (F := F)).content (OptKind.floating.runOps ops) = optContent ops := by
  refine content_runOps _ (fun v => v ≠ none) (by simp [OptKind.content, OptKind.floating, OptKind.floatEq])
    (fun v hv => ?_) ops (by rintro v hv rfl; exact h hv)
  cases v with
  | none => exact absurd rfl hv
  | some x => simp [OptKind.content, OptKind.floating, OptKind.floatEq]

/-- NaN is no value. -/
theorem C46_floating_violated {F : Type} [DecidableEq F] :
    (OptKind.floating (F := F)).content (OptKind.floating.make none) = none := rfl

/-- A comparison that decides equality on the values an optional can contain. -/
def OptKind.EqOk (k : OptKind T R) : Prop := ∀ r a, k.content r = some a → ∀ b, k.eq a b = true ↔ a = b

theorem C46_eqOk_integral [DecidableEq T] (sentinel : T) : (OptKind.integral sentinel).EqOk := by
  intro r a _ b; simp [OptKind.integral]

theorem C46_eqOk_floating {F : Type} [DecidableEq F] : (OptKind.floating (F := F)).EqOk := by
  intro r a h b
  cases r with
  | none => simp [OptKind.content, OptKind.floating, OptKind.floatEq] at h
  | some x =>
    simp [OptKind.content, OptKind.floating, OptKind.floatEq] at h
    subst h
    cases b with
    | none => simp [OptKind.floating, OptKind.floatEq]
    | some y => simp [OptKind.floating, OptKind.floatEq]

theorem C46_eqOk_other [DecidableEq T] (dflt : T) : (OptKind.other dflt (fun a b => a == b)).EqOk := by
  intro r a _ b; simp [OptKind.other]

/-- **C46, `==`.** Two optionals are equal exactly if their contents are (empty equals only empty); an optional
equals a value exactly if it contains it; both argument orders agree, and `!=` with a value is the negation. -/
theorem C46_eq (k : OptKind T R) (hk : k.EqOk) (l r : R) (v : T) :
    (k.eqOpt l r = true ↔ k.content l = k.content r) ∧
    (k.eqVal l v = true ↔ k.content l = some v) ∧
    k.valEq v l = k.eqVal l v ∧ k.neVal l v = !k.eqVal l v ∧ k.valNe v l = !k.valEq v l := by
  refine ⟨?_, ?_, rfl, rfl, rfl⟩
  · unfold OptKind.eqOpt
    cases hl : k.has l <;> cases hr : k.has r <;> simp [OptKind.content, hl, hr]
    have := hk r (k.get r) (by simp [OptKind.content, hr]) (k.get l)
    rw [this]; exact eq_comm
  · unfold OptKind.eqVal
    cases hl : k.has l <;> simp [OptKind.content, hl]
    exact hk l (k.get l) (by simp [OptKind.content, hl]) v

/-- **C46 is violated for `!=` between optionals.** It never returns, whatever the operands. -/
theorem C46_ne_violated (k : OptKind T R) (n : Nat) (l r : R) : k.neOpt n l r = none := by
  induction n generalizing l r with
  | zero => rfl
  | succ n ih => exact ih r l

/-- Non-vacuity: 32-bit `int` and `unsigned`. -/
example : (OptOp.assign (OptKind.signedSentinel 32)) ∉ [OptOp.assign (5 : BitVec 32), .reset, .assign 7] := by
  simp [OptKind.signedSentinel]; decide
example : (OptKind.integral (OptKind.unsignedSentinel 32)).content
    ((OptKind.integral (OptKind.unsignedSentinel 32)).runOps [.assign 5, .reset, .assign 7]) = some 7 := by decide

end Xo
