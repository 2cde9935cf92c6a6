import Verif.Model.Basic
import Mathlib.Algebra.Order.Field.Basic

/-!
Model of /repo/xo/numerical/delayer.h over an ordered field (no rounding).
-/
namespace Xo
variable {K : Type} [Field K] [LinearOrder K]

/-- `delayer` (delayer.h:9-39); the buffer has `N ≥ 2` elements (a static assertion). -/
structure Delayer (K : Type) where
  window : K
  time : K
  idx : Nat
  data : List K

namespace Delayer

/-- The constructor (delayer.h:12-17). `data_{ init_value }` gives the value to the first element only. -/
def make (n : Nat) (delay init : K) : Res (Delayer K) :=
  if delay > 0 then .ok ⟨delay / ((n - 1 : Nat) : K), 0, 0, init :: List.replicate (n - 1) 0⟩ else .err

/-- `add_sample` (delayer.h:19-26). -/
def add (d : Delayer K) (value dt : K) : Delayer K :=
  let time := d.time + dt
  if time + 1 / 2 * dt > d.window then
    let idx := (d.idx + 1) % d.data.length
    ⟨d.window, time - d.window, idx, d.data.set idx value⟩
  else { d with time := time }

/-- `delayed_value` (delayer.h:28-31). -/
def delayed (d : Delayer K) : Res K :=
  let w := d.time / d.window
  do
    let a ← Res.ofOptionUb d.data[(d.idx + d.data.length + 2) % d.data.length]?
    let b ← Res.ofOptionUb d.data[(d.idx + d.data.length + 1) % d.data.length]?
    pure (w * a + (1 - w) * b)

end Delayer

/-- `smooth_delayer` (delayer.h:42-78). -/
structure SmoothDelayer (K : Type) where
  window : K
  time : K
  inter : K
  idx : Nat
  data : List K

namespace SmoothDelayer

/-- The constructor (delayer.h:45-51). -/
def make (n : Nat) (delay init : K) : Res (SmoothDelayer K) :=
  if delay > 0 then .ok ⟨delay / ((n : K) - 1 / 2), 0, 0, 0, init :: List.replicate (n - 1) 0⟩ else .err

/-- `add_sample` (delayer.h:53-63). -/
def add (d : SmoothDelayer K) (value dt : K) : SmoothDelayer K :=
  let time := d.time + dt
  if time ≥ d.window then
    let inter := d.inter + (d.window - time + dt) * value
    let idx := (d.idx + 1) % d.data.length
    let time' := time - d.window
    ⟨d.window, time', time' * value, idx, d.data.set idx (inter / d.window)⟩
  else { d with time := time, inter := d.inter + value * dt }

/-- `delayed_value` (delayer.h:65-68). -/
def delayed (d : SmoothDelayer K) : Res K := Delayer.delayed ⟨d.window, d.time, d.idx, d.data⟩

end SmoothDelayer
end Xo
