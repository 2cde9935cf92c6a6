import Verif.Model.Ieee

/-!
`filter_1st_order` (/repo/xo/numerical/filter_1st_order.h) with floating-point numbers as they are. `T` has the format `f` and
`TimeT` the format `g`, which is not wider (by default `TimeT` is `float`), so that products of the two have the format `f`.
The exponential function belongs to the platform and is a parameter. (Model/Filter.lean has the filter in exact arithmetic.)
-/
namespace Xo
namespace Ieee
open Num (Fl Fmt)

/-- The members of `filter_1st_order` (filter_1st_order.h:29-31). -/
structure Filt where
  value : Fl
  rate : Fl
  deriving DecidableEq

/-- `update_accurate` (filter_1st_order.h:14-16). -/
def Filt.accurate (f g : Fmt) (ex : Fl → Fl) (s : Filt) (v dt : Fl) : Filt :=
  { s with value := add f v (mul f (sub f s.value v) (ex (mul g (neg s.rate) dt))) }

/-- `update_fast` (filter_1st_order.h:18-20). -/
def Filt.fast (f g : Fmt) (s : Filt) (v dt : Fl) : Filt :=
  { s with value := add f s.value (mul f (mul g dt s.rate) (sub f v s.value)) }

/-- Calls of members. -/
inductive FiltOp where
  | accurate (v dt : Fl)
  | fast (v dt : Fl)
  | setValue (v : Fl)
  | setRate (r : Fl)

/-- One call: `operator()` (filter_1st_order.h:12) is `update_accurate`; `set_value` and `set_rate` (filter_1st_order.h:25-26). -/
def Filt.step (f g : Fmt) (ex : Fl → Fl) (s : Filt) : FiltOp → Filt
  | .accurate v dt => s.accurate f g ex v dt
  | .fast v dt => s.fast f g v dt
  | .setValue v => { s with value := v }
  | .setRate r => { s with rate := r }

/-- What `value` (filter_1st_order.h:22) gives after each of a sequence of calls. -/
def Filt.outputs (f g : Fmt) (ex : Fl → Fl) (s : Filt) : List FiltOp → List Fl
  | [] => []
  | o :: os => (s.step f g ex o).value :: (s.step f g ex o).outputs f g ex os

end Ieee
end Xo
