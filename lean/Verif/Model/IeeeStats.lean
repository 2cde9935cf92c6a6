import Verif.Model.Ieee

/-!
Means, variances and weighted averages with rounding: `mean_var` of /repo/xo/container/container_algorithms.h and
`average_` of /repo/xo/numerical/average.h. (Model/Stats.lean and Model/Filter.lean have them in exact arithmetic.)
-/
namespace Xo
namespace Ieee
open Num (Fl Fmt)

/-- The loop of `mean_var` (container_algorithms.h:64-65). -/
def squares (f : Fmt) (mean : Fl) : List Fl → Fl → Fl
  | [], acc => acc
  | x :: xs, acc => squares f mean xs (add f acc (mul f (sub f x mean) (sub f x mean)))

/-- `mean_var` (container_algorithms.h:60-71), of at most 2^prec values: `e - b` becomes a floating-point number. -/
def meanVar (f : Fmt) (vs : List Fl) : Res (Fl × Fl) :=
  Res.bind (average f vs) fun mean => .ok (mean, div f (squares f mean vs (ofNat 0)) (ofNat vs.length))

/-- The members of `average_` (average.h:19-20). -/
structure Avg where
  totV : Fl
  totW : Fl
  deriving DecidableEq

/-- The constructor (average.h:10). -/
def Avg.make : Avg := ⟨ofNat 0, ofNat 0⟩

/-- `add` (average.h:13). -/
def Avg.add (f : Fmt) (a : Avg) (value w : Fl) : Avg := ⟨Ieee.add f a.totV (mul f w value), Ieee.add f a.totW w⟩

/-- `get` (average.h:14). -/
def Avg.get (f : Fmt) (a : Avg) : Fl := if lt (ofNat 0) a.totW then div f a.totV a.totW else ofNat 0

/-- `empty` (average.h:15). -/
def Avg.empty (a : Avg) : Bool := eq a.totW (ofNat 0)

/-- Values added one after the other with the weight of the default argument, one (average.h:13). -/
def Avg.addAll (f : Fmt) (a : Avg) (vs : List Fl) : Avg := vs.foldl (fun a v => a.add f v (ofNat 1)) a

end Ieee
end Xo
