import Verif.Model.NumText
import Verif.Spec.Num
import Mathlib.Order.WithBot

/-! What a floating-point number stands for, independent of the model: a rational number, or one of two infinities. -/
namespace Xo
namespace Ieee
namespace Spec
open Num (Fl Fmt)

/-- Not a number. -/
def IsNan : Fl → Prop
  | .nan _ => True
  | _ => False

/-- A finite number. -/
def Finite : Fl → Prop
  | .fin _ _ => True
  | _ => False

/-- The number in the order of the rational numbers with infinities at both ends (without meaning for NaN). -/
def num : Fl → WithBot (WithTop Rat)
  | .fin s m => ((if s then -m else m : Rat) : WithTop Rat)
  | .inf true => ⊥
  | .inf false => ((⊤ : WithTop Rat) : WithBot (WithTop Rat))
  | .nan _ => ⊥

/-- A value of the type: its magnitude has few enough bits. -/
def OfType (f : Fmt) : Fl → Prop
  | .fin _ m => Xo.Spec.Binary f.prec f.emin f.emax m
  | _ => True

instance : DecidablePred IsNan := fun v => match v with
  | .nan _ => .isTrue trivial
  | .inf _ => .isFalse id
  | .fin _ _ => .isFalse id

end Spec
end Ieee
end Xo
