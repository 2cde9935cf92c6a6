import Verif.Model.ColorNode

/-!
The waves and `pos_mod` (/repo/xo/numerical/math.h:140-159) with rounding.
-/
namespace Xo.WaveFl
open Num (Fl Fmt)
open Ieee

/-- `std::abs` of a floating-point number: the sign is cleared. -/
def fabs : Fl → Fl
  | .nan _ => .nan false
  | .inf _ => .inf false
  | .fin _ m => .fin false m

/-- `T( 0.5 )`. -/
def half : Fl := .fin false (1 / 2)

/-- `square_wave` (math.h:140-143). -/
def squareWave (v : Fl) : Fl := if lt (fmod v (ofNat 2)) (ofNat 1) then ofNat 1 else ofNat 0

/-- `triangle_wave` of one argument (math.h:145-148). -/
def triangleWave (f : Fmt) (v : Fl) : Fl :=
  mul f (ofNat 2) (fabs (sub f (mul f half v) (ColNode.floorFl (add f (mul f half v) half))))

/-- `pos_mod` (math.h:150-153). -/
def posMod (f : Fmt) (x y : Fl) : Fl := add f (fmod x y) (mul f (if lt x (ofNat 0) then ofNat 1 else ofNat 0) y)

/-- `triangle_wave` between two limits (math.h:155-159). -/
def triangleWaveIn (f : Fmt) (v l u : Fl) : Fl :=
  let a := sub f u l
  add f (fabs (sub f (posMod f (sub f v u) (mul f (ofNat 2) a)) a)) l

end Xo.WaveFl
