import Verif.Model.Ieee
import Verif.Model.Color

/-!
Colours as numbers (/repo/xo/utility/color.cpp:97-117, /repo/xo/numerical/math.h:120-125) with components of type `float`,
with rounding and NaN. (Model/Color.lean has them in exact arithmetic.)
-/
namespace Xo
namespace Ieee
open Num (Fl Fmt)

/-- `float_to_byte` (math.h:121, 79): the conversion of NaN to an integer is undefined. `std::round` is exact; halves go up,
since the value is not negative. -/
def floatToByte (f : Fmt) (v : Fl) : Res Nat :=
  match mul f (clamp v (ofNat 0) (ofNat 1)) (ofNat 255) with
  | .fin s m => .ok ⌊val (.fin s m) + 1 / 2⌋.toNat
  | _ => .ub

/-- `f * get_byte( x, start )` (color.cpp:99-100, 105-106) for a byte. -/
def byteToFloat (f : Fmt) (b : Nat) : Fl := mul f (div f (ofNat 1) (ofNat 255)) (ofNat b)

/-- The components of a colour (color.h:10-19). -/
structure Rgba where
  r : Fl
  g : Fl
  b : Fl
  a : Fl
  deriving DecidableEq

/-- `color_from_hex_rgb` (color.cpp:97-101). -/
def fromHexRgb (f : Fmt) (x : Nat) : Rgba :=
  ⟨byteToFloat f (Col.getByte x 16), byteToFloat f (Col.getByte x 8), byteToFloat f (Col.getByte x 0), ofNat 1⟩

/-- `color_from_hex_rgba` (color.cpp:103-107). -/
def fromHexRgba (f : Fmt) (x : Nat) : Rgba :=
  ⟨byteToFloat f (Col.getByte x 24), byteToFloat f (Col.getByte x 16), byteToFloat f (Col.getByte x 8),
    byteToFloat f (Col.getByte x 0)⟩

/-- `hex_rgb_from_color` (color.cpp:109-112). -/
def hexRgb (f : Fmt) (c : Rgba) : Res Nat :=
  (floatToByte f c.r).bind fun r => (floatToByte f c.g).bind fun g => (floatToByte f c.b).bind fun b =>
    .ok (r <<< 16 ||| g <<< 8 ||| b)

/-- `hex_rgba_from_color` (color.cpp:114-117). -/
def hexRgba (f : Fmt) (c : Rgba) : Res Nat :=
  (floatToByte f c.r).bind fun r => (floatToByte f c.g).bind fun g => (floatToByte f c.b).bind fun b =>
    (floatToByte f c.a).bind fun a => .ok (r <<< 24 ||| g <<< 16 ||| b <<< 8 ||| a)

end Ieee
end Xo
